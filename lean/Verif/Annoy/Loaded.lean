import Verif.Annoy.Self
/-
C194: `save` and `load` of the native index (annoyindex/annoylib.h:1007-1129).
-/
set_option autoImplicit false
namespace Veri
namespace Annoy

/-! ### Model -/

/-- annoylib.h:458-461: `children[0]`, which shares its memory with the norm of an item. -/
def Node.first (nd : Node) : Nat :=
  match nd.children with
  | c :: _ => c
  | [] => nd.norm.toNat

/-- annoylib.h:1105-1113: the nodes with `m` descendants, from the one before `i` on downwards. -/
def scan (file : List Node) (m : Nat) : Nat → List Nat
  | 0 => []
  | i + 1 => if (file[i]?.getD Node.zero).desc = m then i :: scan file m i else []

/-- annoylib.h:1069-1122 `load`, of a file that can be opened and has whole nodes; an empty one is refused. -/
def load (f : Nat) (file : List Node) : Option Index :=
  match file.getLast? with
  | none => none
  | some top =>
    let roots := scan file top.desc file.length
    let first (i : Option Nat) : Option Nat := i.map fun i => (file[i]?.getD Node.zero).first
    some ⟨f, top.desc, file, if 1 < roots.length ∧ first roots.head? = first roots.getLast? then roots.dropLast else roots⟩

/-- annoylib.h:1007-1037 `save`, if the file can be written: the nodes are written, and the file takes the place of the index. -/
def save (ix : Index) : List Node × Option Index := (ix.nodes, load ix.f ix.nodes)

/-- The products of the question with the planes of the index are finite numbers. -/
def Finite (A : Lib) (ix : Index) (q : List F32) : Prop :=
  ∀ nd ∈ ix.nodes, maxChildren ix.f < nd.desc → F32.mag (A.dot nd.v q) < F32.mag 0x7F800000

/-! ### The shape of what `build` leaves -/

section
variable {A : Lib}

theorem makeTree_grows {f nItems : Nat} {fuel : Nat} {nodes nodes' : List Node} {k k' : Kiss} {indices : List Nat} {isRoot : Bool} {i : Nat}
    (h : makeTree A f nItems fuel nodes k indices isRoot = .ok (i, nodes', k')) : ∃ more, nodes' = nodes ++ more := by
  induction fuel generalizing nodes nodes' k k' indices isRoot i with
  | zero => cases h
  | succ fuel ih =>
    unfold makeTree at h
    split at h
    · obtain ⟨a, -, h⟩ := Out.bind_ok h
      cases h
      exact ⟨[], by simp⟩
    · simp only at h
      split at h
      · cases h; exact ⟨_, rfl⟩
      · obtain ⟨⟨s, k1⟩, -, h⟩ := Out.bind_ok h
        obtain ⟨⟨s', k2⟩, -, h⟩ := Out.bind_ok h
        simp only at h
        split at h
        all_goals
          obtain ⟨⟨b, nodes1, k3⟩, hb, h⟩ := Out.bind_ok h
          obtain ⟨⟨a, nodes2, k4⟩, ha, h⟩ := Out.bind_ok h
          obtain ⟨m1, rfl⟩ := ih hb
          obtain ⟨m2, rfl⟩ := ih ha
          cases h
          exact ⟨m1 ++ m2 ++ [_], by simp; rfl⟩

/-- The node of a tree is the last one that is made. -/
theorem makeTree_last {f nItems : Nat} {fuel : Nat} {nodes nodes' : List Node} {k k' : Kiss} {indices : List Nat} {isRoot : Bool} {i : Nat}
    (h : makeTree A f nItems fuel nodes k indices isRoot = .ok (i, nodes', k')) (h1 : ¬ (indices.length = 1 ∧ isRoot = false)) :
    ∃ more nd, nodes' = (nodes ++ more) ++ [nd] ∧ i = (nodes ++ more).length ∧ nd.desc = if isRoot then nItems else indices.length := by
  cases fuel with
  | zero => cases h
  | succ fuel =>
    unfold makeTree at h
    rw [if_neg h1] at h
    simp only at h
    split at h
    · cases h; exact ⟨[], _, by simp; rfl, by simp, rfl⟩
    · obtain ⟨⟨s, k1⟩, -, h⟩ := Out.bind_ok h
      obtain ⟨⟨s', k2⟩, -, h⟩ := Out.bind_ok h
      simp only at h
      split at h
      all_goals
        obtain ⟨⟨b, nodes1, k3⟩, hb, h⟩ := Out.bind_ok h
        obtain ⟨⟨a, nodes2, k4⟩, ha, h⟩ := Out.bind_ok h
        obtain ⟨m1, rfl⟩ := makeTree_grows hb
        obtain ⟨m2, rfl⟩ := makeTree_grows ha
        cases h
        exact ⟨m1 ++ m2, _, by rw [List.append_assoc nodes m1 m2], by rw [List.append_assoc nodes m1 m2], rfl⟩

/-- The node made before it belongs to a part of the items. -/
theorem makeTree_prev (hA : A.Ok) {f nItems : Nat} {fuel : Nat} {nodes nodes' : List Node} {k k' : Kiss} {indices : List Nat} {i : Nat}
    (h : makeTree A f nItems fuel nodes k indices true = .ok (i, nodes', k')) (h1 : maxChildren f < indices.length)
    (hmax : indices.length < 2^31) :
    ∃ more a nd, nodes' = (nodes ++ more) ++ [a, nd] ∧ a.desc < indices.length := by
  cases fuel with
  | zero => cases h
  | succ fuel =>
    have hK : 2 ≤ maxChildren f := Nat.le_add_left _ _
    unfold makeTree at h
    rw [if_neg (by simp)] at h
    simp only at h
    rw [if_neg (by omega)] at h
    obtain ⟨⟨s, k1⟩, hs, h⟩ := Out.bind_ok h
    obtain ⟨⟨s', k2⟩, hs', h⟩ := Out.bind_ok h
    obtain ⟨hp, ho⟩ := balance_perm hs' (attempts_perm hs)
    have hlen := hp.length_eq
    rw [List.length_append] at hlen
    have hl : s'.l.length ≠ 0 := by
      intro h0; rw [h0, hA.right _ (by omega)] at ho; cases ho
    have hr : s'.r.length ≠ 0 := by
      intro h0; rw [h0, hA.left _ (by omega)] at ho; cases ho
    simp only at h
    split at h
    all_goals
      obtain ⟨⟨b, nodes1, k3⟩, hb, h⟩ := Out.bind_ok h
      obtain ⟨⟨a, nodes2, k4⟩, ha, h⟩ := Out.bind_ok h
      obtain ⟨m1, rfl⟩ := makeTree_grows hb
      obtain ⟨m2, nd, rfl, -, hd⟩ := makeTree_last ha (by omega)
      cases h
      refine ⟨m1 ++ m2, nd, _, by simp; rfl, ?_⟩
      rw [hd]
      simp only [Bool.false_eq_true, if_false]
      omega

/-- What `build` leaves before it copies the roots: these are in order, the last one is the last node, and the node before it has fewer
descendants; or each node is an item or a list of all of them. -/
structure Shape (f n : Nat) (nodes : List Node) (roots : List Nat) : Prop where
  inc : roots.Pairwise (· < ·)
  node : ∀ r ∈ roots, n ≤ r ∧ ∃ nd, nodes[r]? = some nd ∧ nd.desc = n
  last : ∀ r, roots.getLast? = some r → r + 1 = nodes.length
  prev : maxChildren f < n → roots ≠ [] → ∃ front a b, nodes = front ++ [a, b] ∧ a.desc ≠ n
  small : n ≤ maxChildren f → nodes.length = n + roots.length ∧
    ∀ i, n ≤ i → i < nodes.length → ∃ nd rest, nodes[i]? = some nd ∧ nd.desc = n ∧ nd.children = List.range n ++ rest

theorem threadBuild_shape (hA : A.Ok) {f : Nat} {vs : List (List F32)} (hmax : vs.length < 2^31) {fuel : Nat} {nodes nodes' : List Node}
    {roots roots' : List Nat} {k : Kiss} (hb : Built A f vs nodes roots)
    (hs : Shape f vs.length nodes roots) (h : threadBuild A f vs.length fuel nodes roots k = .ok (nodes', roots')) :
    Shape f vs.length nodes' roots' := by
  induction fuel generalizing nodes roots k with
  | zero =>
    unfold threadBuild at h
    split at h
    · cases h; exact hs
    · cases h
  | succ fuel ih =>
    unfold threadBuild at h
    split at h
    · cases h; exact hs
    · rename_i hlt
      have hle := hb.count
      have hv : 0 < vs.length := by omega
      have hit := hb.itemsFirst
      rw [hb.itemsOf] at h
      obtain ⟨⟨i, nodes1, k1⟩, he, h⟩ := Out.bind_ok h
      have hm := (makeTree_spec hA (f := f) (fuel := fuel) (k := k) (indices := List.range vs.length) (isRoot := true) hit
        (fun j hj => List.mem_range.1 hj) (by intro h0; have := congrArg List.length h0; rw [List.length_range, List.length_nil] at this; omega) (fun _ => by simp)
        (by rw [List.length_range]; exact hmax)).2 _ _ _ he
      obtain ⟨more, nd, hn1, hi, hd⟩ := makeTree_last he (by simp)
      have hn1' : nodes1 = nodes ++ (more ++ [nd]) := by rw [hn1, List.append_assoc]
      refine ih (k := k1) ?_ ?_ h
      · refine ⟨?_, ?_, ?_⟩
        · rw [hn1']; exact (hb.mono _).items
        · intro r hr
          rcases List.mem_append.1 hr with hr | hr
          · rw [hn1']; exact (hb.mono _).trees r hr
          · rw [List.mem_singleton.1 hr]
            obtain ⟨ys, s, g1, g2, g3, g4⟩ := hm.tree
            exact ⟨ys, s, g1, g2, g3, fun h => g4 rfl (by rw [List.length_range]; exact h)⟩
        · rw [hn1]; simp only [List.length_append, List.length_cons, List.length_nil]; omega
      · refine ⟨?_, ?_, ?_, ?_, ?_⟩
        · rw [List.pairwise_append]
          refine ⟨hs.inc, by simp, ?_⟩
          intro r hr r' hr'
          rw [List.mem_singleton.1 hr', hi]
          obtain ⟨-, nd', g, -⟩ := hs.node r hr
          have := (List.getElem?_eq_some_iff.1 g).1
          simp only [List.length_append]; omega
        · intro r hr
          rcases List.mem_append.1 hr with hr | hr
          · obtain ⟨g1, nd', g2, g3⟩ := hs.node r hr
            refine ⟨g1, nd', ?_, g3⟩
            rw [hn1', List.getElem?_append_left (List.getElem?_eq_some_iff.1 g2).1, g2]
          · rw [List.mem_singleton.1 hr]
            refine ⟨by rw [hi, List.length_append]; omega, nd, ?_, by rw [hd]; rfl⟩
            rw [hn1, hi]; exact List.getElem?_concat_length ..
        · intro r hr
          rw [List.getLast?_concat] at hr
          cases hr
          rw [hn1, hi]; simp only [List.length_append, List.length_cons, List.length_nil]
        · intro hbig _
          obtain ⟨more', a, nd', g1, g2⟩ := makeTree_prev hA he (by rw [List.length_range]; exact hbig) (by rw [List.length_range]; exact hmax)
          rw [List.length_range] at g2
          exact ⟨_, a, nd', g1, by omega⟩
        · intro hsm
          obtain ⟨g1, g2⟩ := hs.small hsm
          have : nodes1 = nodes ++ [⟨vs.length, List.range vs.length ++ List.replicate (maxChildren f - vs.length) 0, 0, []⟩] := by
            cases fuel with
            | zero => cases he
            | succ fuel =>
              unfold makeTree at he
              rw [if_neg (by simp)] at he
              simp only [List.length_range] at he
              rw [if_pos ⟨hsm, .inr (.inl hsm)⟩] at he
              cases he
              simp
          rw [this]
          refine ⟨by simp only [List.length_append, List.length_cons, List.length_nil]; omega, ?_⟩
          intro j h1 h2
          rw [List.length_append, List.length_cons, List.length_nil] at h2
          by_cases hj : j < nodes.length
          · rw [List.getElem?_append_left hj]; exact g2 j h1 hj
          · have : j = nodes.length := by omega
            rw [this]
            exact ⟨_, _, List.getElem?_concat_length .., rfl, rfl⟩

theorem shape_start (A : Lib) (f : Nat) (vs : List (List F32)) : Shape f vs.length (vs.map (itemNode A)) [] := by
  refine ⟨.nil, by simp, by simp, by simp, fun _ => ⟨by simp, ?_⟩⟩
  intro i h1 h2
  rw [List.length_map] at h2; omega

theorem mapM_eq {α : Type} {l : List α} : ∀ {is : List Nat} {xs : List α}, (is.mapM fun j => l[j]?) = some xs →
    ∀ (k r : Nat), is[k]? = some r → xs[k]? = l[r]?
  | [], xs, h, k, r, hk => by simp at hk
  | i :: is, xs, h, k, r, hk => by
    rw [List.mapM_cons] at h
    cases hi : l[i]? with
    | none => rw [hi] at h; cases h
    | some y =>
      rw [hi] at h
      cases hm : is.mapM fun j => l[j]? with
      | none => rw [hm] at h; cases h
      | some ys =>
        rw [hm] at h
        cases h
        cases k with
        | zero => simp at hk; subst hk; rw [hi]; rfl
        | succ k => exact mapM_eq hm k r (by simpa using hk)

theorem build_shape (hA : A.Ok) {f fuel : Nat} {vs : List (List F32)} (hmax : vs.length < 2^31) {ix : Index}
    (h : build A f fuel vs = .ok ix) : ∃ nodes copies, ix = ⟨f, vs.length, nodes ++ copies, ix.roots⟩ ∧ Shape f vs.length nodes ix.roots ∧
      copies.length = ix.roots.length ∧ ∀ (k r : Nat), ix.roots[k]? = some r → copies[k]? = nodes[r]? := by
  obtain ⟨⟨nodes, roots⟩, he, h⟩ := Out.bind_ok h
  have hs := threadBuild_shape hA hmax (built_start A f vs) (shape_start A f vs) he
  obtain ⟨xs, hx, hl⟩ := mapM_get (l := nodes) (is := roots) (fun r hr => by
    obtain ⟨-, nd, g, -⟩ := hs.node r hr
    exact (List.getElem?_eq_some_iff.1 g).1)
  simp only [hx] at h
  cases h
  refine ⟨nodes, xs, rfl, hs, ?_, ?_⟩
  · exact hl
  · exact mapM_eq hx

/-! ### What `load` finds -/

theorem scan_run (file : List Node) (m : Nat) (lo : Nat) (h0 : lo = 0 ∨ (file[lo - 1]?.getD Node.zero).desc ≠ m) :
    ∀ (n : Nat), (∀ i, lo ≤ i → i < lo + n → (file[i]?.getD Node.zero).desc = m) → scan file m (lo + n) = (List.range' lo n).reverse
  | 0, _ => by
    rw [Nat.add_zero]
    cases lo with
    | zero => rfl
    | succ lo =>
      rcases h0 with h0 | h0
      · omega
      · rw [Nat.add_sub_cancel] at h0; rw [scan, if_neg h0]; rfl
  | n + 1, h => by
    rw [← Nat.add_assoc, scan, if_pos (h (lo + n) (by omega) (by omega)), scan_run file m lo h0 n (fun i h1 h2 => h i h1 (by omega)),
      List.range'_concat]
    simp

theorem load_big (hA : A.Ok) {f fuel : Nat} {vs : List (List F32)} (hmax : vs.length < 2^31) {ix : Index}
    (h : build A f fuel vs = .ok ix) (hbig : maxChildren f < vs.length) :
    ∃ N, load f ix.nodes = some { ix with roots := (List.range' N ix.roots.length).reverse } ∧
      (∀ (k r : Nat), ix.roots[k]? = some r → ix.nodes[N + k]? = ix.nodes[r]? ∧ ∃ nd, ix.nodes[r]? = some nd ∧ nd.desc = vs.length) ∧
      ix.roots.Pairwise (· < ·) := by
  obtain ⟨nodes, copies, he, hs, hl, hc⟩ := build_shape hA hmax h
  have hne := ((build_spec hA (f := f) (fuel := fuel) hmax).2 ix h).2.2.2.2.2 (by intro h0; rw [h0] at hbig; exact absurd hbig (by simp))
  generalize hR : ix.roots = roots at *
  subst he
  simp only at hR
  simp only
  obtain ⟨front, a, b, hn, ha⟩ := hs.prev hbig hne
  obtain ⟨rs, last, rfl⟩ : ∃ rs last, roots = rs ++ [last] := ⟨roots.dropLast, roots.getLast hne, (List.dropLast_concat_getLast hne).symm⟩
  have hlast := hs.last last (by simp)
  have hN : nodes.length = front.length + 2 := by rw [hn]; simp
  have hcopy : ∀ (k r : Nat), (rs ++ [last])[k]? = some r → (nodes ++ copies)[nodes.length + k]? = (nodes ++ copies)[r]? ∧
      ∃ nd, (nodes ++ copies)[r]? = some nd ∧ nd.desc = vs.length := by
    intro k r hk
    obtain ⟨-, nd, g1, g2⟩ := hs.node r (List.mem_of_getElem? hk)
    have hr := (List.getElem?_eq_some_iff.1 g1).1
    rw [List.getElem?_append_right (by omega), Nat.add_sub_cancel_left, hc k r hk, List.getElem?_append_left hr]
    exact ⟨rfl, nd, g1, g2⟩
  have hdesc : ∀ i, front.length + 1 ≤ i → i < front.length + 1 + ((rs ++ [last]).length + 1) →
      ((nodes ++ copies)[i]?.getD Node.zero).desc = vs.length := by
    intro i h1 h2
    by_cases hi : i = front.length + 1
    · obtain ⟨-, nd, g1, g2⟩ := hs.node last (by simp)
      have : i = last := by omega
      rw [this, List.getElem?_append_left (by omega), g1]
      exact g2
    · obtain ⟨k, rfl⟩ : ∃ k, i = nodes.length + k := ⟨i - nodes.length, by omega⟩
      obtain ⟨g1, nd, g2, g3⟩ := hcopy k ((rs ++ [last])[k]'(by omega)) (List.getElem?_eq_getElem (by omega))
      rw [g1, g2]
      exact g3
  have hprev : ((nodes ++ copies)[front.length + 1 - 1]?.getD Node.zero).desc ≠ vs.length := by
    rw [hn, List.append_assoc, Nat.add_sub_cancel, List.getElem?_append_right (Nat.le_refl _), Nat.sub_self]
    exact ha
  have hlen : (nodes ++ copies).length = front.length + 1 + ((rs ++ [last]).length + 1) := by
    rw [List.length_append, hl]; omega
  have hscan := scan_run (nodes ++ copies) vs.length (front.length + 1) (.inr hprev) ((rs ++ [last]).length + 1) hdesc
  rw [← hlen] at hscan
  -- the last copy is that of the last node before the copies
  have hk : (rs ++ [last])[rs.length]? = some last := by simp
  obtain ⟨e1, nd, e2, e3⟩ := hcopy rs.length last hk
  have htop : (nodes ++ copies).getLast? = some nd := by
    rw [List.getLast?_eq_getElem?, ← e2, ← e1]
    congr 1
    rw [List.length_append, hl, List.length_append, List.length_singleton]; omega
  refine ⟨nodes.length, ?_, hcopy, hs.inc⟩
  unfold load
  rw [htop]
  simp only
  rw [e3, hscan]
  have hh : (List.range' (front.length + 1) ((rs ++ [last]).length + 1)).reverse.head? = some (nodes.length + rs.length) := by
    rw [List.head?_reverse, List.range'_concat, List.getLast?_concat, List.length_append, List.length_singleton]
    congr 1; omega
  have ht : (List.range' (front.length + 1) ((rs ++ [last]).length + 1)).reverse.getLast? = some last := by
    rw [List.getLast?_reverse, List.range'_succ, List.head?_cons]
    congr 1; omega
  rw [if_pos]
  · congr 1
    rw [List.range'_succ, List.reverse_cons, List.dropLast_concat]
    congr 3
    omega
  · rw [hh, ht]
    refine ⟨by simp, ?_⟩
    simp only [Option.map_some]
    rw [e1]

/-! ### The same search -/

/-- An entry of the queue without the sign of a zero. -/
def cls (x : F32 × Nat) : Int × Nat := (F32.key x.1, x.2)

def LexLe (a b : Int × Nat) : Prop := a.1 < b.1 ∨ (a.1 = b.1 ∧ a.2 ≤ b.2)

theorem LexLe.antisymm {a b : Int × Nat} (h : LexLe a b) (h' : LexLe b a) : a = b := by
  unfold LexLe at *
  apply Prod.ext <;> omega

theorem popMax_cls {q : List (F32 × Nat)} (hn : ∀ p ∈ q, F32.isNaN p.1 = false) {x : F32 × Nat} {rest : List (F32 × Nat)}
    (h : popMax q = some (x, rest)) : ∀ y ∈ q, LexLe (cls y) (cls x) := by
  induction q generalizing x rest with
  | nil => cases h
  | cons z zs ih =>
    unfold popMax at h
    have hz := hn z (by simp)
    cases hp : popMax zs with
    | none =>
      rw [hp] at h
      simp only [Option.some.injEq, Prod.mk.injEq] at h
      obtain ⟨rfl, rfl⟩ := h
      rw [popMax_none hp]
      intro y hy
      rw [List.mem_singleton.1 hy]
      exact .inr ⟨rfl, Nat.le_refl _⟩
    | some r =>
      obtain ⟨w, ws⟩ := r
      have hw := ih (fun p hp => hn p (by simp [hp])) hp
      have hwn := hn w (List.mem_cons_of_mem _ ((popMax_perm hp).mem_iff.2 (by simp)))
      rw [hp] at h
      simp only at h
      split at h
      · rename_i hlt
        simp only [Option.some.injEq, Prod.mk.injEq] at h
        obtain ⟨rfl, rfl⟩ := h
        intro y hy
        rcases List.mem_cons.1 hy with rfl | hy
        · simp only [pairLt, F32.lt, hz, hwn, Bool.not_false, Bool.true_and, Bool.or_eq_true, Bool.and_eq_true, decide_eq_true_eq,
            Bool.not_eq_true', decide_eq_false_iff_not] at hlt
          simp only [LexLe, cls]
          omega
        · exact hw y hy
      · rename_i hlt
        simp only [Option.some.injEq, Prod.mk.injEq] at h
        obtain ⟨rfl, rfl⟩ := h
        intro y hy
        rcases List.mem_cons.1 hy with rfl | hy
        · exact .inr ⟨rfl, Nat.le_refl _⟩
        · have h1 := hw y hy
          simp only [pairLt, F32.lt, hz, hwn, Bool.not_false, Bool.true_and, Bool.or_eq_true, Bool.and_eq_true, decide_eq_true_eq,
            Bool.not_eq_true', decide_eq_false_iff_not, not_or] at hlt
          simp only [LexLe, cls] at h1 ⊢
          omega

/-- The greatest of the entries comes out, and the others stay. -/
theorem popMax_out {q : List (F32 × Nat)} (hn : ∀ p ∈ q, F32.isNaN p.1 = false) {M : Int × Nat} {L : List (Int × Nat)}
    (hp : (q.map cls).Perm (M :: L)) (hM : ∀ y ∈ L, LexLe y M) :
    ∃ x rest, popMax q = some (x, rest) ∧ cls x = M ∧ (rest.map cls).Perm L ∧ F32.isNaN x.1 = false ∧ ∀ p ∈ rest, F32.isNaN p.1 = false := by
  cases h : popMax q with
  | none =>
    rw [popMax_none h] at hp
    exact absurd hp.length_eq (by simp)
  | some r =>
    obtain ⟨x, rest⟩ := r
    have hperm := popMax_perm h
    have hx : cls x = M := by
      have h1 : LexLe (cls x) M := by
        rcases List.mem_cons.1 (hp.mem_iff.1 (List.mem_map.2 ⟨x, hperm.mem_iff.2 (by simp), rfl⟩)) with h1 | h1
        · rw [h1]; exact .inr ⟨rfl, Nat.le_refl _⟩
        · exact hM _ h1
      obtain ⟨y, hy, rfl⟩ := List.mem_map.1 (hp.mem_iff.2 (List.mem_cons_self ..))
      exact h1.antisymm (popMax_cls hn h y hy)
    refine ⟨x, rest, rfl, hx, ?_, hn x (hperm.mem_iff.2 (by simp)), fun p hp => hn p (hperm.mem_iff.2 (by simp [hp]))⟩
    have := (hperm.map cls).symm.trans hp
    rw [List.map_cons, hx] at this
    exact this.cons_inv

theorem pq_same {d d' m : F32} (right : Bool) (h1 : F32.isNaN d = false) (h2 : F32.isNaN d' = false) (hk : F32.key d = F32.key d')
    (hd : F32.key d ≤ F32.key 0x7F800000) (hm : F32.mag m < F32.mag 0x7F800000) :
    F32.key (pqDistance d m right) = F32.key (pqDistance d' m right) ∧ F32.key (pqDistance d m right) < F32.key 0x7F800000 ∧
      F32.isNaN (pqDistance d m right) = false ∧ F32.isNaN (pqDistance d' m right) = false := by
  have hinf : F32.key 0x7F800000 = (F32.mag 0x7F800000 : Int) := by decide
  have main : ∀ x : F32, F32.mag x < F32.mag 0x7F800000 →
      F32.key (if F32.lt x d then x else d) = F32.key (if F32.lt x d' then x else d') ∧ F32.key (if F32.lt x d then x else d) < F32.key 0x7F800000 ∧
      F32.isNaN (if F32.lt x d then x else d) = false ∧ F32.isNaN (if F32.lt x d' then x else d') = false := by
    intro x hx
    have hxn : F32.isNaN x = false := by
      have : F32.mag 0x7F800000 = 0x7F800000 := by decide
      unfold F32.isNaN
      rw [this] at hx
      simp
      omega
    have hxk : F32.key x < F32.key 0x7F800000 := by
      rw [hinf]
      unfold F32.key
      split <;> omega
    have e1 : F32.lt x d = decide (F32.key x < F32.key d) := by simp [F32.lt, hxn, h1]
    have e2 : F32.lt x d' = decide (F32.key x < F32.key d) := by simp [F32.lt, hxn, h2, hk]
    rw [e1, e2]
    by_cases hc : F32.key x < F32.key d
    · simp [hc, hxk, hxn]
    · simp only [hc, decide_false, Bool.false_eq_true, if_false]
      exact ⟨hk, by omega, h1, h2⟩
  unfold pqDistance
  cases right with
  | true => simpa using main m hm
  | false =>
    have := main m.negate (by rw [mag_negate]; exact hm)
    simpa using this

/-- Two queues that differ in the places of the roots. -/
structure Alike (roots : List Nat) (N j : Nat) (c : List (Int × Nat)) (q q' : List (F32 × Nat)) : Prop where
  one : (q.map cls).Perm ((roots.take j).map (fun r => (F32.key 0x7F800000, r)) ++ c)
  two : (q'.map cls).Perm ((List.range' N j).map (fun r => (F32.key 0x7F800000, r)) ++ c)
  num : ∀ p ∈ q, F32.isNaN p.1 = false
  num' : ∀ p ∈ q', F32.isNaN p.1 = false
  low : ∀ y ∈ c, y.1 < F32.key 0x7F800000

theorem exists_max : ∀ (c : List (Int × Nat)), c ≠ [] → ∃ M ∈ c, ∀ y ∈ c, LexLe y M
  | [], h => absurd rfl h
  | [x], _ => ⟨x, by simp, fun y hy => by rw [List.mem_singleton.1 hy]; exact .inr ⟨rfl, Nat.le_refl _⟩⟩
  | x :: z :: l, _ => by
    obtain ⟨M, h1, h2⟩ := exists_max (z :: l) (by simp)
    by_cases hx : LexLe x M
    · exact ⟨M, by simp [h1], fun y hy => by
        rcases List.mem_cons.1 hy with rfl | hy
        · exact hx
        · exact h2 y hy⟩
    · refine ⟨x, by simp, fun y hy => ?_⟩
      rcases List.mem_cons.1 hy with rfl | hy
      · exact .inr ⟨rfl, Nat.le_refl _⟩
      · have := h2 y hy
        unfold LexLe at *
        omega

theorem collect_alike {f n N : Nat} {nodes : List Node} {roots roots' : List Nat} {v : List F32} (searchK : Nat)
    (hcopy : ∀ (k r : Nat), roots[k]? = some r → nodes[N + k]? = nodes[r]? ∧ ∃ nd, nodes[r]? = some nd ∧ nd.desc = n)
    (hinc : roots.Pairwise (· < ·)) (hbig : maxChildren f < n)
    (hfin : ∀ nd ∈ nodes, maxChildren f < nd.desc → F32.mag (A.dot nd.v v) < F32.mag 0x7F800000) :
    ∀ (fuel j : Nat) (c : List (Int × Nat)) (q q' : List (F32 × Nat)) (nns : List Nat), j ≤ roots.length → Alike roots N j c q q' →
      collect A ⟨f, n, nodes, roots⟩ v searchK fuel q nns = collect A ⟨f, n, nodes, roots'⟩ v searchK fuel q' nns := by
  have hK : 2 ≤ maxChildren f := Nat.le_add_left _ _
  intro fuel
  induction fuel with
  | zero =>
    intro j c q q' nns hj h
    have : q.length = q'.length := by
      have h1 := h.one.length_eq
      have h2 := h.two.length_eq
      simp only [List.length_map, List.length_append, List.length_take, List.length_range'] at h1 h2
      omega
    unfold collect
    have hq : (q ≠ []) ↔ (q' ≠ []) := by
      rw [← List.length_pos_iff, ← List.length_pos_iff, this]
    simp only [hq]
  | succ fuel ih =>
    intro j c q q' nns hj h
    unfold collect
    by_cases hk : nns.length < searchK
    · rw [if_pos hk, if_pos hk]
      -- a split: its children take its place
      have split2 : ∀ (x x' : F32 × Nat) (rest rest' : List (F32 × Nat)) (j : Nat) (c : List (Int × Nat)) (nd : Node), j ≤ roots.length →
          F32.key x.1 = F32.key x'.1 → F32.isNaN x.1 = false → F32.isNaN x'.1 = false → F32.key x.1 ≤ F32.key 0x7F800000 →
          Alike roots N j c rest rest' → nd ∈ nodes → maxChildren f < nd.desc →
          (match nd.children with
            | a :: b :: _ => collect A ⟨f, n, nodes, roots⟩ v searchK fuel
                ((pqDistance x.1 (A.dot nd.v v) false, a) :: (pqDistance x.1 (A.dot nd.v v) true, b) :: rest) nns
            | _ => .crash) =
          (match nd.children with
            | a :: b :: _ => collect A ⟨f, n, nodes, roots'⟩ v searchK fuel
                ((pqDistance x'.1 (A.dot nd.v v) false, a) :: (pqDistance x'.1 (A.dot nd.v v) true, b) :: rest') nns
            | _ => .crash) := by
        intro x x' rest rest' j c nd hj e1 e2 e3 e4 hal hnd hd
        obtain ⟨a1, a2, a3, a4⟩ := pq_same false e2 e3 e1 e4 (hfin nd hnd hd)
        obtain ⟨b1, b2, b3, b4⟩ := pq_same true e2 e3 e1 e4 (hfin nd hnd hd)
        split
        · rename_i a b _ _
          refine ih j ((F32.key (pqDistance x.1 (A.dot nd.v v) false), a) :: (F32.key (pqDistance x.1 (A.dot nd.v v) true), b) :: c) _ _ nns hj
            ⟨?_, ?_, ?_, ?_, ?_⟩
          · simp only [List.map_cons, cls]
            refine .trans (.cons _ (.cons _ hal.one)) ?_
            refine (List.perm_middle.trans (.cons _ List.perm_middle)).symm
          · simp only [List.map_cons, cls]
            rw [← a1, ← b1]
            refine .trans (.cons _ (.cons _ hal.two)) ?_
            refine (List.perm_middle.trans (.cons _ List.perm_middle)).symm
          · intro p hp
            simp only [List.mem_cons] at hp
            rcases hp with rfl | rfl | hp
            · exact a3
            · exact b3
            · exact hal.num p hp
          · intro p hp
            simp only [List.mem_cons] at hp
            rcases hp with rfl | rfl | hp
            · exact a4
            · exact b4
            · exact hal.num' p hp
          · intro y hy
            simp only [List.mem_cons] at hy
            rcases hy with rfl | rfl | hy
            · exact a2
            · exact b2
            · exact hal.low y hy
        · rfl
      cases j with
      | zero =>
        have h1 := h.one
        have h2 := h.two
        simp only [List.take_zero, List.map_nil, List.nil_append, List.range'_zero] at h1 h2
        cases hc : c with
        | nil =>
          rw [hc] at h1 h2
          have hq : q = [] := List.map_eq_nil_iff.1 h1.eq_nil
          have hq' : q' = [] := List.map_eq_nil_iff.1 h2.eq_nil
          rw [hq, hq']
          rfl
        | cons y0 l0 =>
          obtain ⟨M, hM, hmax⟩ := exists_max c (by rw [hc]; simp)
          have hce := List.perm_cons_erase hM
          have hle : ∀ y ∈ c.erase M, LexLe y M := fun y hy => hmax y (List.mem_of_mem_erase hy)
          obtain ⟨x, rest, p1, p2, p3, p4, p5⟩ := popMax_out h.num (h1.trans hce) hle
          obtain ⟨x', rest', r1, r2, r3, r4, r5⟩ := popMax_out h.num' (h2.trans hce) hle
          obtain ⟨d, i⟩ := x
          obtain ⟨d', i'⟩ := x'
          rw [p1, r1]
          have hM' := h.low M hM
          have hii : i = i' := by
            have := p2.trans r2.symm
            simp only [cls, Prod.mk.injEq] at this
            exact this.2
          have hkk : F32.key d = F32.key d' := by
            have := p2.trans r2.symm
            simp only [cls, Prod.mk.injEq] at this
            exact this.1
          have hkd : F32.key d < F32.key 0x7F800000 := by rw [← p2] at hM'; exact hM'
          subst hii
          have hal : Alike roots N 0 (c.erase M) rest rest' :=
            ⟨by simpa using p3, by simpa using r3, p5, r5, fun y hy => h.low y (List.mem_of_mem_erase hy)⟩
          simp only
          cases hnd : nodes[i]? with
          | none => rfl
          | some nd =>
            simp only [Out.ofOption, Out.ok_bind]
            by_cases c1 : nd.desc = 1 ∧ i < n
            · rw [if_pos c1, if_pos c1]
              exact ih 0 _ _ _ _ hj hal
            · rw [if_neg c1, if_neg c1]
              by_cases c2 : nd.desc ≤ maxChildren f
              · rw [if_pos c2, if_pos c2]
                by_cases c3 : nd.desc ≤ nd.children.length
                · rw [if_pos c3, if_pos c3]
                  exact ih 0 _ _ _ _ hj hal
                · rw [if_neg c3, if_neg c3]
              · rw [if_neg c2, if_neg c2]
                exact split2 (d, i) (d', i) rest rest' 0 (c.erase M) nd hj hkk p4 r4 (Int.le_of_lt hkd) hal
                  (List.mem_of_getElem? hnd) (by omega)
      | succ j =>
        have hj' : j < roots.length := by omega
        have hr := List.getElem?_eq_getElem hj'
        obtain ⟨k1, nd, k2, k3⟩ := hcopy j roots[j] hr
        have h1 := h.one
        have h2 := h.two
        rw [List.take_succ_eq_append_getElem hj', List.map_append, List.map_singleton, List.append_assoc, List.singleton_append] at h1
        rw [List.range'_concat, List.map_append, List.map_singleton, List.append_assoc, List.singleton_append] at h2
        obtain ⟨x, rest, p1, p2, p3, p4, p5⟩ := popMax_out h.num (h1.trans List.perm_middle) (by
          intro y hy
          rcases List.mem_append.1 hy with hy | hy
          · obtain ⟨r, hr1, rfl⟩ := List.mem_map.1 hy
            obtain ⟨i, hi, hri⟩ := List.mem_take_iff_getElem.1 hr1
            have := List.pairwise_iff_getElem.1 hinc i j (by omega) hj' (by omega)
            exact .inr ⟨rfl, by rw [← hri]; exact Nat.le_of_lt this⟩
          · exact .inl (h.low y hy))
        obtain ⟨x', rest', r1, r2, r3, r4, r5⟩ := popMax_out h.num' (h2.trans List.perm_middle) (by
          intro y hy
          rcases List.mem_append.1 hy with hy | hy
          · obtain ⟨r, hr1, rfl⟩ := List.mem_map.1 hy
            have := List.mem_range'_1.1 hr1
            exact .inr ⟨rfl, by simp only; omega⟩
          · exact .inl (h.low y hy))
        obtain ⟨d, i⟩ := x
        obtain ⟨d', i'⟩ := x'
        simp only [cls, Prod.mk.injEq] at p2 r2
        rw [p1, r1]
        simp only
        rw [p2.2, r2.2, Nat.one_mul, k1, k2]
        simp only [Out.ofOption, Out.ok_bind]
        rw [if_neg (by omega), if_neg (by omega), if_neg (by omega), if_neg (by omega)]
        exact split2 (d, i) (d', i') rest rest' j c nd (by omega) (p2.1.trans r2.1.symm) p4 r4 (Int.le_of_eq p2.1)
          ⟨p3, r3, p5, r5, h.low⟩ (List.mem_of_getElem? k2) (by omega)
    · rw [if_neg hk, if_neg hk]

theorem measure_roots {f n : Nat} {nodes : List Node} {roots roots' : List Nat} (v : List F32) (norm : F32) : ∀ (last : Option Nat) (js : List Nat),
    measure A ⟨f, n, nodes, roots⟩ v norm last js = measure A ⟨f, n, nodes, roots'⟩ v norm last js
  | _, [] => rfl
  | last, j :: js => by
    unfold measure
    rw [measure_roots v norm last js, measure_roots v norm (some j) js]

/-! ### Few items -/

/-- All items with their distances. -/
def everything (A : Lib) (vs : List (List F32)) (v : List F32) : List (F32 × Nat) :=
  (List.range vs.length).map fun j => (angular A v (vs[j]?.getD []), j)

theorem everything_of {vs : List (List F32)} {v : List F32} {l : List (F32 × Nat)} (h1 : (l.map Prod.snd).Pairwise (· < ·))
    (h2 : ∀ j, j ∈ l.map Prod.snd ↔ j < vs.length) (h3 : ∀ x ∈ l, ∃ y, vs[x.2]? = some y ∧ x.1 = angular A v y) :
    l = everything A vs v := by
  have hr : l.map Prod.snd = List.range vs.length := by
    have hp : (l.map Prod.snd).Perm (List.range vs.length) := by
      rw [List.perm_ext_iff_of_nodup (h1.imp fun h => Nat.ne_of_lt h) List.nodup_range]
      intro j
      rw [h2, List.mem_range]
    exact hp.eq_of_pairwise (fun a b _ _ h h' => absurd h (Nat.lt_asymm h')) h1 List.pairwise_lt_range
  unfold everything
  rw [← hr, List.map_map]
  conv => lhs; rw [← List.map_id l]
  apply List.map_congr_left
  intro x hx
  obtain ⟨y, g1, g2⟩ := h3 x hx
  simp only [Function.comp, g1, Option.getD_some, ← g2]
  rfl

theorem small_answer {f : Nat} {vs : List (List F32)} (hv : 0 < vs.length) {nodes : List Node} {roots roots' : List Nat} (hb : Built A f vs nodes roots)
    (hne : roots' ≠ []) (ht : ∀ r ∈ roots', ∃ xs, Tree f vs.length nodes r xs 1 ∧ xs.Perm (List.range vs.length))
    (v : List F32) (n : Nat) (limit : UInt32) (hk : 0 < budget limit n roots'.length) :
    ∃ F, ∀ fuel ≥ F, getAllNns A fuel ⟨f, vs.length, nodes, roots'⟩ v n limit = .ok ((A.sort (everything A vs v)).take n) := by
  let q : List (F32 × Nat) := roots'.map fun r => (0x7F800000, r)
  have hq : q ≠ [] := fun h => hne (List.map_eq_nil_iff.1 h)
  have hall : ∀ p ∈ q, ∃ xs, Tree f vs.length nodes p.2 xs 1 ∧ xs.Perm (List.range vs.length) := by
    intro p hp
    obtain ⟨r, hr, rfl⟩ := List.mem_map.1 hp
    exact ht r hr
  obtain ⟨q', ys, hys, hsub, -, hstep⟩ := collect_bucket (A := A) (ix := ⟨f, vs.length, nodes, roots'⟩) (v := v)
    (searchK := budget limit n roots'.length) (nns := []) (L := List.range vs.length) hall hq hk
  obtain ⟨xs, m, hc, -, hcount⟩ := cover_of (f := f) (nItems := vs.length) (nodes := nodes) (L := List.range vs.length) q' fun p hp => by
    obtain ⟨xs, g1, g2⟩ := hall p (hsub p hp)
    exact ⟨xs, 1, g1, g2, by rw [List.length_range]; omega⟩
  obtain ⟨r, rest, hr, hperm, -⟩ := collect_spec (A := A) (ix := ⟨f, vs.length, nodes, roots'⟩) (v := v)
    (searchK := budget limit n roots'.length) (nns := [] ++ ys) hc (Nat.le_refl m)
  have hmem : ∀ j, j ∈ ys ++ r ↔ j < vs.length := by
    intro j
    rw [List.mem_append, hys.mem_iff, List.mem_range]
    refine ⟨fun h => h.elim id fun h => ?_, .inl⟩
    have h1 := List.count_pos_iff.2 (hperm.subset (List.mem_append_left rest h))
    rw [hcount] at h1
    rcases Nat.lt_or_ge j vs.length with h | h
    · exact h
    · rw [List.count_eq_zero.2 (by simpa using h)] at h1; omega
  obtain ⟨dist, h1, h2, h3, h4⟩ := measure_spec (ix := ⟨f, vs.length, nodes, roots⟩) hb v (sortNat (ys ++ r)) (sortNat_sorted _)
    (fun j hj => (hmem j).1 ((sortNat_perm _).subset hj)) none (by simp)
  have hd : dist = everything A vs v := by
    refine everything_of h2 (fun j => ?_) h4
    rw [h3, (sortNat_perm _).mem_iff, hmem]
    simp
  refine ⟨m + 1, fun fuel hf => ?_⟩
  obtain ⟨fl, rfl⟩ : ∃ fl, fuel = fl + 1 := ⟨fuel - 1, by omega⟩
  unfold getAllNns
  simp only
  have e := hstep fl
  rw [hr fl (by omega)] at e
  rw [e, Out.ok_bind, List.nil_append, measure_roots (roots' := roots), h1, Out.ok_bind, hd]

theorem getAllNns_zero {ix : Index} {v : List F32} {n : Nat} {limit : UInt32} (h : budget limit n ix.roots.length = 0) (fuel : Nat) :
    getAllNns A fuel ix v n limit = .ok ((A.sort []).take n) := by
  unfold getAllNns
  rw [h]
  have : collect A ix v 0 fuel (ix.roots.map fun r => (0x7F800000, r)) [] = .ok [] := by
    cases fuel <;> unfold collect <;> simp
  rw [this, Out.ok_bind]
  rfl

theorem load_small (hA : A.Ok) {f fuel : Nat} {vs : List (List F32)} (hne : vs ≠ []) (hmax : vs.length < 2^31) {ix : Index}
    (h : build A f fuel vs = .ok ix) (hsmall : vs.length ≤ maxChildren f) :
    ∃ roots, load f ix.nodes = some { ix with roots := roots } ∧ roots ≠ [] ∧ roots.length ≤ 2 * vs.length + 1 ∧
      ∀ r ∈ roots, ∃ xs, Tree f vs.length ix.nodes r xs 1 ∧ xs.Perm (List.range vs.length) := by
  have hB := ((build_spec hA (f := f) (fuel := fuel) hmax).2 ix h)
  obtain ⟨-, -, hB, hle, -, hr0⟩ := hB
  have hr0 := hr0 hne
  obtain ⟨nodes, copies, he, hs, hl, hc⟩ := build_shape hA hmax h
  generalize hR : ix.roots = roots at *
  subst he
  simp only at hR hB
  simp only
  have hv : 0 < vs.length := List.length_pos_iff.2 hne
  have hrl : 0 < roots.length := List.length_pos_iff.2 hr0
  obtain ⟨hlen, hnode⟩ := hs.small hsmall
  have hnode' : ∀ i, vs.length ≤ i → i < (nodes ++ copies).length → ∃ nd rest, (nodes ++ copies)[i]? = some nd ∧ nd.desc = vs.length ∧
      nd.children = List.range vs.length ++ rest := by
    intro i h1 h2
    rw [List.length_append] at h2
    by_cases hi : i < nodes.length
    · rw [List.getElem?_append_left hi]; exact hnode i h1 hi
    · have hk : i - nodes.length < roots.length := by omega
      have hg := List.getElem?_eq_getElem hk
      have hmem := List.mem_of_getElem? hg
      obtain ⟨g1, nd, g2, -⟩ := hs.node _ hmem
      rw [List.getElem?_append_right (by omega), hc _ _ hg]
      exact hnode _ g1 (List.getElem?_eq_some_iff.1 g2).1
  have htree : ∀ i, i < (nodes ++ copies).length → vs.length ≤ i ∨ vs.length = 1 → ∃ xs, Tree f vs.length (nodes ++ copies) i xs 1 ∧
      xs.Perm (List.range vs.length) := by
    intro i h1 h2
    by_cases hi : vs.length ≤ i
    · obtain ⟨nd, rest, g1, g2, g3⟩ := hnode' i hi h1
      refine ⟨_, .bucket g1 (by omega) (by omega) (by rw [g2, g3]; simp), ?_⟩
      rw [g2, g3, List.take_left' (by simp)]
    · have : i = 0 := by omega
      have hv1 : vs.length = 1 := by omega
      obtain ⟨nd, g1, g2⟩ := hB.itemsFirst i (by omega)
      refine ⟨_, .leaf g1 g2 (by omega), ?_⟩
      rw [hv1, this]
      exact List.Perm.refl _
  have hcl : (nodes ++ copies).length = vs.length + 2 * roots.length := by
    rw [List.length_append]; omega
  obtain ⟨top, htop⟩ : ∃ top, (nodes ++ copies).getLast? = some top := by
    cases hg : (nodes ++ copies).getLast? with
    | none => rw [List.getLast?_eq_none_iff] at hg; rw [hg] at hcl; simp at hcl; omega
    | some top => exact ⟨top, rfl⟩
  have htd : top.desc = vs.length := by
    rw [List.getLast?_eq_getElem?] at htop
    obtain ⟨nd, rest, g1, g2, -⟩ := hnode' ((nodes ++ copies).length - 1) (by omega) (by omega)
    rw [htop] at g1
    cases g1
    exact g2
  have hdesc : ∀ i, vs.length ≤ i → i < vs.length + 2 * roots.length → ((nodes ++ copies)[i]?.getD Node.zero).desc = vs.length := by
    intro i h1 h2
    obtain ⟨nd, rest, g1, g2, -⟩ := hnode' i h1 (by omega)
    rw [g1]; exact g2
  -- what the scan finds
  have hscan : ∃ lo n, (lo = vs.length ∨ vs.length = 1) ∧ lo + n = (nodes ++ copies).length ∧ 1 < n ∧
      scan (nodes ++ copies) vs.length (nodes ++ copies).length = (List.range' lo n).reverse := by
    by_cases h1 : vs.length = 1
    · refine ⟨0, (nodes ++ copies).length, .inr h1, by omega, by omega, ?_⟩
      have := scan_run (nodes ++ copies) vs.length 0 (.inl rfl) (nodes ++ copies).length (by
        intro i _ h3
        by_cases hi : vs.length ≤ i
        · exact hdesc i hi (by omega)
        · obtain ⟨nd, g1, g2⟩ := hB.itemsFirst i (by omega)
          rw [g1, h1]; exact g2)
      rwa [Nat.zero_add] at this
    · refine ⟨vs.length, 2 * roots.length, .inl rfl, by omega, by omega, ?_⟩
      have := scan_run (nodes ++ copies) vs.length vs.length (.inr (by
        obtain ⟨nd, g1, g2⟩ := hB.itemsFirst (vs.length - 1) (by omega)
        rw [g1]
        simp only [Option.getD_some]
        omega)) (2 * roots.length) hdesc
      rwa [hcl]
  obtain ⟨lo, n, h1, h2, h3, hscan⟩ := hscan
  have hload : load f (nodes ++ copies) = some ⟨f, vs.length, nodes ++ copies, (List.range' lo n).reverse⟩ ∨
      load f (nodes ++ copies) = some ⟨f, vs.length, nodes ++ copies, (List.range' lo n).reverse.dropLast⟩ := by
    unfold load
    rw [htop]
    simp only
    rw [htd, hscan]
    split
    · exact .inr rfl
    · exact .inl rfl
  have hin : ∀ r ∈ (List.range' lo n).reverse, ∃ xs, Tree f vs.length (nodes ++ copies) r xs 1 ∧ xs.Perm (List.range vs.length) := by
    intro r hr
    rw [List.mem_reverse, List.mem_range'_1] at hr
    refine htree r (by omega) ?_
    rcases h1 with h1 | h1
    · exact .inl (by omega)
    · exact .inr h1
  have hnl : n ≤ 2 * vs.length + 1 := by
    rcases h1 with h1 | h1 <;> omega
  rcases hload with hload | hload
  · refine ⟨_, hload, ?_, by simpa using hnl, hin⟩
    intro h0
    have := congrArg List.length h0
    simp at this; omega
  · refine ⟨_, hload, ?_, by simp; omega, fun r hr => hin r (List.dropLast_subset _ hr)⟩
    intro h0
    have := congrArg List.length h0
    simp at this; omega

end
end Annoy
open Annoy

/-- **C194.**  An index that has been built is saved and loaded: the loaded one has the same items, and every question that it is asked is
answered as before. -/
theorem C194_loaded (A : Lib) (hA : A.Ok) (f fuel : Nat) (vs : List (List F32)) (hne : vs ≠ []) (hmax : vs.length < 2^31) (ix : Index)
    (hb : build A f fuel vs = .ok ix) :
    ∃ ix', save ix = (ix.nodes, some ix') ∧ ix'.nodes = ix.nodes ∧ ix'.nItems = vs.length ∧ ix'.f = f ∧
      ∀ (q : List F32) (n : Nat) (limit : UInt32), (limit ≠ 0xFFFFFFFF ∨ n * (2 * vs.length + 1) < 2^32) → Annoy.Finite A ix q →
        ∃ ans F, ∀ fuel' ≥ F, getAllNns A fuel' ix q n limit = .ok ans ∧ getAllNns A fuel' ix' q n limit = .ok ans := by
  obtain ⟨hf, hn, hB, hle, -, hr0⟩ := (build_spec hA (f := f) (fuel := fuel) hmax).2 ix hb
  replace hr0 := hr0 hne
  have hv : 0 < vs.length := List.length_pos_iff.2 hne
  rcases Nat.lt_or_ge (maxChildren f) vs.length with hbig | hsmall
  · obtain ⟨N, h1, h2, h3⟩ := load_big hA hmax hb hbig
    refine ⟨{ ix with roots := (List.range' N ix.roots.length).reverse }, by rw [save, hf, h1, hf], rfl, hn, hf, ?_⟩
    intro q n limit _ hfin
    obtain ⟨ans, g, -⟩ := answer hA hmax hb q n limit
    refine ⟨ans, 2 * vs.length * ix.roots.length, fun fuel' hf' => ⟨g fuel' hf', ?_⟩⟩
    rw [← g fuel' hf']
    obtain ⟨f', n', nodes, roots⟩ := ix
    simp only at hf hn h2 h3 hfin ⊢
    subst hf hn
    unfold getAllNns
    simp only [List.length_reverse, List.length_range']
    have hal : Alike roots N roots.length [] (roots.map fun r => (0x7F800000, r))
        ((List.range' N roots.length).reverse.map fun r => (0x7F800000, r)) := by
      refine ⟨?_, ?_, ?_, ?_, by simp⟩
      · rw [List.take_length, List.append_nil, List.map_map]
        exact List.Perm.refl _
      · rw [List.append_nil, List.map_map]
        exact (List.reverse_perm _).map _
      · intro p hp
        obtain ⟨r, -, rfl⟩ := List.mem_map.1 hp
        show F32.isNaN 0x7F800000 = false
        decide
      · intro p hp
        obtain ⟨r, -, rfl⟩ := List.mem_map.1 hp
        show F32.isNaN 0x7F800000 = false
        decide
    rw [← collect_alike (A := A) (v := q) (roots' := (List.range' N roots.length).reverse) (budget limit n roots.length) h2 h3 hbig hfin fuel'
      roots.length [] _ _ [] (Nat.le_refl _) hal]
    congr 1
    funext nns
    rw [measure_roots (roots' := roots)]
  · obtain ⟨roots', h1, h2, h3, h4⟩ := load_small hA hne hmax hb hsmall
    refine ⟨{ ix with roots := roots' }, by rw [save, hf, h1, hf], rfl, hn, hf, ?_⟩
    intro q n limit hlim _
    obtain ⟨f', n', nodes, roots⟩ := ix
    simp only at hf hn hB hr0 hle h4 ⊢
    subst hf hn
    have hbud : budget limit n roots.length = 0 ↔ budget limit n roots'.length = 0 := by
      have hp1 : 0 < roots.length := List.length_pos_iff.2 hr0
      have hp2 : 0 < roots'.length := List.length_pos_iff.2 h2
      unfold budget
      by_cases hl : limit = 0xFFFFFFFF
      · rcases hlim with hlim | hlim
        · exact absurd hl hlim
        · simp only [if_pos hl]
          have e1 : n * roots.length < 2^32 := Nat.lt_of_le_of_lt (Nat.mul_le_mul_left n (by omega)) hlim
          have e2 : n * roots'.length < 2^32 := Nat.lt_of_le_of_lt (Nat.mul_le_mul_left n h3) hlim
          rw [Nat.mod_eq_of_lt e1, Nat.mod_eq_of_lt e2]
          have z1 : n * roots.length = 0 ↔ n = 0 := by rw [Nat.mul_eq_zero]; omega
          have z2 : n * roots'.length = 0 ↔ n = 0 := by rw [Nat.mul_eq_zero]; omega
          split <;> split <;> omega
      · simp only [if_neg hl]
    by_cases h0 : budget limit n roots.length = 0
    · exact ⟨_, 0, fun fuel' _ => ⟨getAllNns_zero (ix := ⟨f', vs.length, nodes, roots⟩) h0 fuel',
        getAllNns_zero (ix := ⟨f', vs.length, nodes, roots'⟩) (hbud.1 h0) fuel'⟩⟩
    · obtain ⟨F1, g1⟩ := small_answer hv hB hr0 (fun r hr => by
        obtain ⟨ys, s, e1, e2, -, e4⟩ := hB.trees r hr
        rw [e4 hsmall] at e1
        exact ⟨ys, e1, e2⟩) q n limit (by omega)
      obtain ⟨F2, g2⟩ := small_answer hv hB h2 h4 q n limit (by omega)
      exact ⟨_, max F1 F2, fun fuel' hf' => ⟨g1 fuel' (by omega), g2 fuel' (by omega)⟩⟩

/-- C194: an index without items is not loaded. -/
theorem C194_empty (A : Lib) (f fuel : Nat) (ix : Index) (hb : build A f fuel [] = .ok ix) : save ix = ([], none) := by
  have : build A f fuel [] = .ok ⟨f, 0, [], []⟩ := by
    cases fuel <;> rfl
  rw [this] at hb
  cases hb
  rfl

namespace Annoy

/-- `Finite`, to be computed. -/
def finiteOf (A : Lib) (ix : Index) (q : List F32) : Bool :=
  ix.nodes.all fun nd => decide (nd.desc ≤ maxChildren ix.f) || decide (F32.mag (A.dot nd.v q) < F32.mag 0x7F800000)

theorem finite_of {A : Lib} {ix : Index} {q : List F32} (h : finiteOf A ix q = true) : Annoy.Finite A ix q := by
  intro nd hnd hd
  have := List.all_eq_true.1 h nd hnd
  simp only [Bool.or_eq_true, decide_eq_true_eq] at this
  omega

end Annoy

set_option maxRecDepth 100000 in
/-- C194 is not empty: five vectors in two trees, whose roots are found again; two vectors, where the lists of all items are taken for roots
together with all but one of their copies; in both cases the products are finite. -/
theorem C194_example : soft.Ok ∧
    ((build soft 1 6 (exVs 5 2)).bind fun ix => .ok (ix.roots, ix.nodes.length, (save ix).2.map Index.roots, finiteOf soft ix [0x3F800000])) =
      .ok ([7, 10], 13, some [12, 11], true) ∧
    ((build soft 1 6 (exVs 2 1)).bind fun ix => .ok (ix.roots, ix.nodes.length, (save ix).2.map Index.roots, finiteOf soft ix [0x3F800000])) =
      .ok ([2, 3], 6, some [5, 4, 3], true) :=
  ⟨soft_ok, by decide +kernel, by decide +kernel⟩

end Veri
