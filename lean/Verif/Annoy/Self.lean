import Verif.Annoy.Props
/-
C148: whether a search of the native index finds a vector that is in it.
-/
set_option autoImplicit false
namespace Veri
namespace Annoy
variable {A : Lib}

/-- The way of the vector `q` through the trees: at a plane it goes to the side on which it is. -/
inductive Way (A : Lib) (ix : Index) (q : List F32) : Nat → Prop where
  | root {r : Nat} : r ∈ ix.roots → Way A ix q r
  | left {i a b : Nat} {nd : Node} {rest : List Nat} : Way A ix q i → ix.nodes[i]? = some nd → maxChildren ix.f < nd.desc →
      nd.children = a :: b :: rest → F32.lt (A.dot nd.v q) 0 = true → Way A ix q a
  | right {i a b : Nat} {nd : Node} {rest : List Nat} : Way A ix q i → ix.nodes[i]? = some nd → maxChildren ix.f < nd.desc →
      nd.children = a :: b :: rest → F32.lt 0 (A.dot nd.v q) = true → Way A ix q b

/-- The way never comes to a plane that contains the vector. -/
def Clear (A : Lib) (ix : Index) (q : List F32) : Prop :=
  ∀ i nd, Way A ix q i → ix.nodes[i]? = some nd → maxChildren ix.f < nd.desc →
    F32.lt (A.dot nd.v q) 0 = true ∨ F32.lt 0 (A.dot nd.v q) = true

/-- What is assumed of the arithmetic: the product with a zero vector is zero (or NaN). -/
def ZeroDot (A : Lib) : Prop :=
  ∀ (f : Nat) (y : List F32), F32.isZero (A.dot (List.replicate f 0) y) = true ∨ F32.isNaN (A.dot (List.replicate f 0) y) = true

/-- A number that is neither positive nor negative. -/
theorem neither {d : F32} (h : F32.isZero d = true ∨ F32.isNaN d = true) : F32.lt 0 d = false ∧ F32.lt d 0 = false := by
  rcases h with h | h
  · have h0 : F32.mag d = 0 := by simpa [F32.isZero] using h
    have hk : F32.key d = 0 := by unfold F32.key; rw [h0]; split <;> rfl
    have h1 : F32.key 0 = 0 := by decide
    simp [F32.lt, hk, h1]
  · simp [F32.lt, h]

theorem lt_asymm {a b : F32} (h : F32.lt a b = true) : F32.lt b a = false := by
  simp only [F32.lt, Bool.and_eq_true, decide_eq_true_eq] at h
  simp only [F32.lt, Bool.and_eq_false_iff, decide_eq_false_iff_not]
  omega

/-- The items of `l` are not on the right of the plane `v`, those of `r` not on its left. -/
def Apart (A : Lib) (vs : List (List F32)) (v : List F32) (l r : List Nat) : Prop :=
  (∀ j ∈ l, ∀ y, vs[j]? = some y → F32.lt 0 (A.dot v y) = false) ∧ ∀ j ∈ r, ∀ y, vs[j]? = some y → F32.lt (A.dot v y) 0 = false

/-- The nodes of the items. -/
def Items (A : Lib) (vs : List (List F32)) (nodes : List Node) : Prop :=
  ∀ (i : Nat) (v : List F32), vs[i]? = some v → nodes[i]? = some (itemNode A v)

theorem Items.mono {vs : List (List F32)} {nodes : List Node} (h : Items A vs nodes) (more : List Node) : Items A vs (nodes ++ more) := by
  intro i v hv
  have := h i v hv
  rw [List.getElem?_append_left (List.getElem?_eq_some_iff.1 this).1, this]

theorem sides_apart {vs : List (List F32)} {nodes : List Node} (hi : Items A vs nodes) {n : List F32} {indices : List Nat} {k k' : Kiss}
    {l r : List Nat} (h : sides A nodes n indices k = .ok (l, r, k')) : Apart A vs n l r := by
  induction indices generalizing k k' l r with
  | nil => cases h; exact ⟨by simp, by simp⟩
  | cons j js ih =>
    obtain ⟨x, hx, h⟩ := Out.bind_ok h
    obtain ⟨⟨l', r', k''⟩, h1, h2⟩ := Out.bind_ok h
    obtain ⟨i1, i2⟩ := ih h1
    have hv : ∀ y, vs[j]? = some y → x.v = y := by
      intro y hy
      rw [hi j y hy] at hx
      injection hx with hx
      rw [← hx]; rfl
    simp only at h2
    split at h2
    · rename_i hs
      cases h2
      refine ⟨i1, fun j' hj' => ?_⟩
      rcases List.mem_cons.1 hj' with rfl | hj'
      · intro y hy
        rw [← hv y hy]
        change (side A n x.v k).1 = true at hs
        unfold side at hs
        simp only at hs
        split at hs
        · rename_i hz; exact (neither (.inl hz)).2
        · exact lt_asymm hs
      · exact i2 j' hj'
    · rename_i hs
      cases h2
      refine ⟨fun j' hj' => ?_, i2⟩
      rcases List.mem_cons.1 hj' with rfl | hj'
      · intro y hy
        rw [← hv y hy]
        change ¬ (side A n x.v k).1 = true at hs
        unfold side at hs
        simp only at hs
        split at hs
        · rename_i hz; exact (neither (.inl hz)).1
        · simpa using hs
      · exact i1 j' hj'

theorem attempts_apart {vs : List (List F32)} {nodes : List Node} (hi : Items A vs nodes) {indices : List Nat} {n : Nat} {k k' : Kiss}
    {s : Split} (h : attempts A nodes indices n k = .ok (s, k')) : Apart A vs s.v s.l s.r := by
  induction n generalizing k with
  | zero =>
    rw [attempts] at h
    obtain ⟨xs, _, h⟩ := Out.bind_ok h
    obtain ⟨⟨v, k1⟩, _, h⟩ := Out.bind_ok h
    obtain ⟨⟨l, r, k2⟩, hs, h⟩ := Out.bind_ok h
    cases h
    exact sides_apart hi hs
  | succ n ih =>
    rw [attempts] at h
    obtain ⟨xs, _, h⟩ := Out.bind_ok h
    obtain ⟨⟨v, k1⟩, _, h⟩ := Out.bind_ok h
    obtain ⟨⟨l, r, k2⟩, hs, h⟩ := Out.bind_ok h
    simp only at h
    split at h
    · cases h; exact sides_apart hi hs
    · exact ih h

theorem balance_apart (hz : ZeroDot A) {vs : List (List F32)} {f : Nat} {indices : List Nat} {fuel : Nat} {s s' : Split} {k k' : Kiss}
    (h : balance A f indices fuel s k = .ok (s', k')) (hs : Apart A vs s.v s.l s.r) : Apart A vs s'.v s'.l s'.r := by
  induction fuel generalizing s k with
  | zero =>
    unfold balance at h
    split at h
    · cases h
    · cases h; exact hs
  | succ n ih =>
    unfold balance at h
    split at h
    · exact ih h ⟨fun _ _ y _ => (neither (hz f y)).1, fun _ _ y _ => (neither (hz f y)).2⟩
    · cases h; exact hs

/-- The tree at node `i` has these items, and every plane has them on the right sides. -/
inductive GTree (A : Lib) (vs : List (List F32)) (f : Nat) (nodes : List Node) : Nat → List Nat → Prop where
  | leaf {i : Nat} {nd : Node} : nodes[i]? = some nd → nd.desc = 1 → i < vs.length → GTree A vs f nodes i [i]
  | bucket {i : Nat} {nd : Node} : nodes[i]? = some nd → ¬(nd.desc = 1 ∧ i < vs.length) → nd.desc ≤ maxChildren f →
      nd.desc ≤ nd.children.length → GTree A vs f nodes i (nd.children.take nd.desc)
  | split {i a b : Nat} {nd : Node} {rest xs ys : List Nat} : nodes[i]? = some nd → maxChildren f < nd.desc →
      nd.children = a :: b :: rest → GTree A vs f nodes a xs → GTree A vs f nodes b ys → Apart A vs nd.v xs ys →
      GTree A vs f nodes i (xs ++ ys)

theorem GTree.mono {vs : List (List F32)} {f : Nat} {nodes : List Node} {i : Nat} {xs : List Nat} (h : GTree A vs f nodes i xs)
    (more : List Node) : GTree A vs f (nodes ++ more) i xs := by
  have hg : ∀ {i : Nat} {nd : Node}, nodes[i]? = some nd → (nodes ++ more)[i]? = some nd := by
    intro i nd h
    rw [List.getElem?_append_left (List.getElem?_eq_some_iff.1 h).1, h]
  induction h with
  | leaf h1 h2 h3 => exact .leaf (hg h1) h2 h3
  | bucket h1 h2 h3 h4 => exact .bucket (hg h1) h2 h3 h4
  | split h1 h2 h3 _ _ h6 ih1 ih2 => exact .split (hg h1) h2 h3 ih1 ih2 h6

theorem Apart.perm {vs : List (List F32)} {v : List F32} {l r l' r' : List Nat} (h : Apart A vs v l r) (hl : l'.Perm l) (hr : r'.Perm r) :
    Apart A vs v l' r' := ⟨fun j hj => h.1 j (hl.mem_iff.1 hj), fun j hj => h.2 j (hr.mem_iff.1 hj)⟩

theorem makeTree_geo (hz : ZeroDot A) {vs : List (List F32)} {f fuel : Nat} {nodes nodes' : List Node} {k k' : Kiss} {indices : List Nat}
    {isRoot : Bool} {i : Nat} (hi : Items A vs nodes) (hlen : vs.length ≤ nodes.length) (hin : ∀ j ∈ indices, j < vs.length)
    (hroot : isRoot = true → indices.length = vs.length)
    (h : makeTree A f vs.length fuel nodes k indices isRoot = .ok (i, nodes', k')) :
    (∃ more, nodes' = nodes ++ more) ∧ ∃ ys, GTree A vs f nodes' i ys ∧ ys.Perm indices := by
  induction fuel generalizing nodes k indices isRoot i nodes' k' with
  | zero => cases h
  | succ fuel ih =>
    unfold makeTree at h
    split at h
    · rename_i h1
      obtain ⟨x, rfl⟩ := List.length_eq_one_iff.1 h1.1
      simp only [List.getElem?_cons_zero, Out.ofOption, Out.ok_bind, Out.ok.injEq, Prod.mk.injEq] at h
      obtain ⟨rfl, rfl, rfl⟩ := h
      have hx : x < vs.length := hin x (by simp)
      exact ⟨⟨[], by simp⟩, [x], .leaf (hi x vs[x] (List.getElem?_eq_getElem hx)) rfl hx, .refl _⟩
    · rename_i h1
      have hdesc : (if isRoot then vs.length else indices.length) = indices.length := by
        split
        · rename_i hr; exact (hroot hr).symm
        · rfl
      simp only [hdesc] at h
      split at h
      · rename_i h2
        simp only [Out.ok.injEq, Prod.mk.injEq] at h
        obtain ⟨rfl, rfl, rfl⟩ := h
        refine ⟨⟨_, rfl⟩, indices, ?_, .refl _⟩
        have := GTree.bucket (A := A) (vs := vs) (f := f) (i := nodes.length)
          (nodes := nodes ++ [⟨indices.length, indices ++ List.replicate (maxChildren f - indices.length) 0, 0, []⟩])
          (nd := ⟨indices.length, indices ++ List.replicate (maxChildren f - indices.length) 0, 0, []⟩)
          (by simp) (by simp only; omega) h2.1 (by simp)
        simpa using this
      · rename_i h2
        have hbig : maxChildren f < indices.length := by
          cases isRoot with
          | false => simp only [true_or, and_true] at h2; omega
          | true => have := hroot rfl; simp only [this] at h2; omega
        obtain ⟨⟨s, k1⟩, ha, h⟩ := Out.bind_ok h
        obtain ⟨⟨s', k2⟩, hb, h⟩ := Out.bind_ok h
        have hap := balance_apart hz hb (attempts_apart hi ha)
        have hp := (balance_perm hb (attempts_perm ha)).1
        have hli : ∀ j ∈ s'.l, j < vs.length := fun j hj => hin j (hp.subset (by simp [hj]))
        have hri : ∀ j ∈ s'.r, j < vs.length := fun j hj => hin j (hp.subset (by simp [hj]))
        simp only at h
        split at h
        · obtain ⟨⟨b, nodes1, k3⟩, hb', h⟩ := Out.bind_ok h
          obtain ⟨⟨a, nodes2, k4⟩, ha', h⟩ := Out.bind_ok h
          obtain ⟨⟨m1, rfl⟩, ys, hy, hyp⟩ := ih hi hlen hri (by simp) hb'
          obtain ⟨⟨m2, rfl⟩, xs, hx, hxp⟩ := ih (hi.mono m1) (by simp; omega) hli (by simp) ha'
          simp only [Out.ok.injEq, Prod.mk.injEq] at h
          obtain ⟨rfl, rfl, rfl⟩ := h
          refine ⟨⟨m1 ++ (m2 ++ [⟨indices.length, [a, b], 0, s'.v⟩]), by simp⟩, xs ++ ys, ?_, (hxp.append hyp).trans hp⟩
          refine .split (nd := ⟨indices.length, [a, b], 0, s'.v⟩) (by simp) hbig rfl (hx.mono _) ?_ (hap.perm hxp hyp)
          rw [List.append_assoc (nodes ++ m1)]
          exact hy.mono _
        · obtain ⟨⟨a, nodes1, k3⟩, ha', h⟩ := Out.bind_ok h
          obtain ⟨⟨b, nodes2, k4⟩, hb', h⟩ := Out.bind_ok h
          obtain ⟨⟨m1, rfl⟩, xs, hx, hxp⟩ := ih hi hlen hli (by simp) ha'
          obtain ⟨⟨m2, rfl⟩, ys, hy, hyp⟩ := ih (hi.mono m1) (by simp; omega) hri (by simp) hb'
          simp only [Out.ok.injEq, Prod.mk.injEq] at h
          obtain ⟨rfl, rfl, rfl⟩ := h
          refine ⟨⟨m1 ++ (m2 ++ [⟨indices.length, [a, b], 0, s'.v⟩]), by simp⟩, xs ++ ys, ?_, (hxp.append hyp).trans hp⟩
          refine .split (nd := ⟨indices.length, [a, b], 0, s'.v⟩) (by simp) hbig rfl ?_ (hy.mono _) (hap.perm hxp hyp)
          rw [List.append_assoc (nodes ++ m1)]
          exact hx.mono _

theorem threadBuild_geo (hz : ZeroDot A) {vs : List (List F32)} {f fuel : Nat} {nodes nodes' : List Node} {roots roots' : List Nat}
    {k : Kiss} (hi : Items A vs nodes) (hlen : vs.length ≤ nodes.length)
    (ht : ∀ r ∈ roots, ∃ ys, GTree A vs f nodes r ys ∧ ys.Perm (List.range vs.length))
    (h : threadBuild A f vs.length fuel nodes roots k = .ok (nodes', roots')) :
    ∀ r ∈ roots', ∃ ys, GTree A vs f nodes' r ys ∧ ys.Perm (List.range vs.length) := by
  induction fuel generalizing nodes roots k with
  | zero =>
    unfold threadBuild at h
    split at h
    · cases h; exact ht
    · cases h
  | succ fuel ih =>
    unfold threadBuild at h
    split at h
    · cases h; exact ht
    · obtain ⟨⟨root, nodes1, k1⟩, h1, h⟩ := Out.bind_ok h
      have hall : itemsOf vs.length nodes = List.range vs.length := by
        unfold itemsOf
        rw [List.filter_eq_self]
        intro j hj
        have hj := List.mem_range.1 hj
        rw [hi j vs[j] (List.getElem?_eq_getElem hj)]
        rfl
      rw [hall] at h1
      obtain ⟨⟨more, rfl⟩, ys, hy, hp⟩ := makeTree_geo hz hi hlen (fun j hj => List.mem_range.1 hj) (by simp) h1
      refine ih (hi.mono more) (by simp; omega) ?_ h
      intro r hr
      rcases List.mem_append.1 hr with hr | hr
      · obtain ⟨ys, h2, h3⟩ := ht r hr
        exact ⟨ys, h2.mono more, h3⟩
      · rw [List.mem_singleton.1 hr]
        exact ⟨ys, hy, hp⟩

theorem build_geo (hz : ZeroDot A) {f fuel : Nat} {vs : List (List F32)} {ix : Index} (h : build A f fuel vs = .ok ix) :
    ∀ r ∈ ix.roots, ∃ ys, GTree A vs f ix.nodes r ys ∧ ys.Perm (List.range vs.length) := by
  obtain ⟨⟨nodes, roots⟩, he, h⟩ := Out.bind_ok h
  obtain ⟨xs, _, h⟩ := Out.bind_ok h
  cases h
  intro r hr
  obtain ⟨ys, h1, h2⟩ := threadBuild_geo hz (built_start A f vs).items (by simp) (by simp) he r hr
  exact ⟨ys, h1.mono xs, h2⟩

/-! ### The queue -/

theorem popMax_max {q : List (F32 × Nat)} (hn : ∀ p ∈ q, F32.isNaN p.1 = false) {x : F32 × Nat} {rest : List (F32 × Nat)}
    (h : popMax q = some (x, rest)) : ∀ y ∈ q, F32.lt x.1 y.1 = false := by
  induction q generalizing x rest with
  | nil => cases h
  | cons z zs ih =>
    unfold popMax at h
    have hz := hn z (by simp)
    cases hp : popMax zs with
    | none =>
      rw [hp] at h
      simp only [Option.some.injEq, Prod.mk.injEq] at h
      obtain ⟨rfl, rfl⟩ := h
      rw [popMax_none hp]
      intro y hy
      rw [List.mem_singleton.1 hy]
      simp [F32.lt]
    | some r =>
      obtain ⟨w, ws⟩ := r
      have hw := ih (fun p hp => hn p (by simp [hp])) hp
      have hwn := hn w (List.mem_cons_of_mem _ ((popMax_perm hp).mem_iff.2 (by simp)))
      rw [hp] at h
      simp only at h
      split at h
      · rename_i hlt
        simp only [Option.some.injEq, Prod.mk.injEq] at h
        obtain ⟨rfl, rfl⟩ := h
        intro y hy
        rcases List.mem_cons.1 hy with rfl | hy
        · simp only [pairLt, F32.lt, hz, hwn, Bool.not_false, Bool.true_and, Bool.or_eq_true, Bool.and_eq_true, decide_eq_true_eq,
            Bool.not_eq_true', decide_eq_false_iff_not] at hlt ⊢
          omega
        · exact hw y hy
      · rename_i hlt
        simp only [Option.some.injEq, Prod.mk.injEq] at h
        obtain ⟨rfl, rfl⟩ := h
        intro y hy
        rcases List.mem_cons.1 hy with rfl | hy
        · simp [F32.lt]
        · have h1 := hw y hy
          have hyn := hn y (List.mem_cons_of_mem _ hy)
          simp only [pairLt, F32.lt, hz, hwn, hyn, Bool.not_false, Bool.true_and, Bool.or_eq_true, Bool.and_eq_true, decide_eq_true_eq,
            Bool.not_eq_true', decide_eq_false_iff_not, not_or] at hlt h1 ⊢
          omega

theorem mag_negate (m : F32) : F32.mag m.negate = F32.mag m := by
  unfold F32.mag F32.negate
  rw [UInt32.toNat_xor, Nat.xor_mod_two_pow]
  simp

theorem key_negate (m : F32) : F32.key m.negate = - F32.key m := by
  have hn : F32.neg m.negate = !F32.neg m := by
    unfold F32.neg F32.negate
    rw [UInt32.toNat_xor]
    have h1 := m.toNat_lt
    have ht : (m.toNat ^^^ (0x80000000 : UInt32).toNat).testBit 31 = !(m.toNat.testBit 31) := by
      rw [Nat.testBit_xor, show (0x80000000 : UInt32).toNat.testBit 31 = true by decide]
      simp
    have hlt : m.toNat ^^^ (0x80000000 : UInt32).toNat < 2^32 := Nat.xor_lt_two_pow h1 (by decide)
    have key : ∀ x : Nat, x < 2^32 → (decide (2^31 ≤ x)) = x.testBit 31 := by
      intro x hx
      rw [Nat.testBit_eq_decide_div_mod_eq]
      have : x / 2^31 % 2 = x / 2^31 := Nat.mod_eq_of_lt (by omega)
      rw [this]
      congr 1
      apply propext
      omega
    rw [key _ hlt, key _ h1, ht]
  unfold F32.key
  rw [hn, mag_negate]
  cases F32.neg m <;> simp

theorem isNaN_negate (m : F32) : F32.isNaN m.negate = F32.isNaN m := by
  unfold F32.isNaN
  rw [mag_negate]

theorem nan_of_lt {a b : F32} (h : F32.lt a b = true) : F32.isNaN a = false ∧ F32.isNaN b = false ∧ F32.key a < F32.key b := by
  simpa [F32.lt, and_assoc] using h

/-- What the loop relies on: the entries with a positive priority are on the way, and the item is below; there is one. -/
structure Led (A : Lib) (vs : List (List F32)) (ix : Index) (q : List F32) (j : Nat) (queue : List (F32 × Nat)) : Prop where
  num : ∀ p ∈ queue, F32.isNaN p.1 = false
  way : ∀ p ∈ queue, F32.lt 0 p.1 = true → Way A ix q p.2 ∧ ∃ xs, GTree A vs ix.f ix.nodes p.2 xs ∧ j ∈ xs
  some : ∃ p ∈ queue, F32.lt 0 p.1 = true

theorem collect_grows {ix : Index} {v : List F32} {searchK fuel : Nat} {q : List (F32 × Nat)} {nns r : List Nat}
    (h : collect A ix v searchK fuel q nns = .ok r) : ∀ j ∈ nns, j ∈ r := by
  induction fuel generalizing q nns with
  | zero =>
    unfold collect at h
    split at h
    · cases h
    · cases h; exact fun _ h => h
  | succ fuel ih =>
    unfold collect at h
    split at h
    · split at h
      · cases h; exact fun _ h => h
      · obtain ⟨nd, _, h⟩ := Out.bind_ok h
        split at h
        · exact fun j hj => ih h j (by simp [hj])
        · split at h
          · split at h
            · exact fun j hj => ih h j (by simp [hj])
            · cases h
          · split at h
            · exact ih h
            · cases h
    · cases h; exact fun _ h => h

theorem collect_led {vs : List (List F32)} {ix : Index} (hn : ix.nItems = vs.length) {q : List F32} {j : Nat} (hj : vs[j]? = some q)
    (hc : Clear A ix q) {searchK fuel : Nat} (hk : 0 < searchK) {queue : List (F32 × Nat)} {r : List Nat}
    (hl : Led A vs ix q j queue) (h : collect A ix q searchK fuel queue [] = .ok r) : j ∈ r := by
  induction fuel generalizing queue with
  | zero =>
    unfold collect at h
    obtain ⟨p, hp, _⟩ := hl.some
    rw [if_pos ⟨hk, List.ne_nil_of_mem hp⟩] at h
    cases h
  | succ fuel ih =>
    unfold collect at h
    rw [if_pos (show ([] : List Nat).length < searchK from hk)] at h
    cases hp : popMax queue with
    | none =>
      obtain ⟨p, hp', _⟩ := hl.some
      rw [popMax_none hp] at hp'
      cases hp'
    | some w =>
      obtain ⟨⟨d, i⟩, rest⟩ := w
      rw [hp] at h
      simp only at h
      have hperm := popMax_perm hp
      have hmem : (d, i) ∈ queue := hperm.mem_iff.2 (by simp)
      have hrest : ∀ p ∈ rest, p ∈ queue := fun p hp => hperm.mem_iff.2 (by simp [hp])
      have hpos : F32.lt 0 d = true := by
        obtain ⟨p, hp', hpp⟩ := hl.some
        have h1 := popMax_max hl.num hp p hp'
        obtain ⟨_, n2, n3⟩ := nan_of_lt hpp
        have hd := hl.num _ hmem
        simp only [F32.lt, hd, n2, Bool.not_false, Bool.true_and, decide_eq_false_iff_not] at h1
        have h0 : F32.isNaN 0 = false := by decide
        simp only [F32.lt, hd, h0, Bool.not_false, Bool.true_and, decide_eq_true_eq]
        omega
      obtain ⟨hway, xs, hg, hjx⟩ := hl.way _ hmem hpos
      simp only at hway hg
      obtain ⟨nd, hnd, h⟩ := Out.bind_ok h
      have hnd : ix.nodes[i]? = some nd := by
        cases he : ix.nodes[i]? with
        | none => rw [he] at hnd; cases hnd
        | some x => rw [he] at hnd; injection hnd with hnd; rw [hnd]
      cases hg with
      | leaf h1 h2 h3 =>
        rw [hnd] at h1
        injection h1 with h1
        subst h1
        rw [if_pos ⟨h2, by rw [hn]; exact h3⟩] at h
        exact collect_grows h j (by simpa using hjx)
      | bucket h1 h2 h3 h4 =>
        rw [hnd] at h1
        injection h1 with h1
        subst h1
        rw [if_neg (by rw [hn]; exact h2), if_pos h3, if_pos h4] at h
        exact collect_grows h j (by simpa using hjx)
      | @split _ a b nd' rest' xs ys h1 h2 h3 h4 h5 h6 =>
        rw [hnd] at h1
        injection h1 with h1
        subst h1
        have hne : ¬(nd.desc = 1 ∧ i < ix.nItems) := by
          have : 2 ≤ maxChildren ix.f := Nat.le_add_left _ _
          omega
        rw [if_neg hne, if_neg (Nat.not_le.2 h2), h3] at h
        simp only at h
        refine ih ?_ h
        have hk0 : F32.key 0 = 0 := by decide
        obtain ⟨_, dn, dk⟩ := nan_of_lt hpos
        rcases hc i nd hway hnd h2 with hm | hm
        · -- left
          obtain ⟨mn, _, mk⟩ := nan_of_lt hm
          have hja : j ∈ xs := by
            rcases List.mem_append.1 hjx with hx | hx
            · exact hx
            · rw [h6.2 j hx q hj] at hm; cases hm
          have hnn := isNaN_negate (A.dot nd.v q)
          have hkn := key_negate (A.dot nd.v q)
          have e1 : F32.isNaN (pqDistance d (A.dot nd.v q) false) = false ∧ F32.lt 0 (pqDistance d (A.dot nd.v q) false) = true := by
            unfold pqDistance
            simp only [Bool.false_eq_true, if_false]
            split
            · refine ⟨by rw [hnn, mn], ?_⟩
              simp only [F32.lt, hnn, mn, show F32.isNaN 0 = false by decide, Bool.not_false, Bool.true_and, decide_eq_true_eq]
              omega
            · exact ⟨dn, hpos⟩
          have e2 : pqDistance d (A.dot nd.v q) true = A.dot nd.v q := by
            unfold pqDistance
            simp only [if_true]
            rw [if_pos]
            simp only [F32.lt, mn, dn, Bool.not_false, Bool.true_and, decide_eq_true_eq]
            omega
          refine ⟨?_, ?_, ⟨_, List.mem_cons_self, e1.2⟩⟩
          · intro p hp
            rcases List.mem_cons.1 hp with rfl | hp
            · exact e1.1
            · rcases List.mem_cons.1 hp with rfl | hp
              · rw [e2]; exact mn
              · exact hl.num p (hrest p hp)
          · intro p hp hpp
            rcases List.mem_cons.1 hp with rfl | hp
            · exact ⟨.left hway hnd h2 h3 hm, xs, h4, hja⟩
            · rcases List.mem_cons.1 hp with rfl | hp
              · rw [e2, lt_asymm hm] at hpp; cases hpp
              · exact hl.way p (hrest p hp) hpp
        · -- right
          obtain ⟨_, mn, mk⟩ := nan_of_lt hm
          have hjb : j ∈ ys := by
            rcases List.mem_append.1 hjx with hx | hx
            · rw [h6.1 j hx q hj] at hm; cases hm
            · exact hx
          have hnn := isNaN_negate (A.dot nd.v q)
          have hkn := key_negate (A.dot nd.v q)
          have e1 : F32.isNaN (pqDistance d (A.dot nd.v q) true) = false ∧ F32.lt 0 (pqDistance d (A.dot nd.v q) true) = true := by
            unfold pqDistance
            simp only [if_true]
            split
            · exact ⟨mn, hm⟩
            · exact ⟨dn, hpos⟩
          have e2 : pqDistance d (A.dot nd.v q) false = (A.dot nd.v q).negate := by
            unfold pqDistance
            simp only [Bool.false_eq_true, if_false]
            rw [if_pos]
            simp only [F32.lt, hnn, mn, dn, Bool.not_false, Bool.true_and, decide_eq_true_eq]
            omega
          refine ⟨?_, ?_, ⟨_, List.mem_cons_of_mem _ List.mem_cons_self, e1.2⟩⟩
          · intro p hp
            rcases List.mem_cons.1 hp with rfl | hp
            · rw [e2, hnn]; exact mn
            · rcases List.mem_cons.1 hp with rfl | hp
              · exact e1.1
              · exact hl.num p (hrest p hp)
          · intro p hp hpp
            rcases List.mem_cons.1 hp with rfl | hp
            · rw [e2] at hpp
              obtain ⟨_, _, hpp⟩ := nan_of_lt hpp
              simp only at hpp
              omega
            · rcases List.mem_cons.1 hp with rfl | hp
              · exact ⟨.right hway hnd h2 h3 hm, ys, h5, hjb⟩
              · exact hl.way p (hrest p hp) hpp

/-- A vector that is in the index is among the answers. -/
theorem found_itself (hA : A.Ok) (hz : ZeroDot A) {f fuel : Nat} {vs : List (List F32)} (hmax : vs.length < 2^31) {ix : Index}
    (hb : build A f fuel vs = .ok ix) {j : Nat} {q : List F32} (hj : vs[j]? = some q) (hc : Clear A ix q) {n fuel' : Nat} {limit : UInt32}
    (hn : vs.length ≤ n) (hfuel : 2 * vs.length * ix.roots.length ≤ fuel') (hk : 0 < budget limit n ix.roots.length) {ans : List (F32 × Nat)}
    (h : getAllNns A fuel' ix q n limit = .ok ans) : j ∈ ans.map Prod.snd := by
  obtain ⟨hf, hni, hB, _, _, hne⟩ := (build_spec hA (f := f) (fuel := fuel) hmax).2 ix hb
  have hjlt := (List.getElem?_eq_some_iff.1 hj).1
  have hroots : ix.roots ≠ [] := hne (by intro h0; rw [h0] at hjlt; exact absurd hjlt (by simp))
  have hgeo := build_geo hz hb
  unfold getAllNns at h
  obtain ⟨r, hr, h⟩ := Out.bind_ok h
  obtain ⟨dist, hd, h⟩ := Out.bind_ok h
  injection h with h
  have hinf : F32.isNaN 0x7F800000 = false ∧ F32.lt 0 0x7F800000 = true := by decide
  have hled : Led A vs ix q j (ix.roots.map fun r => (0x7F800000, r)) := by
    refine ⟨?_, ?_, ?_⟩
    · intro p hp
      obtain ⟨r, _, rfl⟩ := List.mem_map.1 hp
      exact hinf.1
    · intro p hp _
      obtain ⟨r, hr, rfl⟩ := List.mem_map.1 hp
      obtain ⟨ys, h1, h2⟩ := hgeo r hr
      exact ⟨.root hr, ys, by rw [hf]; exact h1, h2.mem_iff.2 (List.mem_range.2 hjlt)⟩
    · obtain ⟨r, hr⟩ := List.exists_mem_of_ne_nil _ hroots
      exact ⟨_, List.mem_map.2 ⟨r, hr, rfl⟩, hinf.2⟩
  have hjr : j ∈ r := collect_led hni hj hc hk hled hr
  -- all that is collected is measured
  have hrin : ∀ i ∈ r, i < vs.length := by
    obtain ⟨xs, m, hcov, hm, hcount⟩ := cover_of (f := ix.f) (nItems := ix.nItems) (nodes := ix.nodes) (L := List.range vs.length)
      (ix.roots.map fun r => ((0x7F800000 : F32), r)) fun p hp => by
        obtain ⟨r, hr, rfl⟩ := List.mem_map.1 hp
        obtain ⟨ys, s, h1, h2, h3, h4⟩ := hB.trees r hr
        refine ⟨ys, s, by rw [hni, hf]; exact h1, h2, ?_⟩
        rw [← h2.length_eq]; omega
    rw [List.length_range, List.length_map] at hm
    obtain ⟨r', rest, hr', hperm, _⟩ := collect_spec (A := A) (v := q) (searchK := budget limit n ix.roots.length) (nns := []) hcov
      (Nat.le_refl m)
    rw [hr' fuel' (by omega)] at hr
    injection hr with hr
    intro i hi
    rw [← hr, List.nil_append] at hi
    have hi : i ∈ xs := hperm.subset (by simp [hi])
    have := List.count_pos_iff.2 hi
    rw [hcount] at this
    rcases Nat.lt_or_ge i vs.length with h | h
    · exact h
    · rw [List.count_eq_zero.2 (by simpa using h)] at this; omega
  obtain ⟨dist', h1, h2, h3, h4⟩ := measure_spec hB q (sortNat r) (sortNat_sorted r)
    (fun j hj => hrin j ((sortNat_perm r).subset hj)) none (by simp)
  rw [h1] at hd
  injection hd with hd
  subst hd
  have hlen : (A.sort dist').length ≤ vs.length := complete_of_length (genuine_sort hA (h2.imp fun h => Nat.ne_of_lt h) h4)
  rw [← h, List.take_of_length_le (by omega)]
  rw [((hA.perm dist').map Prod.snd).mem_iff, h3]
  exact ⟨(sortNat_perm r).mem_iff.2 hjr, by simp⟩

/-- Zero or NaN. -/
def Naught (x : SF.Num) : Prop := x.mag = 0 ∨ SF.f32.inf < x.mag

theorem naught_nan : Naught (SF.nanN SF.f32) := Or.inr (by decide)

theorem naught_mul (z y : SF.Num) (hz : z.mag = 0) : Naught (SF.mulN SF.f32 z y) := by
  rcases Nat.lt_trichotomy y.mag SF.f32.inf with h | h | h
  · left; rw [SF.mulN_comm]; exact SF.mulN_zero y z h hz
  · have h1 : z.isNaN SF.f32 = false := by simp [SF.Num.isNaN, hz]
    have h2 : y.isNaN SF.f32 = false := by simp [SF.Num.isNaN, h]
    have h3 : y.isInf SF.f32 = true := by simp [SF.Num.isInf, h]
    simp only [SF.mulN, h1, h2, h3, hz, Bool.or_self, Bool.or_true, Bool.false_eq_true, if_false, if_true, decide_true, Bool.true_or]
    exact naught_nan
  · have h2 : y.isNaN SF.f32 = true := by simp [SF.Num.isNaN, h]
    simp only [SF.mulN, h2, Bool.or_true, if_true]
    exact naught_nan

theorem naught_add (a b : SF.Num) (ha : Naught a) (hb : Naught b) : Naught (SF.addN SF.f32 a b) := by
  unfold SF.addN
  split
  · exact naught_nan
  · rename_i hn
    simp only [Bool.or_eq_true, not_or, SF.Num.isNaN, decide_eq_true_eq] at hn
    have h1 : a.mag = 0 := ha.resolve_right hn.1
    have h2 : b.mag = 0 := hb.resolve_right hn.2
    have e1 : a.isInf SF.f32 = false := by simp [SF.Num.isInf, h1, SF.inf32]
    have e2 : b.isInf SF.f32 = false := by simp [SF.Num.isInf, h2, SF.inf32]
    have e3 : a.sval SF.f32 = 0 := by simp [SF.Num.sval, h1, SF.val_zero]
    have e4 : b.sval SF.f32 = 0 := by simp [SF.Num.sval, h2, SF.val_zero]
    simp only [e1, e2, e3, e4, Bool.false_eq_true, if_false, Int.add_zero, if_true]
    exact Or.inl rfl

/-- IEEE arithmetic meets the assumption. -/
theorem soft_zeroDot : ZeroDot soft := by
  intro f y
  have hmul : ∀ p ∈ List.zipWith (SF.ops id).mul (List.replicate f 0) y, Naught (SF.un32 p) := by
    induction f generalizing y with
    | zero => simp
    | succ f ih =>
      cases y with
      | nil => simp
      | cons x y =>
        intro p hp
        rw [List.replicate_succ, List.zipWith_cons_cons] at hp
        rcases List.mem_cons.1 hp with rfl | hp
        · show Naught (SF.un32 (SF.pk32 (SF.mulN SF.f32 (SF.un32 0) (SF.un32 x))))
          rw [SF.un_pk32 _ (SF.mulN_mag_lt _ _)]
          exact naught_mul _ _ (by decide)
        · exact ih y p hp
  have hadd : ∀ (l : List F32) (acc : F32), Naught (SF.un32 acc) → (∀ p ∈ l, Naught (SF.un32 p)) →
      Naught (SF.un32 (l.foldl (SF.ops id).add acc)) := by
    intro l
    induction l with
    | nil => intro acc h _; exact h
    | cons x l ih =>
      intro acc h hl
      refine ih _ ?_ fun p hp => hl p (by simp [hp])
      show Naught (SF.un32 (SF.pk32 (SF.addN SF.f32 (SF.un32 acc) (SF.un32 x))))
      rw [SF.un_pk32 _ (SF.addN_mag_lt _ _ (SF.un32_mag_lt _) (SF.un32_mag_lt _))]
      exact naught_add _ _ h (hl x (by simp))
  have h : Naught (SF.un32 (soft.dot (List.replicate f 0) y)) := hadd _ 0 (Or.inl (by decide)) hmul
  rcases h with h | h
  · exact Or.inl ((SF.isZero_iff _).2 h)
  · right
    rw [SF.inf32] at h
    unfold F32.isNaN
    exact decide_eq_true h

/-- Planes that do not contain `q`, of an index that has been built. -/
def clearOf (A : Lib) (ix : Index) (q : List F32) : Bool :=
  ix.nodes.all fun nd => decide (nd.desc ≤ maxChildren ix.f) || F32.lt (A.dot nd.v q) 0 || F32.lt 0 (A.dot nd.v q)

theorem clear_of {ix : Index} {q : List F32} (h : clearOf A ix q = true) : Clear A ix q := by
  intro i nd _ hn hd
  have := List.all_eq_true.1 h nd (List.mem_of_getElem? hn)
  simp only [Bool.or_eq_true, decide_eq_true_eq] at this
  rcases this with (h | h) | h
  · omega
  · exact Or.inl h
  · exact Or.inr h

/-- The numbers 1, -1, 1, -1, 1. -/
def exTurns : List (List F32) := [[0x3F800000], [0xBF800000], [0x3F800000], [0xBF800000], [0x3F800000]]

/-- `k x`, where `x` is computed first. -/
def known {α : Type} (x : F32) (k : F32 → α) : α :=
  Nat.rec (motive := fun _ => α) (k (UInt32.ofNat 0)) (fun n _ => k (UInt32.ofNat (n + 1))) x.toNat

theorem known_eq {α : Type} (x : F32) (k : F32 → α) : known x k = k x := by
  have h : known x k = k (UInt32.ofNat x.toNat) := by
    unfold known
    cases x.toNat <;> rfl
  rw [h, UInt32.ofNat_toNat]

/-- `soft`, where the arguments are computed first: the same arithmetic, quicker to evaluate. -/
def softSteps : Lib where
  dot := soft.dot
  add := fun x y => known x fun x => known y fun y => soft.add x y
  sub := fun x y => known x fun x => known y fun y => soft.sub x y
  mul := fun x y => known x fun x => known y fun y => soft.mul x y
  div := fun x y => known x fun x => known y fun y => soft.div x y
  sqrt := fun x => known x fun x => soft.sqrt x
  ofNat := soft.ofNat
  angle := fun x y => known x fun x => known y fun y => soft.angle x y
  under95 := soft.under95
  over99 := soft.over99
  sort := soft.sort

theorem softSteps_eq : softSteps = soft := by
  unfold softSteps
  simp only [known_eq]

end Annoy

open Annoy

/-- C148, full statement: a search of the native index for a vector that is in it answers with its position, and the first answer is not
farther from it than the vector itself.  FALSE of the code. -/
def C148_index_finds_itself_statement : Prop :=
  ∀ (A : Lib), A.Ok → ZeroDot A → ∀ (f fuel : Nat) (vs : List (List F32)) (ix : Index), build A f fuel vs = .ok ix →
    ∀ (j : Nat) (q : List F32), vs[j]? = some q → ∀ (n fuel' : Nat) (limit : UInt32) (ans : List (F32 × Nat)), vs.length ≤ n →
      vs.length < 2^31 → 0 < limit.toNat → limit.toNat < 2^31 → NoNaN A vs q → 2 * vs.length * ix.roots.length ≤ fuel' →
      getAllNns A fuel' ix q n limit = .ok ans →
      (angular A q q, j) ∈ ans ∧ ∃ x rest, ans = x :: rest ∧ F32.lt (angular A q q) x.1 = false

/-- C148: it does if on its way through the trees the vector never comes to a plane that it lies in. -/
theorem C148_index_finds_itself_partial (A : Lib) (hA : A.Ok) (hz : ZeroDot A) (f fuel : Nat) (vs : List (List F32)) (ix : Index)
    (hb : build A f fuel vs = .ok ix) (j : Nat) (q : List F32) (hj : vs[j]? = some q) (hc : Clear A ix q) (n fuel' : Nat)
    (limit : UInt32) (ans : List (F32 × Nat)) (hn : vs.length ≤ n) (hmax : vs.length < 2^31) (hlim : 0 < limit.toNat)
    (hlim' : limit.toNat < 2^31) (hfuel : 2 * vs.length * ix.roots.length ≤ fuel')
    (h : getAllNns A fuel' ix q n limit = .ok ans) :
    (angular A q q, j) ∈ ans ∧ (NoNaN A vs q → ∃ x rest, ans = x :: rest ∧ F32.lt (angular A q q) x.1 = false) := by
  have hm := found_itself hA hz hmax hb hj hc hn hfuel (by rw [budget_small hlim']; exact hlim) h
  obtain ⟨ans', h1, hg, _⟩ := answer hA hmax hb q n limit
  rw [h1 fuel' hfuel] at h
  injection h with h
  subst h
  obtain ⟨x, hx, rfl⟩ := List.mem_map.1 hm
  obtain ⟨y, hy, hxy⟩ := hg.dist x hx
  rw [hj] at hy
  injection hy with hy
  subst hy
  rw [← hxy]
  refine ⟨hx, fun hnan => ?_⟩
  match ans', hx, hg with
  | y :: tl, hx, hg =>
    refine ⟨y, tl, rfl, ?_⟩
    rcases List.mem_cons.1 hx with rfl | hx
    · simp [F32.lt]
    · rcases (List.pairwise_cons.1 (hg.sorted hnan)).1 x hx with h | h
      · exact lt_asymm h
      · exact h.1

/-- C148, counterexample: of five numbers, one of them 1, a search for 1 finds others (C114). -/
theorem C148_index_finds_itself_fails : ¬ C148_index_finds_itself_statement := by
  intro h
  obtain ⟨ix, hb, hx⟩ := Out.bind_ok C114_example
  obtain ⟨ans, ha, hx⟩ := Out.bind_ok hx
  injection hx with hx
  have hr : (build soft 1 6 (exVs 5 2)).bind (fun ix => .ok ix.roots.length) = .ok 2 := by decide +kernel
  rw [hb, Out.ok_bind] at hr
  injection hr with hr
  have := (h soft soft_ok soft_zeroDot 1 6 _ ix hb 2 [0x3F800000] rfl 1000 20 3 ans (by decide) (by decide) (by decide) (by decide)
    (by unfold NoNaN; decide +kernel) (by rw [hr]; decide) ha).1
  rw [hx] at this
  exact absurd this (by decide +kernel)

set_option maxRecDepth 100000 in
/-- C148: an index of the numbers 1, -1, 1, -1, 1, with two trees that have a plane each; neither plane contains -1, and a search
for it with the limit 1 finds the positions 1 and 3, both at distance zero. -/
theorem C148_example : soft.Ok ∧ ZeroDot soft ∧
    (build soft 1 12 exTurns).bind (fun ix => (getAllNns soft 20 ix [0xBF800000] 5 1).bind fun ans =>
      .ok (ix.roots.length, clearOf soft ix [0xBF800000], ((ix.nodes[7]?).getD Node.zero).v, ans)) =
    .ok (2, true, [0xBF800000], [(0, 1), (0, 3)]) := ⟨soft_ok, soft_zeroDot, by rw [← softSteps_eq]; decide +kernel⟩

end Veri
