import Verif.Annoy.Model
set_option autoImplicit false
namespace Veri
namespace Annoy

/-- What is assumed of the arithmetic: a split with an empty side is out of balance, and the sort permutes its list and, if there is
no NaN among the distances, sorts it. -/
structure Lib.Ok (A : Lib) : Prop where
  left : ∀ n, n < 2^31 → A.over99 n 0 = true
  right : ∀ n, n < 2^31 → A.over99 0 n = true
  perm : ∀ l, (A.sort l).Perm l
  sorted : ∀ l : List (F32 × Nat), (∀ x ∈ l, F32.isNaN x.1 = false) → (A.sort l).Pairwise fun a b => pairLt b a = false

theorem Out.bind_ok {α β : Type} {x : Out α} {g : α → Out β} {b : β} (h : x.bind g = .ok b) : ∃ a, x = .ok a ∧ g a = .ok b := by
  cases x with
  | ok a => exact ⟨a, rfl, h⟩
  | crash => cases h
  | running => cases h

theorem Out.bind_ne {α β : Type} {x : Out α} {g : α → Out β} (hx : x ≠ .crash) (hg : ∀ a, x = .ok a → g a ≠ .crash) :
    x.bind g ≠ .crash := by
  cases x with
  | ok a => exact hg a rfl
  | crash => exact absurd rfl hx
  | running => intro h; cases h

theorem index_ne {k : Kiss} {n : Nat} (h : n ≠ 0) : k.index n ≠ .crash := by
  unfold Kiss.index; rw [if_neg h]; intro h; cases h

theorem index_lt {k k' : Kiss} {n i : Nat} (h : k.index n = .ok (i, k')) : i < n := by
  unfold Kiss.index at h
  split at h
  · cases h
  · simp only [Out.ok.injEq, Prod.mk.injEq] at h
    rw [← h.1]; exact Nat.mod_lt _ (by omega)

theorem Out.ok_bind {α β : Type} (a : α) (g : α → Out β) : (Out.ok a).bind g = g a := rfl

theorem ofOption_get {α : Type} {l : List α} {i : Nat} (h : i < l.length) : Out.ofOption l[i]? = .ok l[i] := by
  rw [List.getElem?_eq_getElem h]; rfl

section
variable {A : Lib}

theorem meansLoop_ne (nodes : List Node) (hn : nodes.length ≠ 0) (l : Nat) (m : Means) (k : Kiss) :
    meansLoop A nodes l m k ≠ .crash := by
  induction l generalizing m k with
  | zero => intro h; cases h
  | succ l ih =>
    refine Out.bind_ne (index_ne hn) ?_
    rintro ⟨i, k'⟩ hi
    simp only [ofOption_get (index_lt hi)]
    exact ih _ _

theorem twoMeans_ne (nodes : List Node) (hn : 2 ≤ nodes.length) (k : Kiss) : twoMeans A nodes k ≠ .crash := by
  refine Out.bind_ne (index_ne (by omega)) ?_
  rintro ⟨i, k1⟩ hi
  refine Out.bind_ne (index_ne (by omega)) ?_
  rintro ⟨j, k2⟩ hj
  have h1 := index_lt hi
  have h2 := index_lt hj
  have h3 : (if j ≥ i then j + 1 else j) < nodes.length := by split <;> omega
  simp only [ofOption_get h1, ofOption_get h3]
  exact meansLoop_ne nodes (by omega) _ _ _

theorem createSplit_ne (nodes : List Node) (hn : 2 ≤ nodes.length) (k : Kiss) : createSplit A nodes k ≠ .crash := by
  refine Out.bind_ne (twoMeans_ne nodes hn k) ?_
  rintro ⟨m, k⟩ _ h
  cases h

theorem sides_ne {nodes : List Node} {n : List F32} {indices : List Nat} (h : ∀ j ∈ indices, j < nodes.length) (k : Kiss) :
    sides A nodes n indices k ≠ .crash := by
  induction indices generalizing k with
  | nil => intro h; cases h
  | cons j js ih =>
    have hj := h j (by simp)
    simp only [sides, ofOption_get hj, Out.ok_bind]
    refine Out.bind_ne (ih (fun x hx => h x (by simp [hx])) _) ?_
    rintro ⟨l, r, k⟩ _ h
    cases h

theorem sides_perm {nodes : List Node} {n : List F32} {indices : List Nat} {k k' : Kiss} {l r : List Nat}
    (h : sides A nodes n indices k = .ok (l, r, k')) : (l ++ r).Perm indices := by
  induction indices generalizing k k' l r with
  | nil => cases h; exact List.Perm.refl _
  | cons j js ih =>
    obtain ⟨x, hx, h⟩ := Out.bind_ok h
    obtain ⟨⟨l', r', k''⟩, h1, h2⟩ := Out.bind_ok h
    have hp := ih h1
    simp only at h2
    split at h2
    · cases h2
      exact List.perm_middle.trans (hp.cons j)
    · cases h2
      exact hp.cons j

theorem randomSides_perm (indices : List Nat) (k : Kiss) :
    ((randomSides indices k).1 ++ (randomSides indices k).2.1).Perm indices := by
  induction indices generalizing k with
  | nil => exact List.Perm.refl _
  | cons j js ih =>
    simp only [randomSides]
    split
    · exact List.perm_middle.trans ((ih _).cons j)
    · exact (ih _).cons j

theorem mapM_get {α : Type} {l : List α} {is : List Nat} (h : ∀ i ∈ is, i < l.length) :
    ∃ xs, (is.mapM fun j => l[j]?) = some xs ∧ xs.length = is.length := by
  induction is with
  | nil => exact ⟨[], rfl, rfl⟩
  | cons i is ih =>
    obtain ⟨xs, hx, hl⟩ := ih fun x hx => h x (by simp [hx])
    refine ⟨l[i]'(h i (by simp)) :: xs, ?_, by simp [hl]⟩
    simp [List.mapM_cons, hx, List.getElem?_eq_getElem (h i (by simp))]

theorem attempts_ne {nodes : List Node} {indices : List Nat} (h : ∀ j ∈ indices, j < nodes.length) (hl : 2 ≤ indices.length)
    (n : Nat) (k : Kiss) : attempts A nodes indices n k ≠ .crash := by
  obtain ⟨xs, hx, hxl⟩ := mapM_get h
  induction n generalizing k with
  | zero =>
    rw [attempts, hx]
    refine Out.bind_ne (by intro h; cases h) ?_
    rintro _ ⟨⟩
    refine Out.bind_ne (createSplit_ne xs (by omega) k) ?_
    rintro ⟨v, k⟩ _
    refine Out.bind_ne (sides_ne h k) ?_
    rintro ⟨l, r, k⟩ _ h
    cases h
  | succ n ih =>
    rw [attempts, hx]
    refine Out.bind_ne (by intro h; cases h) ?_
    rintro _ ⟨⟩
    refine Out.bind_ne (createSplit_ne xs (by omega) k) ?_
    rintro ⟨v, k⟩ _
    refine Out.bind_ne (sides_ne h k) ?_
    rintro ⟨l, r, k⟩ _
    simp only
    split
    · intro h; cases h
    · exact ih _

theorem attempts_perm {nodes : List Node} {indices : List Nat} {n : Nat} {k k' : Kiss} {s : Split}
    (h : attempts A nodes indices n k = .ok (s, k')) : (s.l ++ s.r).Perm indices := by
  induction n generalizing k with
  | zero =>
    rw [attempts] at h
    obtain ⟨xs, _, h⟩ := Out.bind_ok h
    obtain ⟨⟨v, k1⟩, _, h⟩ := Out.bind_ok h
    obtain ⟨⟨l, r, k2⟩, hs, h⟩ := Out.bind_ok h
    cases h
    exact sides_perm hs
  | succ n ih =>
    rw [attempts] at h
    obtain ⟨xs, _, h⟩ := Out.bind_ok h
    obtain ⟨⟨v, k1⟩, _, h⟩ := Out.bind_ok h
    obtain ⟨⟨l, r, k2⟩, hs, h⟩ := Out.bind_ok h
    simp only at h
    split at h
    · cases h; exact sides_perm hs
    · exact ih h

theorem balance_ne (f : Nat) (indices : List Nat) (fuel : Nat) (s : Split) (k : Kiss) :
    balance A f indices fuel s k ≠ .crash := by
  induction fuel generalizing s k with
  | zero => unfold balance; split <;> (intro h; cases h)
  | succ n ih =>
    unfold balance
    split
    · exact ih _ _
    · intro h; cases h

theorem balance_perm {f : Nat} {indices : List Nat} {fuel : Nat} {s s' : Split} {k k' : Kiss}
    (h : balance A f indices fuel s k = .ok (s', k')) (hp : (s.l ++ s.r).Perm indices) :
    (s'.l ++ s'.r).Perm indices ∧ A.over99 s'.l.length s'.r.length = false := by
  induction fuel generalizing s k with
  | zero =>
    unfold balance at h
    split at h
    · cases h
    · rename_i hb; cases h; exact ⟨hp, by simpa using hb⟩
  | succ n ih =>
    unfold balance at h
    split at h
    · exact ih h (randomSides_perm indices k)
    · rename_i hb; cases h; exact ⟨hp, by simpa using hb⟩

/-- The tree at node `i` has these items as leaves (with multiplicities) and this many nodes. -/
inductive Tree (f nItems : Nat) (nodes : List Node) : Nat → List Nat → Nat → Prop where
  | leaf {i : Nat} {nd : Node} : nodes[i]? = some nd → nd.desc = 1 → i < nItems → Tree f nItems nodes i [i] 1
  | bucket {i : Nat} {nd : Node} : nodes[i]? = some nd → ¬(nd.desc = 1 ∧ i < nItems) → nd.desc ≤ maxChildren f →
      nd.desc ≤ nd.children.length → Tree f nItems nodes i (nd.children.take nd.desc) 1
  | split {i a b : Nat} {nd : Node} {rest xs ys : List Nat} {s t : Nat} : nodes[i]? = some nd → maxChildren f < nd.desc →
      nd.children = a :: b :: rest → Tree f nItems nodes a xs s → Tree f nItems nodes b ys t →
      Tree f nItems nodes i (xs ++ ys) (s + t + 1)

theorem Tree.mono {f nItems : Nat} {nodes : List Node} {i s : Nat} {xs : List Nat} (h : Tree f nItems nodes i xs s)
    (more : List Node) : Tree f nItems (nodes ++ more) i xs s := by
  have hg : ∀ {i : Nat} {nd : Node}, nodes[i]? = some nd → (nodes ++ more)[i]? = some nd := by
    intro i nd h
    rw [List.getElem?_append_left (List.getElem?_eq_some_iff.1 h).1, h]
  induction h with
  | leaf h1 h2 h3 => exact .leaf (hg h1) h2 h3
  | bucket h1 h2 h3 h4 => exact .bucket (hg h1) h2 h3 h4
  | split h1 h2 h3 _ _ ih1 ih2 => exact .split (hg h1) h2 h3 ih1 ih2

/-- The first nodes are those of the items. -/
def ItemsFirst (nItems : Nat) (nodes : List Node) : Prop :=
  ∀ i, i < nItems → ∃ nd, nodes[i]? = some nd ∧ nd.desc = 1

theorem ItemsFirst.mono {nItems : Nat} {nodes : List Node} (h : ItemsFirst nItems nodes) (more : List Node) :
    ItemsFirst nItems (nodes ++ more) := by
  intro i hi
  obtain ⟨nd, h1, h2⟩ := h i hi
  exact ⟨nd, by rw [List.getElem?_append_left (List.getElem?_eq_some_iff.1 h1).1, h1], h2⟩

theorem ItemsFirst.lt {nItems : Nat} {nodes : List Node} (h : ItemsFirst nItems nodes) {i : Nat} (hi : i < nItems) :
    i < nodes.length := by
  obtain ⟨nd, h1, _⟩ := h i hi
  exact (List.getElem?_eq_some_iff.1 h1).1

theorem ItemsFirst.le {nItems : Nat} {nodes : List Node} (h : ItemsFirst nItems nodes) : nItems ≤ nodes.length := by
  cases nItems with
  | zero => omega
  | succ n => have := h.lt (Nat.lt_succ_self n); omega

/-- What `_make_tree` does. -/
structure Made (f nItems : Nat) (nodes nodes' : List Node) (i : Nat) (indices : List Nat) (isRoot : Bool) : Prop where
  grows : ∃ more, nodes' = nodes ++ more
  size : nodes'.length ≤ nodes.length + (if isRoot then max 1 (indices.length - 1) else indices.length - 1)
  root : isRoot = true → nodes.length < nodes'.length
  tree : ∃ ys s, Tree f nItems nodes' i ys s ∧ ys.Perm indices ∧ s + 1 ≤ 2 * ys.length ∧
    (isRoot = true → indices.length ≤ maxChildren f → s = 1)

theorem makeTree_spec (hA : A.Ok) {f nItems : Nat} {fuel : Nat} {nodes : List Node} {k : Kiss} {indices : List Nat} {isRoot : Bool}
    (hit : ItemsFirst nItems nodes) (hin : ∀ j ∈ indices, j < nItems) (hne : indices ≠ [])
    (hroot : isRoot = true → indices.length = nItems) (hmax : indices.length < 2^31) :
    makeTree A f nItems fuel nodes k indices isRoot ≠ .crash ∧
    ∀ i nodes' k', makeTree A f nItems fuel nodes k indices isRoot = .ok (i, nodes', k') →
      Made f nItems nodes nodes' i indices isRoot := by
  induction fuel generalizing nodes k indices isRoot with
  | zero => exact ⟨(by intro h; cases h), (by intro i nodes' k' h; cases h)⟩
  | succ fuel ih =>
    have hpos : 0 < indices.length := List.length_pos_iff.2 hne
    unfold makeTree
    by_cases h1 : indices.length = 1 ∧ isRoot = false
    · rw [if_pos h1, ofOption_get (by omega)]
      refine ⟨(by intro h; cases h), ?_⟩
      intro i nodes' k' h
      cases h
      obtain ⟨x, rfl⟩ := List.length_eq_one_iff.1 h1.1
      obtain ⟨nd, hn, hd⟩ := hit x (hin x (by simp))
      exact ⟨⟨[], by simp⟩, by simp, by simp [h1.2], [x], 1, .leaf hn hd (hin x (by simp)), List.Perm.refl _, by simp, by simp⟩
    rw [if_neg h1]
    by_cases h2 : indices.length ≤ maxChildren f ∧ (isRoot = false ∨ nItems ≤ maxChildren f ∨ indices.length = 1)
    · simp only [if_pos h2]
      refine ⟨(by intro h; cases h), ?_⟩
      intro i nodes' k' h
      cases h
      refine ⟨⟨_, rfl⟩, ?_, by simp, ?_⟩
      · cases isRoot with
        | true => simp; omega
        | false =>
          simp only [and_true] at h1
          simp; omega
      · have hd : (if isRoot = true then nItems else indices.length) = indices.length := by
          split
          · rename_i h; exact (hroot h).symm
          · rfl
        refine ⟨_, 1, .bucket (List.getElem?_concat_length ..) ?_ ?_ ?_, ?_, ?_, by simp⟩
        · rintro ⟨_, h⟩; exact absurd hit.le (by omega)
        · simp only [hd]; exact h2.1
        · simp only [hd, List.length_append]; omega
        · simp only [hd, List.take_left]; exact List.Perm.refl _
        · simp only [hd, List.take_left]; omega
    · simp only [if_neg h2]
      have hbig : maxChildren f < indices.length ∧ maxChildren f < (if isRoot = true then nItems else indices.length) := by
        cases isRoot with
        | false => simp only [Bool.false_eq_true, if_false, true_or, and_true] at h2 ⊢; omega
        | true =>
          have := hroot rfl
          simp only [if_true, Bool.true_eq_false, false_or] at h2 ⊢
          omega
      have hK : 2 ≤ maxChildren f := Nat.le_add_left _ _
      have hinl : ∀ j ∈ indices, j < nodes.length := fun j hj => hit.lt (hin j hj)
      -- both orders of the two subtrees
      have two : ∀ (k : Kiss) (u w : List Nat), u ≠ [] → w ≠ [] → (∀ j ∈ u, j < nItems) → (∀ j ∈ w, j < nItems) →
          u.length + w.length = indices.length →
          makeTree A f nItems fuel nodes k u false ≠ .crash ∧
          ∀ a nodes1 k1, makeTree A f nItems fuel nodes k u false = .ok (a, nodes1, k1) →
            makeTree A f nItems fuel nodes1 k1 w false ≠ .crash ∧
            ∀ b nodes2 k2, makeTree A f nItems fuel nodes1 k1 w false = .ok (b, nodes2, k2) →
              (∃ more, nodes2 = nodes ++ more) ∧ nodes2.length + 2 ≤ nodes.length + u.length + w.length ∧
              (∃ ys s, Tree f nItems nodes2 a ys s ∧ ys.Perm u ∧ s + 1 ≤ 2 * ys.length) ∧
              ∃ ys s, Tree f nItems nodes2 b ys s ∧ ys.Perm w ∧ s + 1 ≤ 2 * ys.length := by
        intro k u w hu hw hui hwi huw
        have h1 := ih (k := k) (indices := u) (isRoot := false) hit hui hu (by simp) (by omega)
        refine ⟨h1.1, ?_⟩
        intro a nodes1 k1 ha
        obtain ⟨⟨m1, rfl⟩, hs1, _, ys, s, ht1, hp1, hy, _⟩ := h1.2 _ _ _ ha
        have h2 := ih (k := k1) (indices := w) (isRoot := false) (hit.mono m1) hwi hw (by simp) (by omega)
        refine ⟨h2.1, ?_⟩
        intro b nodes2 k2 hb
        obtain ⟨⟨m2, rfl⟩, hs2, _, zs, t, ht2, hp2, hz, _⟩ := h2.2 _ _ _ hb
        have hu' : 0 < u.length := List.length_pos_iff.2 hu
        have hw' : 0 < w.length := List.length_pos_iff.2 hw
        simp only [List.length_append, Bool.false_eq_true, if_false] at hs1 hs2
        exact ⟨⟨m1 ++ m2, by simp⟩, by simp only [List.length_append]; omega, ⟨ys, s, ht1.mono m2, hp1, hy⟩,
          ⟨zs, t, ht2, hp2, hz⟩⟩
      -- the new node
      have fin : ∀ (v : List F32) (l r : List Nat) (nodes2 : List Node) (a b : Nat) (k' : Kiss), (l ++ r).Perm indices →
          (∃ more, nodes2 = nodes ++ more) → nodes2.length + 2 ≤ nodes.length + l.length + r.length →
          (∃ ys s, Tree f nItems nodes2 a ys s ∧ ys.Perm l ∧ s + 1 ≤ 2 * ys.length) →
          (∃ ys s, Tree f nItems nodes2 b ys s ∧ ys.Perm r ∧ s + 1 ≤ 2 * ys.length) →
          ∀ i nodes' k'', Out.ok (nodes2.length, nodes2 ++ [⟨if isRoot = true then nItems else indices.length, [a, b], 0, v⟩], k') =
            .ok (i, nodes', k'') → Made f nItems nodes nodes' i indices isRoot := by
        rintro v l r nodes2 a b k' hp ⟨more, rfl⟩ hsz ⟨ys, s, ht, hys, hy⟩ ⟨zs, t, hu, hzs, hz⟩ i nodes' k'' h
        cases h
        have hlen := hp.length_eq
        simp only [List.length_append] at hlen
        refine ⟨⟨more ++ [_], by rw [List.append_assoc]⟩, ?_, ?_, ys ++ zs, s + t + 1, ?_, (hys.append hzs).trans hp, ?_, ?_⟩
        · simp only [List.length_append, List.length_cons, List.length_nil] at hsz ⊢
          split <;> omega
        · intro _; simp only [List.length_append, List.length_cons, List.length_nil]; omega
        · exact .split (List.getElem?_concat_length ..) hbig.2 rfl (ht.mono _) (hu.mono _)
        · simp only [List.length_append]; omega
        · intro _ h; omega
      have key : ∀ (s : Split) (k : Kiss), (s.l ++ s.r).Perm indices → A.over99 s.l.length s.r.length = false →
          s.l ≠ [] ∧ s.r ≠ [] ∧ (∀ j ∈ s.l, j < nItems) ∧ (∀ j ∈ s.r, j < nItems) ∧ s.l.length + s.r.length = indices.length := by
        intro s k hp ho
        have hlen := hp.length_eq
        rw [List.length_append] at hlen
        refine ⟨?_, ?_, fun j hj => hin j (hp.subset (by simp [hj])), fun j hj => hin j (hp.subset (by simp [hj])), hlen⟩
        · intro h0; rw [h0, List.length_nil, hA.right _ (by omega)] at ho; cases ho
        · intro h0; rw [h0, List.length_nil, hA.left _ (by omega)] at ho; cases ho
      constructor
      · refine Out.bind_ne (attempts_ne hinl (by omega) 2 k) ?_
        rintro ⟨s, k1⟩ hs
        refine Out.bind_ne (balance_ne f indices fuel s k1) ?_
        rintro ⟨s', k2⟩ hs'
        obtain ⟨hp, ho⟩ := balance_perm hs' (attempts_perm hs)
        obtain ⟨hl, hr, hli, hri, hlr⟩ := key s' k2 hp ho
        simp only
        split
        · obtain ⟨c1, c2⟩ := two k2 _ _ hr hl hri hli (by omega)
          refine Out.bind_ne c1 ?_
          rintro ⟨a, nodes1, k3⟩ ha
          refine Out.bind_ne (c2 _ _ _ ha).1 ?_
          rintro ⟨b, nodes2, k4⟩ hb h
          cases h
        · obtain ⟨c1, c2⟩ := two k2 _ _ hl hr hli hri hlr
          refine Out.bind_ne c1 ?_
          rintro ⟨a, nodes1, k3⟩ ha
          refine Out.bind_ne (c2 _ _ _ ha).1 ?_
          rintro ⟨b, nodes2, k4⟩ hb h
          cases h
      · intro i nodes' k' h
        obtain ⟨⟨s, k1⟩, hs, h⟩ := Out.bind_ok h
        obtain ⟨⟨s', k2⟩, hs', h⟩ := Out.bind_ok h
        obtain ⟨hp, ho⟩ := balance_perm hs' (attempts_perm hs)
        obtain ⟨hl, hr, hli, hri, hlr⟩ := key s' k2 hp ho
        simp only at h
        split at h
        · obtain ⟨⟨b, nodes1, k3⟩, hb, h⟩ := Out.bind_ok h
          obtain ⟨⟨a, nodes2, k4⟩, ha, h⟩ := Out.bind_ok h
          obtain ⟨g1, g2, g3, g4⟩ := ((two k2 _ _ hr hl hri hli (by omega)).2 _ _ _ hb).2 _ _ _ ha
          exact fin s'.v s'.l s'.r nodes2 a b k4 hp g1 (by omega) g4 g3 i nodes' k' h
        · obtain ⟨⟨a, nodes1, k3⟩, ha, h⟩ := Out.bind_ok h
          obtain ⟨⟨b, nodes2, k4⟩, hb, h⟩ := Out.bind_ok h
          obtain ⟨g1, g2, g3, g4⟩ := ((two k2 _ _ hl hr hli hri hlr).2 _ _ _ ha).2 _ _ _ hb
          exact fin s'.v s'.l s'.r nodes2 a b k4 hp g1 (by omega) g3 g4 i nodes' k' h

/-- What a built index is: the nodes of the items come first, every root is the root of a tree of all items. -/
structure Built (A : Lib) (f : Nat) (vs : List (List F32)) (nodes : List Node) (roots : List Nat) : Prop where
  items : ∀ (i : Nat) (v : List F32), vs[i]? = some v → nodes[i]? = some (itemNode A v)
  trees : ∀ r ∈ roots, ∃ ys s, Tree f vs.length nodes r ys s ∧ ys.Perm (List.range vs.length) ∧ s + 1 ≤ 2 * ys.length ∧
    (vs.length ≤ maxChildren f → s = 1)
  count : vs.length + roots.length ≤ nodes.length

theorem Built.itemsFirst {f : Nat} {vs : List (List F32)} {nodes : List Node} {roots : List Nat} (h : Built A f vs nodes roots) :
    ItemsFirst vs.length nodes :=
  fun i hi => ⟨_, h.items i vs[i] (List.getElem?_eq_getElem hi), rfl⟩

theorem Built.itemsOf {f : Nat} {vs : List (List F32)} {nodes : List Node} {roots : List Nat} (h : Built A f vs nodes roots) :
    itemsOf vs.length nodes = List.range vs.length := by
  unfold Annoy.itemsOf
  rw [List.filter_eq_self]
  intro i hi
  obtain ⟨nd, h1, h2⟩ := h.itemsFirst i (List.mem_range.1 hi)
  simp [h1, h2]

theorem Built.mono {f : Nat} {vs : List (List F32)} {nodes : List Node} {roots : List Nat} (h : Built A f vs nodes roots)
    (more : List Node) : Built A f vs (nodes ++ more) roots := by
  refine ⟨?_, ?_, by have := h.count; simp only [List.length_append]; omega⟩
  · intro i v hv
    have := h.items i v hv
    rw [List.getElem?_append_left (List.getElem?_eq_some_iff.1 this).1, this]
  · intro r hr
    obtain ⟨ys, s, ht, hh⟩ := h.trees r hr
    exact ⟨ys, s, ht.mono more, hh⟩

theorem threadBuild_spec (hA : A.Ok) {f : Nat} {vs : List (List F32)} {fuel : Nat} {nodes : List Node} {roots : List Nat} {k : Kiss}
    (h : Built A f vs nodes roots) (hsz : nodes.length + 1 ≤ 2 * vs.length + max 1 (vs.length - 1) ∨ nodes.length = vs.length)
    (hr : roots.length ≤ vs.length) (hmax : vs.length < 2^31) :
    threadBuild A f vs.length fuel nodes roots k ≠ .crash ∧
    ∀ nodes' roots', threadBuild A f vs.length fuel nodes roots k = .ok (nodes', roots') →
      Built A f vs nodes' roots' ∧ 2 * vs.length ≤ nodes'.length ∧ roots'.length ≤ vs.length ∧
      (nodes'.length + 1 ≤ 2 * vs.length + max 1 (vs.length - 1) ∨ nodes'.length = vs.length) ∧
      (nodes.length < 2 * vs.length → roots' ≠ []) ∧ (roots ≠ [] → roots' ≠ []) := by
  induction fuel generalizing nodes roots k with
  | zero =>
    unfold threadBuild
    split
    · refine ⟨(by intro h; cases h), ?_⟩
      intro nodes' roots' h'
      cases h'
      exact ⟨h, by omega, hr, hsz, by omega, id⟩
    · exact ⟨(by intro h; cases h), (by intro nodes' roots' h'; cases h')⟩
  | succ fuel ih =>
    unfold threadBuild
    split
    · refine ⟨(by intro h; cases h), ?_⟩
      intro nodes' roots' h'
      cases h'
      exact ⟨h, by omega, hr, hsz, by omega, id⟩
    · rename_i hlt
      have hlt : nodes.length < 2 * vs.length := by omega
      have hit := h.itemsFirst
      have hle := h.count
      rw [h.itemsOf]
      have hm := makeTree_spec hA (f := f) (fuel := fuel) (k := k) (indices := List.range vs.length) (isRoot := true) hit
        (fun j hj => List.mem_range.1 hj) (by intro h0; have := congrArg List.length h0; rw [List.length_range, List.length_nil] at this; omega) (fun _ => by simp)
        (by rw [List.length_range]; exact hmax)
      have hnew : ∀ i nodes1 k1, makeTree A f vs.length fuel nodes k (List.range vs.length) true = .ok (i, nodes1, k1) →
          Built A f vs nodes1 (roots ++ [i]) ∧ (nodes1.length + 1 ≤ 2 * vs.length + max 1 (vs.length - 1)) ∧
          (roots ++ [i]).length ≤ vs.length := by
        intro i nodes1 k1 he
        obtain ⟨⟨more, rfl⟩, hs, hg, ys, s, ht, hp, hsz, hsm⟩ := hm.2 _ _ _ he
        have hg := hg rfl
        simp only [↓reduceIte, List.length_range, List.length_append] at hs hg hsm
        refine ⟨⟨(h.mono more).items, ?_, ?_⟩, by simp only [List.length_append]; omega, ?_⟩
        · intro r hr
          rcases List.mem_append.1 hr with hr | hr
          · exact (h.mono more).trees r hr
          · rw [List.mem_singleton.1 hr]
            exact ⟨ys, s, ht, hp, hsz, hsm trivial⟩
        · simp only [List.length_append, List.length_cons, List.length_nil]; omega
        · simp only [List.length_append, List.length_cons, List.length_nil]; omega
      constructor
      · refine Out.bind_ne hm.1 ?_
        rintro ⟨i, nodes1, k1⟩ he
        obtain ⟨h1, h2, h3⟩ := hnew _ _ _ he
        exact (ih h1 (.inl h2) h3).1
      · intro nodes' roots' h'
        obtain ⟨⟨i, nodes1, k1⟩, he, h'⟩ := Out.bind_ok h'
        obtain ⟨h1, h2, h3⟩ := hnew _ _ _ he
        obtain ⟨g1, g2, g3, g4, g5, g6⟩ := (ih h1 (.inl h2) h3).2 _ _ h'
        exact ⟨g1, g2, g3, g4, fun _ => g6 (by simp), fun _ => g6 (by simp)⟩

/-- The start of a build. -/
theorem built_start (A : Lib) (f : Nat) (vs : List (List F32)) : Built A f vs (vs.map (itemNode A)) [] := by
  refine ⟨?_, by simp, by simp⟩
  intro i v h
  rw [List.getElem?_map, h]; rfl

theorem build_spec (hA : A.Ok) {f fuel : Nat} {vs : List (List F32)} (hmax : vs.length < 2^31) :
    build A f fuel vs ≠ .crash ∧
    ∀ ix, build A f fuel vs = .ok ix → ix.f = f ∧ ix.nItems = vs.length ∧ Built A f vs ix.nodes ix.roots ∧
      ix.roots.length ≤ vs.length ∧ ix.nodes.length ≤ 4 * vs.length - 1 ∧ (vs ≠ [] → ix.roots ≠ []) := by
  have hs := threadBuild_spec hA (fuel := fuel) (k := Kiss.new) (built_start A f vs) (by simp) (by simp) hmax
  have hroot : ∀ {nodes : List Node} {roots : List Nat}, Built A f vs nodes roots → ∀ r ∈ roots, r < nodes.length := by
    intro nodes roots hb r hr
    obtain ⟨ys, s, ht, _⟩ := hb.trees r hr
    cases ht with
    | leaf h => exact (List.getElem?_eq_some_iff.1 h).1
    | bucket h => exact (List.getElem?_eq_some_iff.1 h).1
    | split h => exact (List.getElem?_eq_some_iff.1 h).1
  constructor
  · refine Out.bind_ne hs.1 ?_
    rintro ⟨nodes, roots⟩ he
    obtain ⟨hb, _⟩ := hs.2 _ _ he
    obtain ⟨xs, hx, _⟩ := mapM_get (hroot hb)
    simp only [hx]
    intro h; cases h
  · intro ix h
    obtain ⟨⟨nodes, roots⟩, he, h⟩ := Out.bind_ok h
    obtain ⟨hb, h2, h3, h4, h5, _⟩ := hs.2 _ _ he
    obtain ⟨xs, hx, hl⟩ := mapM_get (hroot hb)
    simp only [hx] at h
    cases h
    refine ⟨rfl, rfl, hb.mono xs, h3, ?_, ?_⟩
    · simp only [List.length_append]
      rcases h4 with h4 | h4
      · omega
      · omega
    · intro hv
      have : 0 < vs.length := List.length_pos_iff.2 hv
      exact h5 (by simp; omega)

end
end Annoy
end Veri
