import Verif.Annoy.Lemmas
set_option autoImplicit false
namespace Veri
namespace Annoy
variable {A : Lib}

theorem popMax_perm : ∀ {q : List (F32 × Nat)} {x : F32 × Nat} {rest : List (F32 × Nat)}, popMax q = some (x, rest) →
    q.Perm (x :: rest)
  | [], _, _, h => by cases h
  | y :: ys, x, rest, h => by
    unfold popMax at h
    cases hp : popMax ys with
    | none =>
      rw [hp] at h
      simp only [Option.some.injEq, Prod.mk.injEq] at h
      obtain ⟨rfl, rfl⟩ := h
      cases ys with
      | nil => exact List.Perm.refl _
      | cons z zs =>
        exfalso
        unfold popMax at hp
        split at hp
        · cases hp
        · split at hp <;> cases hp
    | some r =>
      obtain ⟨z, zs⟩ := r
      have ih := popMax_perm hp
      rw [hp] at h
      simp only at h
      split at h
      · simp only [Option.some.injEq, Prod.mk.injEq] at h
        obtain ⟨rfl, rfl⟩ := h
        exact (ih.cons y).trans (List.Perm.swap _ _ _)
      · simp only [Option.some.injEq, Prod.mk.injEq] at h
        obtain ⟨rfl, rfl⟩ := h
        exact ih.cons y

theorem popMax_none {q : List (F32 × Nat)} (h : popMax q = none) : q = [] := by
  cases q with
  | nil => rfl
  | cons y ys =>
    unfold popMax at h
    split at h
    · cases h
    · split at h <;> cases h

/-- The trees in the queue have these items and this many nodes. -/
inductive Cover (f nItems : Nat) (nodes : List Node) : List (F32 × Nat) → List Nat → Nat → Prop where
  | nil : Cover f nItems nodes [] [] 0
  | cons {d : F32} {i : Nat} {q : List (F32 × Nat)} {xs ys : List Nat} {s t : Nat} : Tree f nItems nodes i xs s →
      Cover f nItems nodes q ys t → Cover f nItems nodes ((d, i) :: q) (xs ++ ys) (s + t)

theorem Cover.perm {f nItems : Nat} {nodes : List Node} {q q' : List (F32 × Nat)} (hp : q.Perm q') :
    ∀ {xs : List Nat} {n : Nat}, Cover f nItems nodes q xs n → ∃ ys, Cover f nItems nodes q' ys n ∧ ys.Perm xs := by
  induction hp with
  | nil => intro xs n h; exact ⟨xs, h, .refl _⟩
  | cons x _ ih =>
    intro xs n h
    cases h with
    | cons ht hc =>
      obtain ⟨ys, hc', hp⟩ := ih hc
      exact ⟨_, .cons ht hc', hp.append_left _⟩
  | swap x y l =>
    intro xs n h
    cases h with
    | @cons _ _ _ xs1 _ s1 _ ht hc =>
      cases hc with
      | @cons _ _ _ xs2 ys2 s2 t2 ht2 hc2 =>
        refine ⟨_, by rw [show s1 + (s2 + t2) = s2 + (s1 + t2) by omega]; exact .cons ht2 (.cons ht hc2), ?_⟩
        rw [← List.append_assoc, ← List.append_assoc]
        exact List.perm_append_comm.append_right _
  | trans _ _ ih1 ih2 =>
    intro xs n h
    obtain ⟨ys, h1, hp1⟩ := ih1 h
    obtain ⟨zs, h2, hp2⟩ := ih2 h1
    exact ⟨zs, h2, hp2.trans hp1⟩

theorem Tree.pos {f nItems : Nat} {nodes : List Node} {i s : Nat} {xs : List Nat} (h : Tree f nItems nodes i xs s) : 1 ≤ s := by
  cases h <;> omega

/-- One round of the loop: what is popped is taken over whole, or replaced by its two subtrees. -/
theorem collect_step {ix : Index} {v : List F32} {searchK : Nat} {q : List (F32 × Nat)} {nns xs : List Nat} {n : Nat}
    (hc : Cover ix.f ix.nItems ix.nodes q xs n) (hq : q ≠ []) (hk : nns.length < searchK) :
    (∃ q' ys zs m, Cover ix.f ix.nItems ix.nodes q' zs m ∧ m + 1 = n ∧ (ys ++ zs).Perm xs ∧
      ∀ fuel, collect A ix v searchK (fuel + 1) q nns = collect A ix v searchK fuel q' (nns ++ ys)) := by
  cases hp : popMax q with
  | none => exact absurd (popMax_none hp) hq
  | some r =>
    obtain ⟨⟨d, i⟩, q1⟩ := r
    obtain ⟨xs', hc', hpx⟩ := hc.perm (popMax_perm hp)
    cases hc' with
    | cons ht hc1 =>
      cases ht with
      | leaf h1 h2 h3 =>
        refine ⟨_, _, _, _, hc1, by omega, hpx, fun fuel => ?_⟩
        rw [collect, if_pos hk, hp]
        simp only [h1, Out.ofOption, Out.ok_bind, if_pos (And.intro h2 h3)]
      | bucket h1 h2 h3 h4 =>
        refine ⟨_, _, _, _, hc1, by omega, hpx, fun fuel => ?_⟩
        rw [collect, if_pos hk, hp]
        simp only [h1, Out.ofOption, Out.ok_bind, if_neg h2, if_pos h3, if_pos h4]
      | @split _ a b nd rest xs1 ys1 s1 t1 h1 h2 h3 h4 h5 =>
        have hne : ¬(nd.desc = 1 ∧ i < ix.nItems) := by
          have : 2 ≤ maxChildren ix.f := Nat.le_add_left _ _
          omega
        refine ⟨(pqDistance d (A.dot nd.v v) false, a) :: (pqDistance d (A.dot nd.v v) true, b) :: q1, [], _, _,
          .cons h4 (.cons h5 hc1), by omega, ?_, fun fuel => ?_⟩
        · rw [List.nil_append, ← List.append_assoc]
          exact hpx
        · rw [collect, if_pos hk, hp, List.append_nil]
          simp only [h1, Out.ofOption, Out.ok_bind, if_neg hne, if_neg (Nat.not_le.2 h2), h3]

/-- The loop over the queue: it ends, and what it collects is all there is, or enough. -/
theorem collect_spec {ix : Index} {v : List F32} {searchK fuel : Nat} {q : List (F32 × Nat)} {nns xs : List Nat} {n : Nat}
    (hc : Cover ix.f ix.nItems ix.nodes q xs n) (hf : n ≤ fuel) :
    ∃ r rest, (∀ fuel' ≥ n, collect A ix v searchK fuel' q nns = .ok (nns ++ r)) ∧ (r ++ rest).Perm xs ∧
      (rest = [] ∨ searchK ≤ (nns ++ r).length) := by
  induction fuel generalizing q nns xs n with
  | zero =>
    have hn : n = 0 := by omega
    subst hn
    have hq : q = [] ∧ xs = [] := by
      cases hc' : q with
      | nil =>
        rw [hc'] at hc
        generalize he : (0 : Nat) = z at hc
        cases hc; exact ⟨rfl, rfl⟩
      | cons x q' =>
        rw [hc'] at hc
        generalize he : (0 : Nat) = z at hc
        cases hc with
        | cons ht _ => have := ht.pos; omega
    obtain ⟨rfl, rfl⟩ := hq
    refine ⟨[], [], ?_, .refl _, .inl rfl⟩
    intro fuel' _
    rw [List.append_nil]
    cases fuel' with
    | zero => unfold collect; simp
    | succ m => unfold collect popMax; split <;> rfl
  | succ fuel ih =>
    by_cases hk : nns.length < searchK
    · by_cases hq : q = []
      · subst hq
        cases hc
        refine ⟨[], [], ?_, .refl _, .inl rfl⟩
        intro fuel' _
        rw [List.append_nil]
        cases fuel' with
        | zero => unfold collect; simp
        | succ m => unfold collect popMax; split <;> rfl
      · obtain ⟨q', ys, zs, m, hc', hm, hp, hstep⟩ := collect_step (A := A) (v := v) hc hq hk
        obtain ⟨r, rest, h1, h2, h3⟩ := ih (nns := nns ++ ys) hc' (by omega)
        refine ⟨ys ++ r, rest, ?_, ?_, ?_⟩
        · intro fuel' hf'
          obtain ⟨g, rfl⟩ : ∃ g, fuel' = g + 1 := ⟨fuel' - 1, by omega⟩
          rw [hstep, h1 g (by omega), List.append_assoc]
        · rw [List.append_assoc]; exact (h2.append_left ys).trans hp
        · rw [← List.append_assoc]; exact h3
    · refine ⟨[], xs, ?_, by simp, .inr (by simp; omega)⟩
      intro fuel' _
      rw [List.append_nil]
      cases fuel' with
      | zero => unfold collect; rw [if_neg (by omega)]
      | succ m => unfold collect; rw [if_neg hk]

/-! ### Sorting, distances, counting -/

theorem insertNat_perm (x : Nat) (l : List Nat) : (insertNat x l).Perm (x :: l) := by
  induction l with
  | nil => exact .refl _
  | cons y ys ih =>
    unfold insertNat
    split
    · exact .refl _
    · exact (ih.cons y).trans (.swap _ _ _)

theorem sortNat_perm (l : List Nat) : (sortNat l).Perm l := by
  induction l with
  | nil => exact .refl _
  | cons x xs ih => exact (insertNat_perm x _).trans (ih.cons x)

theorem insertNat_sorted {x : Nat} {l : List Nat} (h : l.Pairwise (· ≤ ·)) : (insertNat x l).Pairwise (· ≤ ·) := by
  induction l with
  | nil => simp [insertNat]
  | cons y ys ih =>
    unfold insertNat
    rw [List.pairwise_cons] at h
    split
    · rename_i hxy
      refine List.pairwise_cons.2 ⟨?_, List.pairwise_cons.2 h⟩
      intro z hz
      rcases List.mem_cons.1 hz with rfl | hz
      · exact hxy
      · exact Nat.le_trans hxy (h.1 z hz)
    · rename_i hxy
      refine List.pairwise_cons.2 ⟨?_, ih h.2⟩
      intro z hz
      rcases List.mem_cons.1 ((insertNat_perm x ys).subset hz) with rfl | hz
      · omega
      · exact h.1 z hz

theorem sortNat_sorted (l : List Nat) : (sortNat l).Pairwise (· ≤ ·) := by
  induction l with
  | nil => exact .nil
  | cons x xs ih => exact insertNat_sorted ih

/-- The distance of Annoy's angular metric, from two vectors: `2 - 2 cos`, and 2 if one of them has no direction. -/
def angular (A : Lib) (x y : List F32) : F32 :=
  let ppqq := A.mul (A.dot x x) (A.dot y y)
  if F32.lt 0 ppqq then A.angle (A.dot x y) ppqq else 0x40000000

theorem distance_items (x y : List F32) : distance A (A.dot x x) x (itemNode A y).norm (itemNode A y).v = angular A x y := by
  unfold distance itemNode angular
  cases hz : F32.isZero (A.dot y y) <;> simp [hz]

theorem measure_spec {f : Nat} {vs : List (List F32)} {ix : Index} (hb : Built A f vs ix.nodes ix.roots) (v : List F32)
    (js : List Nat) (hs : js.Pairwise (· ≤ ·)) (hin : ∀ j ∈ js, j < vs.length) (last : Option Nat)
    (hl : ∀ a, last = some a → ∀ j ∈ js, a ≤ j) :
    ∃ l, measure A ix v (A.dot v v) last js = .ok l ∧ (l.map Prod.snd).Pairwise (· < ·) ∧
      (∀ j, j ∈ l.map Prod.snd ↔ j ∈ js ∧ last ≠ some j) ∧
      ∀ x ∈ l, ∃ y, vs[x.2]? = some y ∧ x.1 = angular A v y := by
  induction js generalizing last with
  | nil => exact ⟨[], rfl, .nil, by simp, by simp⟩
  | cons j js ih =>
    rw [List.pairwise_cons] at hs
    have hin' : ∀ i ∈ js, i < vs.length := fun i hi => hin i (by simp [hi])
    unfold measure
    by_cases hj : last = some j
    · rw [if_pos hj]
      obtain ⟨l, h1, h2, h3, h4⟩ := ih hs.2 hin' last (fun a ha i hi => hl a ha i (by simp [hi]))
      refine ⟨l, h1, h2, fun i => ?_, h4⟩
      rw [h3, List.mem_cons]
      constructor
      · rintro ⟨g1, g2⟩; exact ⟨.inr g1, g2⟩
      · rintro ⟨g1 | g1, g2⟩
        · subst g1; exact absurd hj g2
        · exact ⟨g1, g2⟩
    · rw [if_neg hj]
      have hjv := hin j (by simp)
      have hn := hb.items j vs[j] (List.getElem?_eq_getElem hjv)
      obtain ⟨l, h1, h2, h3, h4⟩ := ih hs.2 hin' (some j) (fun a ha i hi => by cases ha; exact hs.1 i hi)
      refine ⟨(angular A v vs[j], j) :: l, ?_, ?_, ?_, ?_⟩
      · rw [hn, h1]
        simp only [Out.ofOption, Out.ok_bind]
        rw [distance_items, if_pos (show (itemNode A vs[j]).desc = 1 from rfl)]
      · rw [List.map_cons, List.pairwise_cons]
        refine ⟨fun i hi => ?_, h2⟩
        obtain ⟨g1, g2⟩ := (h3 i).1 hi
        have := hs.1 i g1
        have : i ≠ j := fun h => g2 (by rw [h])
        simp only; omega
      · intro i
        rw [List.map_cons, List.mem_cons, h3, List.mem_cons]
        constructor
        · rintro (g1 | ⟨g1, g2⟩)
          · subst g1; exact ⟨.inl rfl, hj⟩
          · refine ⟨.inr g1, fun hlast => ?_⟩
            have h5 := hl i hlast j (by simp)
            have h6 := hs.1 i g1
            exact g2 (by congr 1; omega)
        · rintro ⟨g1 | g1, g2⟩
          · exact .inl g1
          · by_cases hij : i = j
            · exact .inl hij
            · exact .inr ⟨g1, fun h => hij (by cases h; rfl)⟩
      · intro x hx
        rcases List.mem_cons.1 hx with rfl | hx
        · exact ⟨vs[j], List.getElem?_eq_getElem hjv, rfl⟩
        · exact h4 x hx

theorem length_le_of_count (c : Nat) : ∀ (d r : List Nat), (∀ x ∈ r, x ∈ d) → (∀ x, r.count x ≤ c) → r.length ≤ c * d.length
  | [], r, h, _ => by
    cases r with
    | nil => simp
    | cons x xs => exact absurd (h x (by simp)) (by simp)
  | x :: d, r, h, hc => by
    have ih := length_le_of_count c d (r.filter (· ≠ x)) (by
      intro y hy
      rw [List.mem_filter] at hy
      rcases List.mem_cons.1 (h y hy.1) with rfl | hd
      · simp at hy
      · exact hd) (fun y => Nat.le_trans (List.filter_sublist.count_le y) (hc y))
    have hsum : r.length = r.count x + (r.filter (· ≠ x)).length := by
      rw [List.count_eq_countP, List.countP_eq_length_filter, ← List.countP_eq_length_filter, List.length_eq_countP_add_countP (· == x),
        List.countP_eq_length_filter (p := fun a => decide ¬(a == x) = true)]
      congr 2
      apply List.filter_congr
      intro y _
      simp
    have := hc x
    rw [List.length_cons, Nat.mul_add, Nat.mul_one]
    omega

/-- The trees of the roots together. -/
theorem cover_of {f nItems : Nat} {nodes : List Node} {L : List Nat} : ∀ (q : List (F32 × Nat)),
    (∀ p ∈ q, ∃ xs s, Tree f nItems nodes p.2 xs s ∧ xs.Perm L ∧ s ≤ 2 * L.length) →
    ∃ xs n, Cover f nItems nodes q xs n ∧ n ≤ 2 * L.length * q.length ∧ (∀ j, xs.count j = q.length * L.count j)
  | [], _ => ⟨[], 0, .nil, by simp, by simp⟩
  | (d, i) :: q, h => by
    obtain ⟨xs, s, ht, hp, hs⟩ := h (d, i) (by simp)
    obtain ⟨ys, n, hc, hn, hcount⟩ := cover_of q fun p hp => h p (by simp [hp])
    refine ⟨xs ++ ys, s + n, .cons ht hc, ?_, fun j => ?_⟩
    · rw [List.length_cons, Nat.mul_add]; omega
    · rw [List.count_append, hcount, hp.count_eq, List.length_cons, Nat.add_mul]; omega

/-- One round, if all trees are buckets. -/
theorem collect_bucket {ix : Index} {v : List F32} {searchK : Nat} {q : List (F32 × Nat)} {nns L : List Nat}
    (ht : ∀ p ∈ q, ∃ xs, Tree ix.f ix.nItems ix.nodes p.2 xs 1 ∧ xs.Perm L) (hq : q ≠ []) (hk : nns.length < searchK) :
    ∃ q' ys, ys.Perm L ∧ (∀ p ∈ q', p ∈ q) ∧ q'.length + 1 = q.length ∧
      ∀ fuel, collect A ix v searchK (fuel + 1) q nns = collect A ix v searchK fuel q' (nns ++ ys) := by
  cases hp : popMax q with
  | none => exact absurd (popMax_none hp) hq
  | some r =>
    obtain ⟨⟨d, i⟩, q1⟩ := r
    have hperm := popMax_perm hp
    obtain ⟨xs, hx, hL⟩ := ht (d, i) (hperm.mem_iff.2 (by simp))
    have hsub : ∀ p ∈ q1, p ∈ q := fun p h => hperm.mem_iff.2 (by simp [h])
    have hlen : q1.length + 1 = q.length := by rw [hperm.length_eq]; rfl
    generalize he : 1 = z at hx
    cases hx with
    | split _ _ _ h4 h5 => have := h4.pos; omega
    | leaf h1 h2 h3 =>
      refine ⟨q1, _, hL, hsub, hlen, fun fuel => ?_⟩
      rw [collect, if_pos hk, hp]
      simp only [h1, Out.ofOption, Out.ok_bind, if_pos (And.intro h2 h3)]
    | bucket h1 h2 h3 h4 =>
      refine ⟨q1, _, hL, hsub, hlen, fun fuel => ?_⟩
      rw [collect, if_pos hk, hp]
      simp only [h1, Out.ofOption, Out.ok_bind, if_neg h2, if_pos h3, if_pos h4]

theorem count_range {n j : Nat} (h : j < n) : (List.range n).count j = 1 :=
  by rw [List.nodup_range.count, if_pos (List.mem_range.2 h)]

/-- What a search finds before it sorts: each position at most once, with its distance; all of them, or so many that no tree can have
given more than its share. -/
theorem found {f : Nat} {vs : List (List F32)} {ix : Index} (hf : ix.f = f) (hn : ix.nItems = vs.length)
    (hb : Built A f vs ix.nodes ix.roots) (v : List F32) (n : Nat) (limit : UInt32) :
    ∃ dist : List (F32 × Nat),
      (∀ fuel ≥ 2 * vs.length * ix.roots.length, getAllNns A fuel ix v n limit = .ok ((A.sort dist).take n)) ∧
      (dist.map Prod.snd).Nodup ∧
      (∀ x ∈ dist, ∃ y, vs[x.2]? = some y ∧ x.1 = angular A v y) ∧
      (budget limit n ix.roots.length ≤ dist.length * ix.roots.length ∨
        ∀ j, j < vs.length → ix.roots ≠ [] → j ∈ dist.map Prod.snd) ∧
      (vs.length ≤ maxChildren f → 0 < budget limit n ix.roots.length →
        ∀ j, j < vs.length → ix.roots ≠ [] → j ∈ dist.map Prod.snd) ∧
      (budget limit n ix.roots.length = 0 → dist = []) := by
  subst hf
  let q : List (F32 × Nat) := ix.roots.map fun r => (0x7F800000, r)
  have hqlen : q.length = ix.roots.length := List.length_map _
  have hall : ∀ p ∈ q, ∃ xs s, Tree ix.f ix.nItems ix.nodes p.2 xs s ∧ xs.Perm (List.range vs.length) ∧
      s ≤ 2 * (List.range vs.length).length ∧ (vs.length ≤ maxChildren ix.f → s = 1) := by
    intro p hp
    obtain ⟨r, hr, rfl⟩ := List.mem_map.1 hp
    obtain ⟨ys, s, h1, h2, h3, h4⟩ := hb.trees r hr
    refine ⟨ys, s, by rw [hn]; exact h1, h2, ?_, h4⟩
    rw [← h2.length_eq]; omega
  obtain ⟨xs, m, hc, hm, hcount⟩ := cover_of (f := ix.f) (nItems := ix.nItems) (nodes := ix.nodes) q fun p hp => by
    obtain ⟨xs, s, h1, h2, h3, _⟩ := hall p hp
    exact ⟨xs, s, h1, h2, h3⟩
  rw [List.length_range, hqlen] at hm
  have hxs : ∀ j ∈ xs, j < vs.length := by
    intro j hj
    have := List.count_pos_iff.2 hj
    rw [hcount] at this
    rcases Nat.lt_or_ge j vs.length with h | h
    · exact h
    · rw [List.count_eq_zero.2 (by simpa using h)] at this; omega
  obtain ⟨r, rest, hr, hperm, hend⟩ := collect_spec (v := v) (searchK := budget limit n ix.roots.length) (nns := []) hc (Nat.le_refl m)
  simp only [List.nil_append] at hr hend
  have hrin : ∀ j ∈ r, j < vs.length := fun j hj => hxs j (hperm.subset (by simp [hj]))
  obtain ⟨dist, h1, h2, h3, h4⟩ := measure_spec hb v (sortNat r) (sortNat_sorted r)
    (fun j hj => hrin j ((sortNat_perm r).subset hj)) none (by simp)
  have h3' : ∀ j, j ∈ dist.map Prod.snd ↔ j ∈ r := fun j => by rw [h3]; simp [(sortNat_perm r).mem_iff]
  refine ⟨dist, ?_, ?_, h4, ?_, ?_, ?_⟩
  · intro fuel hfuel
    unfold getAllNns
    rw [hr fuel (by omega), Out.ok_bind, h1, Out.ok_bind]
  · exact h2.imp fun h => Nat.ne_of_lt h
  · rcases hend with h0 | h0
    · right
      intro j hj hne
      rw [h3']
      subst h0
      rw [List.append_nil] at hperm
      rw [hperm.mem_iff, ← List.count_pos_iff, hcount, count_range hj, hqlen]
      have : 0 < ix.roots.length := List.length_pos_iff.2 hne
      omega
    · left
      refine Nat.le_trans h0 ?_
      have := length_le_of_count ix.roots.length (dist.map Prod.snd) r (fun x hx => (h3' x).2 hx) (fun x => ?_)
      · rw [List.length_map, Nat.mul_comm] at this; exact this
      · by_cases hx : x ∈ r
        · refine Nat.le_trans (List.Sublist.count_le x (List.sublist_append_left r rest)) ?_
          rw [hperm.count_eq, hcount, count_range (hrin x hx), hqlen]
          omega
        · rw [List.count_eq_zero.2 hx]; omega
  · intro hsmall hk j hj hne
    have hq : q ≠ [] := by
      intro h0
      have : q.length = 0 := by rw [h0]; rfl
      rw [hqlen] at this
      exact hne (List.length_eq_zero_iff.1 this)
    obtain ⟨q', ys, hys, hsub, _, hstep⟩ := collect_bucket (A := A) (v := v) (searchK := budget limit n ix.roots.length) (nns := [])
      (L := List.range vs.length) (q := q) (fun p hp => by
        obtain ⟨xs, s, g1, g2, _, g4⟩ := hall p hp
        rw [g4 hsmall] at g1
        exact ⟨xs, g1, g2⟩) hq hk
    obtain ⟨xs', m', hc', _, _⟩ := cover_of (f := ix.f) (nItems := ix.nItems) (nodes := ix.nodes) q' fun p hp => by
      obtain ⟨xs, s, g1, g2, g3, _⟩ := hall p (hsub p hp)
      exact ⟨xs, s, g1, g2, g3⟩
    obtain ⟨r', _, hr', _⟩ := collect_spec (v := v) (searchK := budget limit n ix.roots.length) (nns := [] ++ ys) hc' (Nat.le_refl m')
    have e1 := hr (max m (m' + 1)) (by omega)
    obtain ⟨fl, hfl⟩ : ∃ fl, max m (m' + 1) = fl + 1 := ⟨max m (m' + 1) - 1, by omega⟩
    rw [hfl, hstep, hr' fl (by omega)] at e1
    injection e1 with e1
    rw [h3', ← e1, List.nil_append]
    exact List.mem_append_left _ (hys.mem_iff.2 (List.mem_range.2 hj))
  · intro h0
    have e1 := hr m (Nat.le_refl m)
    rw [h0] at e1
    have e2 : collect A ix v 0 m q [] = .ok [] := by
      cases m <;> unfold collect <;> simp
    rw [e2] at e1
    injection e1 with e1
    cases dist with
    | nil => rfl
    | cons x l =>
      have := (h3' x.2).1 (by simp)
      rw [← e1] at this
      cases this

end Annoy
end Veri
