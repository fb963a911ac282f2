import Verif.Annoy.Search
import Verif.Annoy.Soft
/-
C112-C115: what the native index answers, how many answers there are, whether they are the nearest, how large it is.
-/
set_option autoImplicit false
namespace Veri
open Annoy

namespace Annoy

/-- Distances of the query to all vectors are numbers. -/
def NoNaN (A : Lib) (vs : List (List F32)) (q : List F32) : Prop := ∀ y ∈ vs, F32.isNaN (angular A q y) = false

/-- An answer as it should be: positions of vectors that were added, each once, with its distance from the query; nearest first and
equally distant ones by position, unless some distance is NaN. -/
structure Genuine (A : Lib) (vs : List (List F32)) (q : List F32) (ans : List (F32 × Nat)) : Prop where
  once : (ans.map Prod.snd).Nodup
  dist : ∀ x ∈ ans, ∃ y, vs[x.2]? = some y ∧ x.1 = angular A q y
  sorted : NoNaN A vs q → ans.Pairwise fun a b => F32.lt a.1 b.1 = true ∨ (F32.lt b.1 a.1 = false ∧ a.2 < b.2)

theorem lt_total {a b : F32} (ha : F32.isNaN a = false) (hb : F32.isNaN b = false) :
    F32.lt a b = true ∨ F32.lt b a = true ∨ (F32.lt a b = false ∧ F32.lt b a = false ∧ F32.key a = F32.key b) := by
  simp only [F32.lt, ha, hb, Bool.not_false, Bool.true_and, decide_eq_true_eq, decide_eq_false_iff_not]
  omega

theorem genuine_sort {A : Lib} (hA : A.Ok) {vs : List (List F32)} {q : List F32} {l : List (F32 × Nat)}
    (h1 : (l.map Prod.snd).Nodup) (h2 : ∀ x ∈ l, ∃ y, vs[x.2]? = some y ∧ x.1 = angular A q y) : Genuine A vs q (A.sort l) := by
  have hp := hA.perm l
  have hd : ∀ x ∈ A.sort l, ∃ y, vs[x.2]? = some y ∧ x.1 = angular A q y := fun x hx => h2 x (hp.subset hx)
  have hn : ((A.sort l).map Prod.snd).Nodup := (hp.map Prod.snd).nodup_iff.2 h1
  refine ⟨hn, hd, fun hnan => ?_⟩
  have hnum : ∀ x ∈ A.sort l, F32.isNaN x.1 = false := by
    intro x hx
    obtain ⟨y, hy, he⟩ := hd x hx
    rw [he]; exact hnan y (List.mem_of_getElem? hy)
  have hs := hA.sorted l fun x hx => hnum x (hp.mem_iff.2 hx)
  have hne : (A.sort l).Pairwise fun a b => a.2 ≠ b.2 := List.pairwise_map.1 hn
  refine List.Pairwise.imp_of_mem ?_ (hs.and hne)
  rintro a b ha hb ⟨hab, hne⟩
  simp only [pairLt, Bool.or_eq_false_iff, Bool.and_eq_false_iff, Bool.not_eq_false', decide_eq_false_iff_not] at hab
  rcases hab.2 with h | h
  · exact .inl h
  · exact .inr ⟨hab.1, by omega⟩

theorem Genuine.take {A : Lib} {vs : List (List F32)} {q : List F32} {ans : List (F32 × Nat)} (h : Genuine A vs q ans) (n : Nat) :
    Genuine A vs q (ans.take n) where
  once := List.Nodup.sublist ((List.take_sublist n ans).map Prod.snd) h.once
  dist := fun x hx => h.dist x (List.mem_of_mem_take hx)
  sorted := fun hn => (h.sorted hn).sublist (List.take_sublist n ans)

/-- An answer with one entry for each position. -/
def Complete (vs : List (List F32)) (ans : List (F32 × Nat)) : Prop := ∀ j, j < vs.length → j ∈ ans.map Prod.snd

theorem complete_of_length {A : Lib} {vs : List (List F32)} {q : List F32} {ans : List (F32 × Nat)} (h : Genuine A vs q ans) :
    ans.length ≤ vs.length := by
  have := length_le_of_count 1 (List.range vs.length) (ans.map Prod.snd) (fun j hj => by
    obtain ⟨x, hx, rfl⟩ := List.mem_map.1 hj
    obtain ⟨y, hy, _⟩ := h.dist x hx
    exact List.mem_range.2 (List.getElem?_eq_some_iff.1 hy).1) (fun j => by
      rw [h.once.count]; split <;> omega)
  rw [List.length_map, List.length_range, Nat.one_mul] at this
  exact this

theorem length_of_complete {vs : List (List F32)} {ans : List (F32 × Nat)} (hc : Complete vs ans) : vs.length ≤ ans.length := by
  have := length_le_of_count 1 (ans.map Prod.snd) (List.range vs.length) (fun j hj => hc j (List.mem_range.1 hj)) (fun j => by
    rw [List.nodup_range.count]; split <;> omega)
  rw [List.length_map, List.length_range, Nat.one_mul] at this
  exact this

/-- All that is known about a search, for at least as many asked for as there are items (data/search.go:318 asks for the length of the
slice). -/
theorem answer {A : Lib} (hA : A.Ok) {f fuel : Nat} {vs : List (List F32)} (hmax : vs.length < 2^31) {ix : Index}
    (hb : build A f fuel vs = .ok ix) (q : List F32) (n : Nat) (limit : UInt32) :
    ∃ ans, (∀ fuel' ≥ 2 * vs.length * ix.roots.length, getAllNns A fuel' ix q n limit = .ok ans) ∧ Genuine A vs q ans ∧
      ans.length ≤ n ∧
      (vs.length ≤ n → Complete vs ans ∨ budget limit n ix.roots.length ≤ ans.length * ix.roots.length) ∧
      (vs.length ≤ n → vs.length ≤ f + 2 → 0 < budget limit n ix.roots.length → Complete vs ans) ∧
      (budget limit n ix.roots.length = 0 → ans = []) := by
  obtain ⟨hf, hn, hB, hr, hs, hne⟩ := (build_spec hA (f := f) (fuel := fuel) hmax).2 ix hb
  obtain ⟨dist, h1, h2, h3, h4, h5, h6⟩ := found hf hn hB q n limit
  have hg := genuine_sort hA h2 h3
  have hroots : ∀ j, j < vs.length → ix.roots ≠ [] := fun j hj => hne (by intro h0; rw [h0] at hj; exact absurd hj (by simp))
  have hwhole : vs.length ≤ n → (A.sort dist).take n = A.sort dist := fun hle =>
    List.take_of_length_le (Nat.le_trans (complete_of_length hg) hle)
  have hmem : ∀ j, j ∈ (A.sort dist).map Prod.snd ↔ j ∈ dist.map Prod.snd := fun j => ((hA.perm dist).map Prod.snd).mem_iff
  refine ⟨(A.sort dist).take n, h1, hg.take n, by rw [List.length_take]; omega, ?_, ?_, ?_⟩
  · intro hle
    rw [hwhole hle]
    rcases h4 with h | h
    · right; rw [(hA.perm dist).length_eq]; exact h
    · left; intro j hj; rw [hmem]; exact h j hj (hroots j hj)
  · intro hle hsm hk j hj
    rw [hwhole hle, hmem]
    exact h5 hsm hk j hj (hroots j hj)
  · intro h0
    have : (A.sort dist).length = 0 := by rw [(hA.perm dist).length_eq, h6 h0]; rfl
    rw [List.length_eq_zero_iff.1 this, List.take_nil]

theorem budget_small {limit : UInt32} {n roots : Nat} (h : limit.toNat < 2^31) : budget limit n roots = limit.toNat := by
  have : limit ≠ 0xFFFFFFFF := by intro h0; rw [h0] at h; exact absurd h (by decide)
  simp only [budget]
  rw [if_neg this, if_pos h]

/-- `n` vectors of dimension one, all zero but the one at position `j`. -/
def exVs (n j : Nat) : List (List F32) := (List.range n).map fun i => [if i = j then 0x3F800000 else 0]

end Annoy

/-! ### C112 -/

/-- C112.  Building a native index never crashes, whatever the vectors.  On an index that has been built every search ends, without a
crash, and its answer consists of positions of vectors that were added, each once, with its distance from the query, nearest first. -/
theorem C112_answers (A : Lib) (hA : A.Ok) (f fuel : Nat) (vs : List (List F32)) (hmax : vs.length < 2^31) :
    build A f fuel vs ≠ .crash ∧
    ∀ ix, build A f fuel vs = .ok ix → ∀ (q : List F32) (n : Nat) (limit : UInt32),
      ∃ ans, (∀ fuel' ≥ 2 * vs.length * ix.roots.length, getAllNns A fuel' ix q n limit = .ok ans) ∧ Genuine A vs q ans ∧
        ans.length ≤ n := by
  refine ⟨(build_spec hA hmax).1, fun ix hb q n limit => ?_⟩
  obtain ⟨ans, h1, h2, h3, _⟩ := answer hA hmax hb q n limit
  exact ⟨ans, h1, h2, h3⟩

set_option maxRecDepth 100000 in
/-- C112 is not empty: IEEE arithmetic meets the assumptions; an index of five vectors and an answer. -/
theorem C112_example : soft.Ok ∧
    (build soft 1 6 (exVs 5 2)).bind (fun ix => (getAllNns soft 20 ix [0x3F800000] 1000 4).bind fun ans =>
      .ok (ix.roots.length, ans)) = .ok (2, [(0, 2), (0x40000000, 0), (0x40000000, 1), (0x40000000, 3), (0x40000000, 4)]) :=
  ⟨soft_ok, by decide +kernel⟩

/-! ### C113 -/

/-- C113, full statement: a search for `limit` answers gets that many if the index has that many items.  (veri asks for the length of
the slice, at least the number of items, and passes the limit as `search_k`, data/search.go:318.)  FALSE of the code. -/
def C113_enough_statement : Prop :=
  ∀ (A : Lib), A.Ok → ∀ (f fuel : Nat) (vs : List (List F32)) (ix : Index), build A f fuel vs = .ok ix →
    ∀ (q : List F32) (n fuel' : Nat) (limit : UInt32) (ans : List (F32 × Nat)), vs.length ≤ n → vs.length < 2^31 →
      getAllNns A fuel' ix q n limit = .ok ans → min limit.toNat vs.length ≤ ans.length

set_option maxRecDepth 100000 in
theorem C113_example : (build soft 1 9 (exVs 8 99)).bind (fun ix => (getAllNns soft 40 ix [0x3F800000] 1000 7).bind fun ans =>
      .ok (ans.map Prod.snd)) = .ok [1, 2, 3, 4, 5, 6] := by decide +kernel

theorem C113_enough_fails : ¬ C113_enough_statement := by
  intro h
  obtain ⟨ix, hb, hx⟩ := Out.bind_ok C113_example
  obtain ⟨ans, ha, hx⟩ := Out.bind_ok hx
  injection hx with hx
  have := h soft soft_ok 1 9 _ ix hb _ 1000 40 7 ans (by decide) (by decide) ha
  have hl := congrArg List.length hx
  rw [List.length_map] at hl
  rw [hl] at this
  exact absurd this (by decide)

/-- C113.  There are at least `limit / trees` answers, or all items are answered.  With at most `f + 2` items of dimension `f`, or with
a limit of more than `(items - 1) * trees`, all items are answered. -/
theorem C113_share_partial (A : Lib) (hA : A.Ok) (f fuel : Nat) (vs : List (List F32)) (hmax : vs.length < 2^31) (ix : Index)
    (hb : build A f fuel vs = .ok ix) (q : List F32) (n fuel' : Nat) (limit : UInt32) (hlim : limit.toNat < 2^31)
    (hn : vs.length ≤ n) (hfuel : 2 * vs.length * ix.roots.length ≤ fuel') (ans : List (F32 × Nat))
    (h : getAllNns A fuel' ix q n limit = .ok ans) :
    (ans.length = vs.length ∨ limit.toNat ≤ ans.length * ix.roots.length) ∧
    (vs.length ≤ f + 2 → 0 < limit.toNat → ans.length = vs.length) ∧
    ((vs.length - 1) * ix.roots.length < limit.toNat → ans.length = vs.length) := by
  obtain ⟨ans', h1, h2, h3, h4, h5, h6⟩ := answer hA hmax hb q n limit
  rw [h1 fuel' hfuel] at h
  cases h
  rw [budget_small hlim] at h4 h5
  have hle := complete_of_length h2
  have hc : Complete vs ans → ans.length = vs.length := fun hc => Nat.le_antisymm hle (length_of_complete hc)
  refine ⟨(h4 hn).imp hc id, fun hs hk => hc (h5 hn hs hk), fun hbig => ?_⟩
  rcases h4 hn with h | h
  · exact hc h
  · apply Nat.le_antisymm hle
    apply Nat.le_of_not_lt
    intro hlt
    have := Nat.mul_le_mul_right ix.roots.length (show ans.length ≤ vs.length - 1 by omega)
    omega

/-- C113.  A limit of 2^31 or more becomes a negative number of candidates, which stands for no bound; the largest limit, -1, stands for
one candidate for each item and tree.  All items are answered. -/
theorem C113_large_partial (A : Lib) (hA : A.Ok) (f fuel : Nat) (vs : List (List F32)) (hmax : vs.length < 2^31) (ix : Index)
    (hb : build A f fuel vs = .ok ix) (q : List F32) (n fuel' : Nat) (limit : UInt32) (hlim : 2^31 ≤ limit.toNat)
    (hn : vs.length ≤ n) (hprod : limit.toNat = 2^32 - 1 → n * ix.roots.length < 2^31)
    (hfuel : 2 * vs.length * ix.roots.length ≤ fuel') (ans : List (F32 × Nat))
    (h : getAllNns A fuel' ix q n limit = .ok ans) : ans.length = vs.length := by
  obtain ⟨ans', h1, h2, h3, h4, h5, h6⟩ := answer hA hmax hb q n limit
  obtain ⟨_, _, _, hr, _, hne⟩ := (build_spec hA (f := f) (fuel := fuel) hmax).2 ix hb
  rw [h1 fuel' hfuel] at h
  cases h
  have hle := complete_of_length h2
  have hc : Complete vs ans → ans.length = vs.length := fun hc => Nat.le_antisymm hle (length_of_complete hc)
  rcases h4 hn with h | h
  · exact hc h
  · apply Nat.le_antisymm hle
    apply Nat.le_of_not_lt
    intro hlt
    have hroots : 0 < ix.roots.length := List.length_pos_iff.2 (hne (by intro h0; rw [h0] at hlt; exact absurd hlt (by simp)))
    have hmul := Nat.mul_le_mul_right ix.roots.length (show ans.length + 1 ≤ vs.length by omega)
    rw [Nat.add_mul, Nat.one_mul] at hmul
    by_cases hm : limit = 0xFFFFFFFF
    · have hp := hprod (by rw [hm]; rfl)
      have hnm := Nat.mul_le_mul_right ix.roots.length hn
      simp only [budget] at h
      rw [if_pos hm, Nat.mod_eq_of_lt (by omega), if_pos hp] at h
      omega
    · simp only [budget] at h
      rw [if_neg hm, if_neg (by omega)] at h
      have : vs.length * ix.roots.length ≤ 2^31 * 2^31 := Nat.mul_le_mul (by omega) (by omega)
      omega

set_option maxRecDepth 100000 in
theorem C113_large_example : (build soft 1 6 (exVs 5 2)).bind (fun ix => (getAllNns soft 20 ix [0x3F800000] 1000 0xFFFFFFFF).bind fun ans =>
      .ok (ans.length, decide (1000 * ix.roots.length < 2^31), decide (2 * 5 * ix.roots.length ≤ 20))) = .ok (5, true, true) := by
  decide +kernel

/-! ### C114 -/

/-- C114, full statement: what is answered first is nearest: no vector is nearer to the query than one of the first `limit` answers
without being among these.  FALSE of the code. -/
def C114_nearest_statement : Prop :=
  ∀ (A : Lib), A.Ok → ∀ (f fuel : Nat) (vs : List (List F32)) (ix : Index), build A f fuel vs = .ok ix →
    ∀ (q : List F32) (n fuel' : Nat) (limit : UInt32) (ans : List (F32 × Nat)), vs.length ≤ n → vs.length < 2^31 → NoNaN A vs q →
      getAllNns A fuel' ix q n limit = .ok ans →
      ∀ (j : Nat) (y : List F32), vs[j]? = some y → j ∉ (ans.take limit.toNat).map Prod.snd →
        ∀ x ∈ ans.take limit.toNat, F32.lt (angular A q y) x.1 = false

set_option maxRecDepth 100000 in
theorem C114_example : (build soft 1 6 (exVs 5 2)).bind (fun ix => (getAllNns soft 20 ix [0x3F800000] 1000 3).bind fun ans =>
      .ok ans) = .ok [(0x40000000, 0), (0x40000000, 3), (0x40000000, 4)] := by decide +kernel

/-- The vector at position 2 is the query itself, and is not found among five. -/
theorem C114_nearest_fails : ¬ C114_nearest_statement := by
  intro h
  obtain ⟨ix, hb, hx⟩ := Out.bind_ok C114_example
  obtain ⟨ans, ha, hx⟩ := Out.bind_ok hx
  injection hx with hx
  have := h soft soft_ok 1 6 _ ix hb _ 1000 20 3 ans (by decide) (by decide) (by unfold NoNaN; decide +kernel) ha 2 [0x3F800000] rfl
    (by rw [hx]; decide) (0x40000000, 0) (by rw [hx]; decide)
  exact absurd this (by decide +kernel)

/-- C114.  If all items are answered (C113), what is answered first is nearest. -/
theorem C114_complete_partial (A : Lib) (hA : A.Ok) (f fuel : Nat) (vs : List (List F32)) (hmax : vs.length < 2^31) (ix : Index)
    (hb : build A f fuel vs = .ok ix) (q : List F32) (n fuel' : Nat) (limit : UInt32) (hlim : limit.toNat < 2^31)
    (hn : vs.length ≤ n) (hfuel : 2 * vs.length * ix.roots.length ≤ fuel') (hnan : NoNaN A vs q) (ans : List (F32 × Nat))
    (h : getAllNns A fuel' ix q n limit = .ok ans)
    (hall : vs.length ≤ f + 2 ∨ (vs.length - 1) * ix.roots.length < limit.toNat) :
    ∀ (j : Nat) (y : List F32), vs[j]? = some y → j ∉ (ans.take limit.toNat).map Prod.snd →
      ∀ x ∈ ans.take limit.toNat, F32.lt (angular A q y) x.1 = false := by
  intro j y hj hjn x hx
  obtain ⟨ans', h1, h2, h3, h4, h5, h6⟩ := answer hA hmax hb q n limit
  rw [h1 fuel' hfuel] at h
  cases h
  rw [budget_small hlim] at h4 h5 h6
  have hpos : 0 < limit.toNat := by
    rcases Nat.eq_zero_or_pos limit.toNat with h0 | h0
    · rw [h0] at hx; simp at hx
    · exact h0
  have hcomp : Complete vs ans := by
    rcases hall with hs | hbig
    · exact h5 hn hs hpos
    · rcases h4 hn with h | h
      · exact h
      · have hlen := C113_share_partial A hA f fuel vs hmax ix hb q n fuel' limit hlim hn hfuel ans (h1 fuel' hfuel)
        intro i hi
        -- as many answers as there are items
        have hl := hlen.2.2 hbig
        apply Classical.byContradiction
        intro hni
        have := length_le_of_count 1 ((List.range vs.length).erase i) (ans.map Prod.snd) (fun k hk => by
          obtain ⟨z, hz, rfl⟩ := List.mem_map.1 hk
          obtain ⟨w, hw, _⟩ := h2.dist z hz
          refine (List.mem_erase_of_ne ?_).2 (List.mem_range.2 (List.getElem?_eq_some_iff.1 hw).1)
          intro he; exact hni (he ▸ hk)) (fun k => by rw [h2.once.count]; split <;> omega)
        rw [List.length_map, List.length_erase_of_mem (List.mem_range.2 hi), List.length_range] at this
        omega
  -- the item is answered later
  obtain ⟨z, hz, hzj⟩ := List.mem_map.1 (hcomp j (List.getElem?_eq_some_iff.1 hj).1)
  obtain ⟨w, hw, hwz⟩ := h2.dist z hz
  have hyw : w = y := by rw [hzj, hj] at hw; cases hw; rfl
  subst hyw
  rw [← hwz]
  have hz' : z ∈ ans.drop limit.toNat := by
    rw [← List.take_append_drop limit.toNat ans] at hz
    rcases List.mem_append.1 hz with h | h
    · exact absurd (List.mem_map.2 ⟨z, h, hzj⟩) hjn
    · exact h
  have hs := h2.sorted hnan
  rw [← List.take_append_drop limit.toNat ans, List.pairwise_append] at hs
  rcases hs.2.2 x hx z hz' with h | h
  · simp only [F32.lt, Bool.and_eq_true, decide_eq_true_eq] at h
    simp only [F32.lt, Bool.and_eq_false_iff, decide_eq_false_iff_not]
    omega
  · exact h.1

/-! ### C115 -/

/-- C115.  The size of a native index is linear in the number of its items: at most as many trees as items, fewer than four nodes
for each item (of `12 + 4 f` bytes each, annoylib.h:889). -/
theorem C115_size (A : Lib) (hA : A.Ok) (f fuel : Nat) (vs : List (List F32)) (hmax : vs.length < 2^31) (ix : Index)
    (hb : build A f fuel vs = .ok ix) :
    ix.roots.length ≤ vs.length ∧ ix.nodes.length ≤ 4 * vs.length - 1 ∧ (vs ≠ [] → ix.roots ≠ []) := by
  obtain ⟨_, _, _, hr, hs, hne⟩ := (build_spec hA (f := f) (fuel := fuel) hmax).2 ix hb
  exact ⟨hr, hs, hne⟩

set_option maxRecDepth 100000 in
/-- C115 is not empty. -/
theorem C115_example : (build soft 1 6 (exVs 5 2)).bind (fun ix => .ok (ix.roots.length, ix.nodes.length)) = .ok (2, 13) := by
  decide +kernel

end Veri
