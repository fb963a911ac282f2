import Verif.Search.Nearest
import Verif.Vector.CosErr
/-
Exact search by cosine similarity (C139) and by `QuickVectorDistance` (C140): what is returned are the best, up to the error of the
scores.
-/
set_option autoImplicit false
namespace Veri
set_option exponentiation.threshold 4000

namespace Ref

/-- The true cosine of the angle of a result and the query. -/
noncomputable def trueCosine (q : DatumKey) (x : ScoredDatum) : ℝ := cosine ((x.datum.key.map (·.feature)).getD []) q.feature

/-- `x` is as similar as `y`, up to 1/50. -/
def asSimilar (q : DatumKey) (x y : ScoredDatum) : Prop := trueCosine q y ≤ trueCosine q x + 1 / 50

/-- Finite numbers, zero or a length between 2^-60 and 2^60, up to 2^15 components. -/
structure Ordinary (f : List F32) : Prop where
  finite : ∀ x ∈ f, finite32 x
  short : f.length ≤ 2^15
  moderate : Moderate f

/-- The true sum of the differences of a result and the query. -/
def trueDist1 (q : DatumKey) (x : ScoredDatum) : Rat := dist1 ((x.datum.key.map (·.feature)).getD []) q.feature

/-- `x` is not farther than `y`, up to three parts in a million. -/
def nearly1 (q : DatumKey) (x y : ScoredDatum) : Prop := trueDist1 q x ≤ 1000003 / 1000000 * trueDist1 q y

/-- Finite numbers, no component farther than `3 * 2^126` from that of the query. -/
structure Close (q : DatumKey) (k : DatumKey) : Prop where
  finite : ∀ x ∈ k.feature, finite32 x
  short : k.feature.length ≤ 2^30
  near : ∀ p ∈ k.feature.zip q.feature, |binary32 p.1 - binary32 p.2| ≤ 3 * 2^126

end Ref

namespace Search
open Ref Store

/-- The order of an exact search, by the values of the scores. -/
theorem ranked (E : Env) (hE : E.Ok) (hA : Accurate E.o) (dt : Data) (vs : List Visit)
    (clock : DatumKey → Int64) (q : DatumKey) (qv : Option DatumValue) (config : SearchConfig)
    (hwf : WF dt.dbMap) (hr : IsRange dt.dbMap vs)
    (hc : ∀ v ∈ vs, ∀ k, v.entry.datum.key = some k → v.now = clock k) (hlim : 0 < config.limit)
    (R : ScoredDatum → ScoredDatum → Prop)
    (hfin : ∀ sd, IsHit E config q (shows (abs dt.dbMap) clock) sd → finite64 sd.score)
    (hR : ∀ x y, IsHit E config q (shows (abs dt.dbMap) clock) x → IsHit E config q (shows (abs dt.dbMap) clock) y →
      (if config.higherIsBetter then binary64 y.score ≤ binary64 x.score else binary64 x.score ≤ binary64 y.score) → R x y) :
    ∃ dt' c cands rest, search E vs dt ⟨some q, qv⟩ (some config) = .ok (dt', c) ∧
      cands.Nodup ∧ (∀ sd, sd ∈ cands ↔ IsHit E config q (shows (abs dt.dbMap) clock) sd) ∧
      (c.list ++ rest).Perm cands ∧ c.list.length = min config.limit.toNat cands.length ∧
      c.list.Pairwise R ∧ ∀ x ∈ c.list, ∀ y ∈ rest, R x y := by
  have hnan : ∀ sd, IsHit E config q (shows (abs dt.dbMap) clock) sd → F64.isNaN sd.score = false := by
    intro sd hsd
    have hf := hfin sd hsd
    rw [SF.finite64_iff, SF.inf64] at hf
    unfold F64.isNaN
    have e : F64.mag sd.score = (SF.un64 sd.score).mag := rfl
    rw [e]
    simp only [decide_eq_false_iff_not]
    omega
  obtain ⟨dt', c, cands, h1, h2, h3, ⟨rest, p1, p2, p3, p4⟩, -⟩ := C22_search_top_k E hE dt vs clock q qv config hwf hr hc hlim hnan
  have hmem : ∀ x ∈ c.list ++ rest, IsHit E config q (shows (abs dt.dbMap) clock) x := fun x hx => (h3 x).1 (p1.mem_iff.1 hx)
  have hnear : ∀ x ∈ c.list ++ rest, ∀ y ∈ c.list ++ rest, better config.higherIsBetter y x = false → R x y := by
    intro x hx y hy hb
    have fx := hfin x (hmem x hx)
    have fy := hfin y (hmem y hy)
    refine hR x y (hmem x hx) (hmem y hy) ?_
    unfold better at hb
    cases hh : config.higherIsBetter with
    | true =>
      rw [hh] at hb
      simp only [if_true] at hb ⊢
      rw [← not_lt, ← hA.ltD _ _ fx fy, hE.bits.ltD, hb]
      simp
    | false =>
      rw [hh] at hb
      simp only [Bool.false_eq_true, if_false] at hb ⊢
      rw [← not_lt, ← hA.ltD _ _ fy fx, hE.bits.ltD, hb]
      simp
  refine ⟨dt', c, cands, rest, h1, h2, h3, p1, p2, ?_, ?_⟩
  · refine List.Pairwise.imp_of_mem ?_ p3
    intro x y hx hy hb
    exact hnear x (List.mem_append_left _ hx) y (List.mem_append_left _ hy) hb
  · intro x hx y hy
    exact hnear x (List.mem_append_left _ hx) y (List.mem_append_right _ hy) (p4 y hy x hx)

end Search

open Search Ref Store

/-- C139, full statement: a search by cosine similarity returns the most similar data: no matching live datum left out is more
similar to the query than one returned.  FALSE of the code. -/
def C139_most_similar_statement : Prop :=
  ∀ (E : Env) (dt dt' : Data) (vs : List Visit) (clock : DatumKey → Int64) (q : DatumKey) (config : SearchConfig)
    (c : Collector), E.Ok → Accurate E.o → WF dt.dbMap → IsRange dt.dbMap vs →
    (∀ v ∈ vs, ∀ k, v.entry.datum.key = some k → v.now = clock k) → 0 < config.limit →
    config.scoreFuncName = "CosineSimilarity" → config.higherIsBetter = true →
    Ordinary q.feature → (∀ k v, shows (abs dt.dbMap) clock k v → Ordinary k.feature) →
    search E vs dt ⟨some q, none⟩ (some config) = .ok (dt', c) →
    ∀ sd, IsHit E config q (shows (abs dt.dbMap) clock) sd → sd ∉ c.list →
      ∀ x ∈ c.list, trueCosine q sd ≤ trueCosine q x

/-- C139, partial: for ordinary vectors a search by cosine similarity returns as many of the matching live data as possible; in the
order returned, none is more similar than an earlier one, and none of those left out is more similar than one returned, up to
1/50 (of the cosine). -/
theorem C139_most_similar_partial (E : Env) (hE : E.Ok) (hA : Accurate E.o) (dt : Data) (vs : List Visit)
    (clock : DatumKey → Int64) (q : DatumKey) (qv : Option DatumValue) (config : SearchConfig)
    (hwf : WF dt.dbMap) (hr : IsRange dt.dbMap vs)
    (hc : ∀ v ∈ vs, ∀ k, v.entry.datum.key = some k → v.now = clock k)
    (hlim : 0 < config.limit) (hname : config.scoreFuncName = "CosineSimilarity") (hhigh : config.higherIsBetter = true)
    (hq : Ordinary q.feature) (hk : ∀ k v, shows (abs dt.dbMap) clock k v → Ordinary k.feature) :
    ∃ dt' c cands rest, search E vs dt ⟨some q, qv⟩ (some config) = .ok (dt', c) ∧
      cands.Nodup ∧ (∀ sd, sd ∈ cands ↔ IsHit E config q (shows (abs dt.dbMap) clock) sd) ∧
      (c.list ++ rest).Perm cands ∧ c.list.length = min config.limit.toNat cands.length ∧
      c.list.Pairwise (asSimilar q) ∧ ∀ x ∈ c.list, ∀ y ∈ rest, asSimilar q x y := by
  have hsf : Vec.getVectorComparisonFunction config.scoreFuncName = .cosineSimilarity := by rw [hname]; decide
  have hscore : ∀ sd, IsHit E config q (shows (abs dt.dbMap) clock) sd →
      finite64 sd.score ∧ |(binary64 sd.score : ℝ) - trueCosine q sd| ≤ 1 / 100 := by
    intro sd ⟨k, v, h1, h2, _, h4⟩
    rw [hsf] at h4
    have ht := hk k v h2
    have := C138_cosine_accurate_partial hA k.feature q.feature ht.finite hq.finite ht.short hq.short ht.moderate hq.moderate
    unfold trueCosine
    rw [h4, h1]
    exact this
  refine ranked E hE hA dt vs clock q qv config hwf hr hc hlim _ (fun sd hsd => (hscore sd hsd).1) ?_
  intro x y hx hy h
  rw [hhigh] at h
  simp only [if_true] at h
  have h' : (binary64 y.score : ℝ) ≤ (binary64 x.score : ℝ) := by exact_mod_cast h
  have h1 := abs_le.1 (hscore x hx).2
  have h2 := abs_le.1 (hscore y hy).2
  unfold asSimilar
  linarith

/-- C140, full statement: a search by `QuickVectorDistance` returns the nearest data: no matching live datum left out is nearer to the
query than one returned.  FALSE of the code. -/
def C140_quick_nearest_statement : Prop :=
  ∀ (E : Env) (dt dt' : Data) (vs : List Visit) (clock : DatumKey → Int64) (q : DatumKey) (config : SearchConfig)
    (c : Collector), E.Ok → Accurate E.o → WF dt.dbMap → IsRange dt.dbMap vs →
    (∀ v ∈ vs, ∀ k, v.entry.datum.key = some k → v.now = clock k) → 0 < config.limit →
    config.scoreFuncName = "QuickVectorDistance" → config.higherIsBetter = false →
    (∀ x ∈ q.feature, finite32 x) → (∀ k v, shows (abs dt.dbMap) clock k v → Close q k) →
    search E vs dt ⟨some q, none⟩ (some config) = .ok (dt', c) →
    ∀ sd, IsHit E config q (shows (abs dt.dbMap) clock) sd → sd ∉ c.list →
      ∀ x ∈ c.list, trueDist1 q x ≤ trueDist1 q sd

/-- C140, partial: up to three parts in a million, with no lower bound on the distances. -/
theorem C140_quick_nearest_partial (E : Env) (hE : E.Ok) (hA : Accurate E.o) (dt : Data) (vs : List Visit)
    (clock : DatumKey → Int64) (q : DatumKey) (qv : Option DatumValue) (config : SearchConfig)
    (hwf : WF dt.dbMap) (hr : IsRange dt.dbMap vs)
    (hc : ∀ v ∈ vs, ∀ k, v.entry.datum.key = some k → v.now = clock k)
    (hlim : 0 < config.limit) (hname : config.scoreFuncName = "QuickVectorDistance") (hlow : config.higherIsBetter = false)
    (hq : ∀ x ∈ q.feature, finite32 x) (hk : ∀ k v, shows (abs dt.dbMap) clock k v → Close q k) :
    ∃ dt' c cands rest, search E vs dt ⟨some q, qv⟩ (some config) = .ok (dt', c) ∧
      cands.Nodup ∧ (∀ sd, sd ∈ cands ↔ IsHit E config q (shows (abs dt.dbMap) clock) sd) ∧
      (c.list ++ rest).Perm cands ∧ c.list.length = min config.limit.toNat cands.length ∧
      c.list.Pairwise (nearly1 q) ∧ ∀ x ∈ c.list, ∀ y ∈ rest, nearly1 q x y := by
  have hsf : Vec.getVectorComparisonFunction config.scoreFuncName = .quickVectorDistance := by rw [hname]; decide
  have hscore : ∀ sd, IsHit E config q (shows (abs dt.dbMap) clock) sd →
      finite64 sd.score ∧ |binary64 sd.score - trueDist1 q sd| ≤ trueDist1 q sd / 1000000 := by
    intro sd ⟨k, v, h1, h2, _, h4⟩
    rw [hsf] at h4
    have ht := hk k v h2
    have := C136_quick_accurate_partial hA k.feature q.feature ht.finite hq (by have := ht.short; omega) ht.near
    unfold trueDist1
    rw [h4, h1]
    exact this
  refine ranked E hE hA dt vs clock q qv config hwf hr hc hlim _ (fun sd hsd => (hscore sd hsd).1) ?_
  intro x y hx hy h
  rw [hlow] at h
  simp only [Bool.false_eq_true, if_false] at h
  have h1 := abs_le.1 (hscore x hx).2
  have h2 := abs_le.1 (hscore y hy).2
  have h0 : 0 ≤ trueDist1 q y := Vec.dist1_nonneg _ _
  unfold nearly1
  linarith

namespace Search
open Gencoder

def exCosConfig : SearchConfig := { defaultSearchConfig with limit := 1, scoreFuncName := "CosineSimilarity", higherIsBetter := true }
def exQuickConfig : SearchConfig := { defaultSearchConfig with limit := 1, scoreFuncName := "QuickVectorDistance", higherIsBetter := false }

/-- The vectors (4096, 1) and (1, 0), seen in this order. -/
def exTurned : List (List F32) := [[0x45800000, 0x3F800000], [0x3F800000, 0]]

/-- The vectors (2^24) and (2^24 - 1), seen in this order. -/
def exFar : List (List F32) := [[0x4B800000], [0x4B7FFFFF]]

theorem turned_answer : ∃ dt' c, search exEnv (exVecVisits exTurned) (exVecData exTurned) ⟨some (exVec [0x3F800000, 0]), none⟩
    (some exCosConfig) = .ok (dt', c) ∧
    c.list = [⟨F64.one, ⟨some (exVec [0x45800000, 0x3F800000]), some ⟨1, [7]⟩⟩⟩] :=
  listOf_some (by decide +kernel)

theorem far_answer : ∃ dt' c, search exEnv (exVecVisits exFar) (exVecData exFar) ⟨some (exVec [0xBF800000]), none⟩
    (some exQuickConfig) = .ok (dt', c) ∧
    c.list = [⟨0x4170000000000000, ⟨some (exVec [0x4B800000]), some ⟨1, [7]⟩⟩⟩] :=
  listOf_some (by decide +kernel)

theorem v4096 : binary32 0x45800000 = 4096 := by decide +kernel
theorem v1 : binary32 0x3F800000 = 1 := by decide +kernel
theorem v0 : binary32 0 = 0 := by decide +kernel
theorem vm1 : binary32 0xBF800000 = -1 := by decide +kernel
theorem v24 : binary32 0x4B800000 = 16777216 := by decide +kernel
theorem v23 : binary32 0x4B7FFFFF = 16777215 := by decide +kernel

theorem ordinary_unit : Ordinary [0x3F800000, 0] := by
  refine ⟨by unfold finite32; decide, by decide, Or.inr ?_⟩
  unfold norm2
  simp only [dot, v1, v0]
  norm_num

theorem turned_ordinary : ∀ k v, shows (abs (exVecData exTurned).dbMap) (fun _ => 1000) k v → Ordinary k.feature := by
  intro k v h
  obtain ⟨f, hf, rfl⟩ := shows_vecs (by decide) h
  simp only [exTurned, List.mem_cons, List.not_mem_nil, or_false] at hf
  rcases hf with rfl | rfl
  · refine ⟨by unfold exVec finite32; decide, by decide, Or.inr ?_⟩
    unfold norm2
    simp only [exVec, dot, v1, v4096]
    norm_num
  · exact ordinary_unit

theorem far_close : ∀ k v, shows (abs (exVecData exFar).dbMap) (fun _ => 1000) k v → Close (exVec [0xBF800000]) k := by
  intro k v h
  obtain ⟨f, hf, rfl⟩ := shows_vecs (by decide) h
  simp only [exFar, List.mem_cons, List.not_mem_nil, or_false] at hf
  rcases hf with rfl | rfl
  · refine ⟨by unfold exVec finite32; decide, by decide, ?_⟩
    intro p hp
    simp only [exVec, List.zip_cons_cons, List.zip_nil_right, List.mem_singleton] at hp
    subst hp
    simp only [v24, vm1]
    norm_num
  · refine ⟨by unfold exVec finite32; decide, by decide, ?_⟩
    intro p hp
    simp only [exVec, List.zip_cons_cons, List.zip_nil_right, List.mem_singleton] at hp
    subst hp
    simp only [v23, vm1]
    norm_num

end Search

/-- C139, counterexample: with the query (1, 0), the vector (4096, 1) is returned and (1, 0) itself is not: in single precision
4096² + 1 is 4096². -/
theorem C139_most_similar_fails : ¬ C139_most_similar_statement := by
  intro h
  obtain ⟨dt', c, h1, h2⟩ := turned_answer
  have hwf : WF (exVecData exTurned).dbMap := wf_vecs exTurned (by decide)
  have := h exEnv (exVecData exTurned) dt' (exVecVisits exTurned) (fun _ => 1000) (exVec [0x3F800000, 0])
    exCosConfig c exEnv_ok (SF.accurate id) hwf (range_vecs exTurned) (clock_vecs exTurned) (by decide) rfl rfl
    ordinary_unit turned_ordinary h1 ⟨F64.one, ⟨some (exVec [0x3F800000, 0]), some ⟨1, [7]⟩⟩⟩ ?_ ?_
    ⟨F64.one, ⟨some (exVec [0x45800000, 0x3F800000]), some ⟨1, [7]⟩⟩⟩ (by rw [h2]; simp)
  · simp only [trueCosine, exVec, Option.map_some, Option.getD_some, cosine, norm2, dot, v0, v1, v4096] at this
    norm_num at this
    have h3 : (4096 : ℝ) < √16777217 := Real.lt_sqrt_of_sq_lt (by norm_num)
    rw [le_div_iff₀ (by linarith)] at this
    linarith
  · refine ⟨exVec [0x3F800000, 0], ⟨1, [7]⟩, rfl, ?_, by simp [Passes, exCosConfig, defaultSearchConfig], ?_⟩
    · refine (scan_out hwf (range_vecs exTurned) (clock_vecs exTurned) _ _).1 ?_
      simp [exVecVisits, exTurned, liveEntries, exVecStored, isExpired]
    · decide +kernel
  · rw [h2]; decide +kernel

/-- C139: the hypotheses are met by the two vectors above and by the query (1, 0). -/
theorem C139_example : exEnv.Ok ∧ Accurate exEnv.o ∧ WF (exVecData exTurned).dbMap ∧
    IsRange (exVecData exTurned).dbMap (exVecVisits exTurned) ∧ Ordinary [0x3F800000, 0] ∧
    (∀ k v, shows (abs (exVecData exTurned).dbMap) (fun _ => 1000) k v → Ordinary k.feature) ∧
    ∃ v, shows (abs (exVecData exTurned).dbMap) (fun _ => 1000) (exVec [0x3F800000, 0]) v :=
  ⟨exEnv_ok, SF.accurate id, wf_vecs exTurned (by decide), range_vecs exTurned, ordinary_unit, turned_ordinary, ⟨1, [7]⟩,
    (scan_out (wf_vecs exTurned (by decide)) (range_vecs exTurned) (clock_vecs exTurned) _ _).1 (by
      simp [exVecVisits, exTurned, liveEntries, exVecStored, isExpired])⟩

/-- C140, counterexample: with the query (-1), the vector (2^24) is returned and (2^24 - 1) is not. -/
theorem C140_quick_nearest_fails : ¬ C140_quick_nearest_statement := by
  intro h
  obtain ⟨dt', c, h1, h2⟩ := far_answer
  have hwf : WF (exVecData exFar).dbMap := wf_vecs exFar (by decide)
  have hq : ∀ x ∈ (exVec [0xBF800000]).feature, finite32 x := by unfold exVec finite32; decide
  have := h exEnv (exVecData exFar) dt' (exVecVisits exFar) (fun _ => 1000) (exVec [0xBF800000])
    exQuickConfig c exEnv_ok (SF.accurate id) hwf (range_vecs exFar) (clock_vecs exFar) (by decide) rfl rfl
    hq far_close h1 ⟨0x4170000000000000, ⟨some (exVec [0x4B7FFFFF]), some ⟨1, [7]⟩⟩⟩ ?_ ?_
    ⟨0x4170000000000000, ⟨some (exVec [0x4B800000]), some ⟨1, [7]⟩⟩⟩ (by rw [h2]; simp)
  · simp only [trueDist1, exVec, Option.map_some, Option.getD_some, dist1, v23, v24, vm1] at this
    norm_num at this
  · refine ⟨exVec [0x4B7FFFFF], ⟨1, [7]⟩, rfl, ?_, by simp [Passes, exQuickConfig, defaultSearchConfig], ?_⟩
    · refine (scan_out hwf (range_vecs exFar) (clock_vecs exFar) _ _).1 ?_
      simp [exVecVisits, exFar, liveEntries, exVecStored, isExpired]
    · decide +kernel
  · rw [h2]; decide +kernel

/-- C140: the hypotheses are met by the two vectors above and by the query (-1). -/
theorem C140_example : exEnv.Ok ∧ Accurate exEnv.o ∧ WF (exVecData exFar).dbMap ∧
    IsRange (exVecData exFar).dbMap (exVecVisits exFar) ∧
    (∀ k v, shows (abs (exVecData exFar).dbMap) (fun _ => 1000) k v → Close (exVec [0xBF800000]) k) ∧
    ∃ v, shows (abs (exVecData exFar).dbMap) (fun _ => 1000) (exVec [0x4B7FFFFF]) v :=
  ⟨exEnv_ok, SF.accurate id, wf_vecs exFar (by decide), range_vecs exFar, far_close, ⟨1, [7]⟩,
    (scan_out (wf_vecs exFar (by decide)) (range_vecs exFar) (clock_vecs exFar) _ _).1 (by
      simp [exVecVisits, exFar, liveEntries, exVecStored, isExpired])⟩

end Veri
