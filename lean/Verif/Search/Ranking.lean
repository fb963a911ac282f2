import Verif.Search.Similar
import Verif.Vector.CosFine
/-
Exact search by inner product (C171) and by angular similarity (C172): what is returned are the best, up to the error of the scores.
-/
set_option autoImplicit false
namespace Veri
set_option exponentiation.threshold 4000

namespace Ref

/-- The true inner product of a result and the query. -/
def trueDot (q : DatumKey) (x : ScoredDatum) : Rat := dot ((x.datum.key.map (·.feature)).getD []) q.feature

/-- The error of a product, from the magnitudes of its terms: `n` common components. -/
def dotError (a b : List F32) : Rat :=
  (2 * (min a.length b.length : ℕ) + 4) / 2^24 * absDot a b + 3 * (min a.length b.length : ℕ) / 2^149

def errorOf (q : DatumKey) (x : ScoredDatum) : Rat := dotError ((x.datum.key.map (·.feature)).getD []) q.feature

/-- `x` has as large a product as `y`, up to the errors of both. -/
def asLarge (q : DatumKey) (x y : ScoredDatum) : Prop := trueDot q y ≤ trueDot q x + (errorOf q x + errorOf q y)

/-- Finite numbers, up to 2^20 components, the magnitudes of the terms of the product not above 2^125 together. -/
structure Fits (q : DatumKey) (k : DatumKey) : Prop where
  finite : ∀ x ∈ k.feature, finite32 x
  short : k.feature.length ≤ 2^20
  small : absDot k.feature q.feature ≤ 2^125

/-- The true angular similarity of a result and the query. -/
noncomputable def trueAngular (q : DatumKey) (x : ScoredDatum) : ℝ := angular ((x.datum.key.map (·.feature)).getD []) q.feature

/-- `x` is in as similar a direction as `y`, up to 142/1000 (of half a turn). -/
def asNear (q : DatumKey) (x y : ScoredDatum) : Prop := trueAngular q y ≤ trueAngular q x + 142 / 1000

/-- `x` is not farther than `y`, up to the errors of the distances with `n` components. -/
def notFarther (n : ℕ) (q : DatumKey) (x y : ScoredDatum) : Prop :=
  (1 - (2 * n + 8) / 2^24) * trueDist2 q x ≤ (1 + (2 * n + 8) / 2^24) * trueDist2 q y + 6 * n / 2^149

/-- Finite numbers, up to `n` components, zero or a length between 2^-50 and 2^60. -/
structure OrdinaryOf (n : ℕ) (f : List F32) : Prop where
  finite : ∀ x ∈ f, finite32 x
  short : f.length ≤ n
  usual : UsualLength f

end Ref

open Search Ref Store

/-- C171, full statement: a search by inner product returns the largest: no matching live datum left out has a larger product with the
query than one returned.  FALSE of the code. -/
def C171_largest_statement : Prop :=
  ∀ (E : Env) (dt dt' : Data) (vs : List Visit) (clock : DatumKey → Int64) (q : DatumKey) (config : SearchConfig)
    (c : Collector), E.Ok → Accurate E.o → WF dt.dbMap → IsRange dt.dbMap vs →
    (∀ v ∈ vs, ∀ k, v.entry.datum.key = some k → v.now = clock k) → 0 < config.limit →
    config.scoreFuncName = "VectorMultiplication" → config.higherIsBetter = true →
    (∀ x ∈ q.feature, finite32 x) → (∀ k v, shows (abs dt.dbMap) clock k v → Fits q k) →
    search E vs dt ⟨some q, none⟩ (some config) = .ok (dt', c) →
    ∀ sd, IsHit E config q (shows (abs dt.dbMap) clock) sd → sd ∉ c.list →
      ∀ x ∈ c.list, trueDot q sd ≤ trueDot q x

/-- C171, partial: a search by inner product returns as many of the matching live data as possible; in the order returned, none has a
larger product than an earlier one, and none of those left out has a larger product than one returned, up to the errors of the two
products (`(2n + 4) / 2^24` of the magnitudes of the terms, and `3n / 2^149`). -/
theorem C171_largest_partial (E : Env) (hE : E.Ok) (hA : Accurate E.o) (dt : Data) (vs : List Visit)
    (clock : DatumKey → Int64) (q : DatumKey) (qv : Option DatumValue) (config : SearchConfig)
    (hwf : WF dt.dbMap) (hr : IsRange dt.dbMap vs)
    (hc : ∀ v ∈ vs, ∀ k, v.entry.datum.key = some k → v.now = clock k)
    (hlim : 0 < config.limit) (hname : config.scoreFuncName = "VectorMultiplication") (hhigh : config.higherIsBetter = true)
    (hq : ∀ x ∈ q.feature, finite32 x) (hk : ∀ k v, shows (abs dt.dbMap) clock k v → Fits q k) :
    ∃ dt' c cands rest, search E vs dt ⟨some q, qv⟩ (some config) = .ok (dt', c) ∧
      cands.Nodup ∧ (∀ sd, sd ∈ cands ↔ IsHit E config q (shows (abs dt.dbMap) clock) sd) ∧
      (c.list ++ rest).Perm cands ∧ c.list.length = min config.limit.toNat cands.length ∧
      c.list.Pairwise (asLarge q) ∧ ∀ x ∈ c.list, ∀ y ∈ rest, asLarge q x y := by
  have hsf : Vec.getVectorComparisonFunction config.scoreFuncName = .vectorMultiplication := by rw [hname]; decide
  have hscore : ∀ sd, IsHit E config q (shows (abs dt.dbMap) clock) sd →
      finite64 sd.score ∧ |binary64 sd.score - trueDot q sd| ≤ errorOf q sd := by
    intro sd ⟨k, v, h1, h2, _, h4⟩
    rw [hsf] at h4
    have ht := hk k v h2
    have := C137_product_error_partial hA k.feature q.feature ht.finite hq (by have := ht.short; omega) ht.small
    unfold trueDot errorOf dotError
    rw [h4, h1]
    exact this
  refine ranked E hE hA dt vs clock q qv config hwf hr hc hlim _ (fun sd hsd => (hscore sd hsd).1) ?_
  intro x y hx hy h
  rw [hhigh] at h
  simp only [if_true] at h
  have h1 := abs_le.1 (hscore x hx).2
  have h2 := abs_le.1 (hscore y hy).2
  unfold asLarge
  linarith

/-- C172, full statement: a search by angular similarity returns the data in the nearest directions: no matching live datum left out is
in a direction nearer to that of the query than one returned.  FALSE of the code. -/
def C172_direction_statement : Prop :=
  ∀ (E : Env) (dt dt' : Data) (vs : List Visit) (clock : DatumKey → Int64) (q : DatumKey) (config : SearchConfig)
    (c : Collector), E.Ok → Accurate E.o → AccurateAcos E.o → WF dt.dbMap → IsRange dt.dbMap vs →
    (∀ v ∈ vs, ∀ k, v.entry.datum.key = some k → v.now = clock k) → 0 < config.limit →
    config.scoreFuncName = "AngularDistance" → config.higherIsBetter = true →
    Ordinary q.feature → (∀ k v, shows (abs dt.dbMap) clock k v → Ordinary k.feature) →
    search E vs dt ⟨some q, none⟩ (some config) = .ok (dt', c) →
    ∀ sd, IsHit E config q (shows (abs dt.dbMap) clock) sd → sd ∉ c.list →
      ∀ x ∈ c.list, trueAngular q sd ≤ trueAngular q x

/-- C172, partial: for ordinary vectors, up to 142/1000 of half a turn, in the order returned too. -/
theorem C172_direction_partial (E : Env) (hE : E.Ok) (hA : Accurate E.o) (hB : AccurateAcos E.o) (dt : Data) (vs : List Visit)
    (clock : DatumKey → Int64) (q : DatumKey) (qv : Option DatumValue) (config : SearchConfig)
    (hwf : WF dt.dbMap) (hr : IsRange dt.dbMap vs)
    (hc : ∀ v ∈ vs, ∀ k, v.entry.datum.key = some k → v.now = clock k)
    (hlim : 0 < config.limit) (hname : config.scoreFuncName = "AngularDistance") (hhigh : config.higherIsBetter = true)
    (hq : Ordinary q.feature) (hk : ∀ k v, shows (abs dt.dbMap) clock k v → Ordinary k.feature) :
    ∃ dt' c cands rest, search E vs dt ⟨some q, qv⟩ (some config) = .ok (dt', c) ∧
      cands.Nodup ∧ (∀ sd, sd ∈ cands ↔ IsHit E config q (shows (abs dt.dbMap) clock) sd) ∧
      (c.list ++ rest).Perm cands ∧ c.list.length = min config.limit.toNat cands.length ∧
      c.list.Pairwise (asNear q) ∧ ∀ x ∈ c.list, ∀ y ∈ rest, asNear q x y := by
  have hsf : Vec.getVectorComparisonFunction config.scoreFuncName = .angularDistance := by rw [hname]; decide
  have hscore : ∀ sd, IsHit E config q (shows (abs dt.dbMap) clock) sd →
      finite64 sd.score ∧ |(binary64 sd.score : ℝ) - trueAngular q sd| ≤ 71 / 1000 := by
    intro sd ⟨k, v, h1, h2, _, h4⟩
    rw [hsf] at h4
    have ht := hk k v h2
    have := C141_angular_accurate_partial hA hB k.feature q.feature ht.finite hq.finite ht.short hq.short ht.moderate hq.moderate
    unfold trueAngular
    rw [h4, h1]
    exact this
  refine ranked E hE hA dt vs clock q qv config hwf hr hc hlim _ (fun sd hsd => (hscore sd hsd).1) ?_
  intro x y hx hy h
  rw [hhigh] at h
  simp only [if_true] at h
  have h' : (binary64 y.score : ℝ) ≤ (binary64 x.score : ℝ) := by exact_mod_cast h
  have h1 := abs_le.1 (hscore x hx).2
  have h2 := abs_le.1 (hscore y hy).2
  unfold asNear
  linarith

/-- C135, by the number `n` of components (all of the data and the query): the squares of the distances, up to a share of
`(2n + 8) / 2^24` of each, and `6n / 2^149`. -/
theorem C135_nearest_error_partial (E : Env) (hE : E.Ok) (hA : Accurate E.o) (dt : Data) (vs : List Visit)
    (clock : DatumKey → Int64) (q : DatumKey) (qv : Option DatumValue) (config : SearchConfig) (n : ℕ) (hn : n ≤ 2^20)
    (hwf : WF dt.dbMap) (hr : IsRange dt.dbMap vs)
    (hc : ∀ v ∈ vs, ∀ k, v.entry.datum.key = some k → v.now = clock k)
    (hlim : 0 < config.limit) (hname : config.scoreFuncName = "VectorDistance") (hlow : config.higherIsBetter = false)
    (hq : ∀ x ∈ q.feature, finite32 x) (hql : q.feature.length ≤ n)
    (hk : ∀ k v, shows (abs dt.dbMap) clock k v → (∀ x ∈ k.feature, finite32 x) ∧ dist2 k.feature q.feature ≤ 2^125) :
    ∃ dt' c cands rest, search E vs dt ⟨some q, qv⟩ (some config) = .ok (dt', c) ∧
      cands.Nodup ∧ (∀ sd, sd ∈ cands ↔ IsHit E config q (shows (abs dt.dbMap) clock) sd) ∧
      (c.list ++ rest).Perm cands ∧ c.list.length = min config.limit.toNat cands.length ∧
      c.list.Pairwise (notFarther n q) ∧ ∀ x ∈ c.list, ∀ y ∈ rest, notFarther n q x y := by
  have hsf : Vec.getVectorComparisonFunction config.scoreFuncName = .vectorDistance := by rw [hname]; decide
  have hscore : ∀ sd, IsHit E config q (shows (abs dt.dbMap) clock) sd →
      finite64 sd.score ∧ 0 ≤ binary64 sd.score ∧
      |binary64 sd.score ^ 2 - trueDist2 q sd| ≤ (2 * n + 8) / 2^24 * trueDist2 q sd + 3 * n / 2^149 := by
    intro sd ⟨k, v, h1, h2, _, h4⟩
    rw [hsf] at h4
    obtain ⟨hf, hb⟩ := hk k v h2
    have hmin : min k.feature.length q.feature.length ≤ n := le_trans (min_le_right _ _) hql
    obtain ⟨g1, g2, g3⟩ := C134_distance_error_partial hA k.feature q.feature hf hq (le_trans hmin hn) hb
    have e1 : trueDist2 q sd = dist2 k.feature q.feature := by unfold trueDist2; rw [h1]; rfl
    rw [e1, h4]
    refine ⟨g1, g2, le_trans g3 ?_⟩
    have hmin' : ((min k.feature.length q.feature.length : ℕ) : ℚ) ≤ n := by exact_mod_cast hmin
    have h0 := Vec.dist2_nonneg k.feature q.feature
    generalize ((min k.feature.length q.feature.length : ℕ) : ℚ) = m at *
    have h5 : (2 * m + 8) / 2^24 * dist2 k.feature q.feature ≤ (2 * n + 8) / 2^24 * dist2 k.feature q.feature :=
      mul_le_mul_of_nonneg_right (div_le_div_of_nonneg_right (by linarith) (by positivity)) h0
    have h6 : 3 * m / (2 : ℚ)^149 ≤ 3 * n / 2^149 := div_le_div_of_nonneg_right (by linarith) (by positivity)
    linarith
  refine ranked E hE hA dt vs clock q qv config hwf hr hc hlim _ (fun sd hsd => (hscore sd hsd).1) ?_
  intro x y hx hy h
  rw [hlow] at h
  simp only [Bool.false_eq_true, if_false] at h
  obtain ⟨-, x0, x1⟩ := hscore x hx
  obtain ⟨-, y0, y1⟩ := hscore y hy
  have h1 := abs_le.1 x1
  have h2 := abs_le.1 y1
  have h3 := pow_le_pow_left₀ x0 h 2
  unfold notFarther
  have e : (6 : ℚ) * n / 2^149 = 3 * n / 2^149 + 3 * n / 2^149 := by ring
  rw [e]
  linarith

/-- C139, by the number of components: up to `2 (5n + 20) / 2^24` of the cosine. -/
theorem C139_most_similar_error_partial (E : Env) (hE : E.Ok) (hA : Accurate E.o) (dt : Data) (vs : List Visit)
    (clock : DatumKey → Int64) (q : DatumKey) (qv : Option DatumValue) (config : SearchConfig) (n : ℕ) (hn : n ≤ 2^15)
    (hwf : WF dt.dbMap) (hr : IsRange dt.dbMap vs)
    (hc : ∀ v ∈ vs, ∀ k, v.entry.datum.key = some k → v.now = clock k)
    (hlim : 0 < config.limit) (hname : config.scoreFuncName = "CosineSimilarity") (hhigh : config.higherIsBetter = true)
    (hq : OrdinaryOf n q.feature) (hk : ∀ k v, shows (abs dt.dbMap) clock k v → OrdinaryOf n k.feature) :
    ∃ dt' c cands rest, search E vs dt ⟨some q, qv⟩ (some config) = .ok (dt', c) ∧
      cands.Nodup ∧ (∀ sd, sd ∈ cands ↔ IsHit E config q (shows (abs dt.dbMap) clock) sd) ∧
      (c.list ++ rest).Perm cands ∧ c.list.length = min config.limit.toNat cands.length ∧
      c.list.Pairwise (fun x y => trueCosine q y ≤ trueCosine q x + 2 * cosError n) ∧
      ∀ x ∈ c.list, ∀ y ∈ rest, trueCosine q y ≤ trueCosine q x + 2 * cosError n := by
  have hsf : Vec.getVectorComparisonFunction config.scoreFuncName = .cosineSimilarity := by rw [hname]; decide
  have hscore : ∀ sd, IsHit E config q (shows (abs dt.dbMap) clock) sd →
      finite64 sd.score ∧ |(binary64 sd.score : ℝ) - trueCosine q sd| ≤ cosError n := by
    intro sd ⟨k, v, h1, h2, _, h4⟩
    rw [hsf] at h4
    have ht := hk k v h2
    have := C138_cosine_error_partial hA k.feature q.feature ht.finite hq.finite n hn ht.short hq.short ht.usual hq.usual
    unfold trueCosine
    rw [h4, h1]
    exact this
  refine ranked E hE hA dt vs clock q qv config hwf hr hc hlim (fun x y => trueCosine q y ≤ trueCosine q x + 2 * cosError n)
    (fun sd hsd => (hscore sd hsd).1) ?_
  intro x y hx hy h
  rw [hhigh] at h
  simp only [if_true] at h
  have h' : (binary64 y.score : ℝ) ≤ (binary64 x.score : ℝ) := by exact_mod_cast h
  have h1 := abs_le.1 (hscore x hx).2
  have h2 := abs_le.1 (hscore y hy).2
  linarith

/-- C172, by the number of components: up to twice the root of `(5n + 20) / 2^25`, and a few millionths, of half a turn. -/
theorem C172_direction_error_partial (E : Env) (hE : E.Ok) (hA : Accurate E.o) (hB : AccurateAcos E.o) (dt : Data) (vs : List Visit)
    (clock : DatumKey → Int64) (q : DatumKey) (qv : Option DatumValue) (config : SearchConfig) (n : ℕ) (hn : n ≤ 2^15)
    (hwf : WF dt.dbMap) (hr : IsRange dt.dbMap vs)
    (hc : ∀ v ∈ vs, ∀ k, v.entry.datum.key = some k → v.now = clock k)
    (hlim : 0 < config.limit) (hname : config.scoreFuncName = "AngularDistance") (hhigh : config.higherIsBetter = true)
    (hq : OrdinaryOf n q.feature) (hk : ∀ k v, shows (abs dt.dbMap) clock k v → OrdinaryOf n k.feature) :
    ∃ dt' c cands rest, search E vs dt ⟨some q, qv⟩ (some config) = .ok (dt', c) ∧
      cands.Nodup ∧ (∀ sd, sd ∈ cands ↔ IsHit E config q (shows (abs dt.dbMap) clock) sd) ∧
      (c.list ++ rest).Perm cands ∧ c.list.length = min config.limit.toNat cands.length ∧
      c.list.Pairwise (fun x y => trueAngular q y ≤ trueAngular q x + 2 * (√(cosError n / 2) + 1 / 100000)) ∧
      ∀ x ∈ c.list, ∀ y ∈ rest, trueAngular q y ≤ trueAngular q x + 2 * (√(cosError n / 2) + 1 / 100000) := by
  have hsf : Vec.getVectorComparisonFunction config.scoreFuncName = .angularDistance := by rw [hname]; decide
  have hscore : ∀ sd, IsHit E config q (shows (abs dt.dbMap) clock) sd →
      finite64 sd.score ∧ |(binary64 sd.score : ℝ) - trueAngular q sd| ≤ √(cosError n / 2) + 1 / 100000 := by
    intro sd ⟨k, v, h1, h2, _, h4⟩
    rw [hsf] at h4
    have ht := hk k v h2
    have := C141_angular_error_partial hA hB k.feature q.feature ht.finite hq.finite n hn ht.short hq.short ht.usual hq.usual
    unfold trueAngular
    rw [h4, h1]
    exact this
  refine ranked E hE hA dt vs clock q qv config hwf hr hc hlim
    (fun x y => trueAngular q y ≤ trueAngular q x + 2 * (√(cosError n / 2) + 1 / 100000)) (fun sd hsd => (hscore sd hsd).1) ?_
  intro x y hx hy h
  rw [hhigh] at h
  simp only [if_true] at h
  have h' : (binary64 y.score : ℝ) ≤ (binary64 x.score : ℝ) := by exact_mod_cast h
  have h1 := abs_le.1 (hscore x hx).2
  have h2 := abs_le.1 (hscore y hy).2
  linarith

namespace Search
open Gencoder

def exDotConfig : SearchConfig := { defaultSearchConfig with limit := 1, scoreFuncName := "VectorMultiplication", higherIsBetter := true }
def exAngConfig : SearchConfig := { defaultSearchConfig with limit := 1, scoreFuncName := "AngularDistance", higherIsBetter := true }

/-- The vectors (4096, 1, -4096) and (0, 1/2, 0), seen in this order. -/
def exCancel : List (List F32) := [[0x45800000, 0x3F800000, 0xC5800000], [0, 0x3F000000, 0]]

theorem cancel_answer : ∃ dt' c, search exEnv (exVecVisits exCancel) (exVecData exCancel)
    ⟨some (exVec [0x45800000, 0x3F800000, 0x45800000]), none⟩ (some exDotConfig) = .ok (dt', c) ∧
    c.list = [⟨0x3FE0000000000000, ⟨some (exVec [0, 0x3F000000, 0]), some ⟨1, [7]⟩⟩⟩] :=
  listOf_some (by decide +kernel)

theorem vhalf : binary32 0x3F000000 = 1 / 2 := by decide +kernel
theorem vm4096 : binary32 0xC5800000 = -4096 := by decide +kernel

theorem cancel_fits : ∀ k v, shows (abs (exVecData exCancel).dbMap) (fun _ => 1000) k v →
    Fits (exVec [0x45800000, 0x3F800000, 0x45800000]) k := by
  intro k v h
  obtain ⟨f, hf, rfl⟩ := shows_vecs (by decide) h
  simp only [exCancel, List.mem_cons, List.not_mem_nil, or_false] at hf
  rcases hf with rfl | rfl
  · refine ⟨by unfold exVec finite32; decide, by decide, ?_⟩
    simp only [exVec, absDot, v1, v4096, vm4096]
    norm_num
  · refine ⟨by unfold exVec finite32; decide, by decide, ?_⟩
    simp only [exVec, absDot, v1, v4096, v0, vhalf]
    norm_num

/-- An arc cosine that is 0 at 1. -/
noncomputable def acos1 (x : F64) : F64 := if x = F64.one then 0 else SF.acosR x

theorem acos1_acc : AccurateAcos (SF.ops acos1) where
  subD := SF.acos_acc.subD
  divD := SF.acos_acc.divD
  piD := SF.acos_acc.piD
  acosD a h1 h2 := by
    show finite64 (acos1 a) ∧ |(binary64 (acos1 a) : ℝ) - _| ≤ _
    unfold acos1
    by_cases h : a = F64.one
    · rw [if_pos h, h, show binary64 F64.one = 1 by decide +kernel, show binary64 0 = 0 by decide +kernel]
      refine ⟨by unfold finite64; decide, ?_⟩
      simp
    · rw [if_neg h]
      exact SF.acos_acc.acosD a h1 h2

/-- The example arithmetic with this arc cosine. -/
noncomputable def exAngEnv : Env := ⟨SF.ops acos1, ISort.sort, fun _ _ => false⟩

theorem exAngEnv_ok : exAngEnv.Ok := ⟨SF.bits acos1, ISort.isSort⟩

theorem angular_answer : ∃ dt' c, search exAngEnv (exVecVisits exTurned) (exVecData exTurned) ⟨some (exVec [0x3F800000, 0]), none⟩
    (some exAngConfig) = .ok (dt', c) ∧
    c.list = [⟨F64.one, ⟨some (exVec [0x45800000, 0x3F800000]), some ⟨1, [7]⟩⟩⟩] :=
  listOf_some (by decide +kernel)

end Search

/-- C171, counterexample: with the query (4096, 1, 4096), the vector (0, 1/2, 0) is returned and (4096, 1, -4096) is not: its product is
1, but 0 in single precision. -/
theorem C171_largest_fails : ¬ C171_largest_statement := by
  intro h
  obtain ⟨dt', c, h1, h2⟩ := cancel_answer
  have hwf : WF (exVecData exCancel).dbMap := wf_vecs exCancel (by decide)
  have := h exEnv (exVecData exCancel) dt' (exVecVisits exCancel) (fun _ => 1000) (exVec [0x45800000, 0x3F800000, 0x45800000])
    exDotConfig c exEnv_ok (SF.accurate id) hwf (range_vecs exCancel) (clock_vecs exCancel) (by decide) rfl rfl
    (by unfold exVec finite32; decide) cancel_fits h1 ⟨0, ⟨some (exVec [0x45800000, 0x3F800000, 0xC5800000]), some ⟨1, [7]⟩⟩⟩ ?_ ?_
    ⟨0x3FE0000000000000, ⟨some (exVec [0, 0x3F000000, 0]), some ⟨1, [7]⟩⟩⟩ (by rw [h2]; simp)
  · simp only [trueDot, exVec, Option.map_some, Option.getD_some, dot, v0, v1, v4096, vm4096, vhalf] at this
    norm_num at this
  · refine ⟨exVec [0x45800000, 0x3F800000, 0xC5800000], ⟨1, [7]⟩, rfl, ?_, by simp [Passes, exDotConfig, defaultSearchConfig], ?_⟩
    · refine (scan_out hwf (range_vecs exCancel) (clock_vecs exCancel) _ _).1 ?_
      simp [exVecVisits, exCancel, liveEntries, exVecStored, isExpired]
    · decide +kernel
  · rw [h2]; decide +kernel

/-- C171: the hypotheses are met by these two vectors and this query. -/
theorem C171_example : exEnv.Ok ∧ Accurate exEnv.o ∧ WF (exVecData exCancel).dbMap ∧
    IsRange (exVecData exCancel).dbMap (exVecVisits exCancel) ∧
    (∀ k v, shows (abs (exVecData exCancel).dbMap) (fun _ => 1000) k v → Fits (exVec [0x45800000, 0x3F800000, 0x45800000]) k) ∧
    ∃ v, shows (abs (exVecData exCancel).dbMap) (fun _ => 1000) (exVec [0, 0x3F000000, 0]) v :=
  ⟨exEnv_ok, SF.accurate id, wf_vecs exCancel (by decide), range_vecs exCancel, cancel_fits, ⟨1, [7]⟩,
    (scan_out (wf_vecs exCancel (by decide)) (range_vecs exCancel) (clock_vecs exCancel) _ _).1 (by
      simp [exVecVisits, exCancel, liveEntries, exVecStored, isExpired])⟩

/-- C172, counterexample: with the query (1, 0), the vector (4096, 1) is returned and (1, 0) itself is not. -/
theorem C172_direction_fails : ¬ C172_direction_statement := by
  intro h
  obtain ⟨dt', c, h1, h2⟩ := angular_answer
  have hwf : WF (exVecData exTurned).dbMap := wf_vecs exTurned (by decide)
  have := h exAngEnv (exVecData exTurned) dt' (exVecVisits exTurned) (fun _ => 1000) (exVec [0x3F800000, 0])
    exAngConfig c exAngEnv_ok (SF.accurate acos1) acos1_acc hwf (range_vecs exTurned) (clock_vecs exTurned) (by decide) rfl rfl
    ordinary_unit turned_ordinary h1 ⟨F64.one, ⟨some (exVec [0x3F800000, 0]), some ⟨1, [7]⟩⟩⟩ ?_ ?_
    ⟨F64.one, ⟨some (exVec [0x45800000, 0x3F800000]), some ⟨1, [7]⟩⟩⟩ (by rw [h2]; simp)
  · simp only [trueAngular, angular, exVec, Option.map_some, Option.getD_some] at this
    have e1 : cosine [0x3F800000, 0] [0x3F800000, 0] = 1 := by
      simp only [cosine, norm2, dot, v0, v1]
      norm_num
    have e2 : cosine [0x45800000, 0x3F800000] [0x3F800000, 0] < 1 := by
      simp only [cosine, norm2, dot, v0, v1, v4096]
      norm_num
      have h3 : (4096 : ℝ) < √16777217 := Real.lt_sqrt_of_sq_lt (by norm_num)
      rw [div_lt_one (by linarith)]
      exact h3
    rw [e1, Real.arccos_one] at this
    have e3 : 0 < Real.arccos (cosine [0x45800000, 0x3F800000] [0x3F800000, 0]) := Real.arccos_pos.2 e2
    have e4 := div_pos e3 Real.pi_pos
    rw [zero_div] at this; linarith
  · refine ⟨exVec [0x3F800000, 0], ⟨1, [7]⟩, rfl, ?_, by simp [Passes, exAngConfig, defaultSearchConfig], ?_⟩
    · refine (scan_out hwf (range_vecs exTurned) (clock_vecs exTurned) _ _).1 ?_
      simp [exVecVisits, exTurned, liveEntries, exVecStored, isExpired]
    · decide +kernel
  · rw [h2]; decide +kernel

/-- C172: the hypotheses are met by these two vectors and this query. -/
theorem C172_example : exAngEnv.Ok ∧ Accurate exAngEnv.o ∧ AccurateAcos exAngEnv.o ∧ WF (exVecData exTurned).dbMap ∧
    IsRange (exVecData exTurned).dbMap (exVecVisits exTurned) ∧ Ordinary [0x3F800000, 0] ∧
    (∀ k v, shows (abs (exVecData exTurned).dbMap) (fun _ => 1000) k v → Ordinary k.feature) ∧
    ∃ v, shows (abs (exVecData exTurned).dbMap) (fun _ => 1000) (exVec [0x3F800000, 0]) v :=
  ⟨exAngEnv_ok, SF.accurate acos1, acos1_acc, wf_vecs exTurned (by decide), range_vecs exTurned, ordinary_unit, turned_ordinary, ⟨1, [7]⟩,
    (scan_out (wf_vecs exTurned (by decide)) (range_vecs exTurned) (clock_vecs exTurned) _ _).1 (by
      simp [exVecVisits, exTurned, liveEntries, exVecStored, isExpired])⟩

/-- C139, C172: both vectors and the query have at most 2 components and usual lengths. -/
theorem C172_error_example : OrdinaryOf 2 [0x3F800000, 0] ∧
    (∀ k v, shows (abs (exVecData exTurned).dbMap) (fun _ => 1000) k v → OrdinaryOf 2 k.feature) ∧
    2 * cosError 2 ≤ 4 / 1000000 ∧ 2 * (√(cosError 2 / 2) + 1 / 100000) ≤ 1 / 500 := by
  have hu : OrdinaryOf 2 [0x3F800000, 0] := by
    refine ⟨by unfold finite32; decide, by decide, Or.inr ?_⟩
    unfold norm2
    simp only [dot, v1, v0]
    norm_num
  refine ⟨hu, ?_, by unfold cosError; norm_num, ?_⟩
  · intro k v h
    obtain ⟨f, hf, rfl⟩ := shows_vecs (by decide) h
    simp only [exTurned, List.mem_cons, List.not_mem_nil, or_false] at hf
    rcases hf with rfl | rfl
    · refine ⟨by unfold exVec finite32; decide, by decide, Or.inr ?_⟩
      unfold norm2
      simp only [exVec, dot, v1, v4096]
      norm_num
    · exact hu
  · have : √(cosError 2 / 2) ≤ 99 / 100000 := by
      rw [Real.sqrt_le_left (by norm_num)]
      unfold cosError
      norm_num
    linarith

/-- C135: the hypotheses of the bound by components are met by the vectors (4096, 1/2) and (4096, 0) and the query (0, 0). -/
theorem C135_error_example : (∀ x ∈ (exVec [0, 0]).feature, finite32 x) ∧ (exVec [0, 0]).feature.length ≤ 2 ∧
    ∀ k v, shows (abs (exVecData exTwo).dbMap) (fun _ => 1000) k v →
      (∀ x ∈ k.feature, finite32 x) ∧ dist2 k.feature (exVec [0, 0]).feature ≤ 2^125 :=
  ⟨by unfold exVec finite32; decide, by decide, fun k v h =>
    ⟨(two_tame k v h).finite, le_trans (two_tame k v h).near (by norm_num)⟩⟩

end Veri
