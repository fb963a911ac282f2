import Verif.Search.Props
import Verif.Vector.Accuracy
/-
Exact search by distance in single precision: the data returned are the nearest, up to one per cent (C135).
-/
set_option autoImplicit false
namespace Veri
set_option exponentiation.threshold 4000

namespace Ref

/-- The square of the true distance of a result from the query. -/
def trueDist2 (q : DatumKey) (x : ScoredDatum) : Rat := dist2 ((x.datum.key.map (·.feature)).getD []) q.feature

/-- `x` is not farther than `y`, up to one per cent and 2^-64. -/
def nearly (q : DatumKey) (x y : ScoredDatum) : Prop := trueDist2 q x ≤ (101 / 100)^2 * trueDist2 q y + (2^64)⁻¹^2

/-- Finite numbers, not too far from the query. -/
structure Tame (q : DatumKey) (k : DatumKey) : Prop where
  finite : ∀ x ∈ k.feature, finite32 x
  short : k.feature.length ≤ 2^16
  near : dist2 k.feature q.feature ≤ (2^62)^2

end Ref

namespace Search
open Ref Store

theorem nearly_of_le {o : FOps F32 F64} (hA : Accurate o) {q kx ky : DatumKey} (hq : ∀ x ∈ q.feature, finite32 x)
    (hx : Tame q kx) (hy : Tame q ky)
    (h : ¬ binary64 (Vec.vectorDistance o ky.feature q.feature) < binary64 (Vec.vectorDistance o kx.feature q.feature)) :
    dist2 kx.feature q.feature ≤ (101 / 100)^2 * dist2 ky.feature q.feature + (2^64)⁻¹^2 := by
  have key : ∀ k, Tame q k → 0 ≤ binary64 (Vec.vectorDistance o k.feature q.feature) ∧
      |binary64 (Vec.vectorDistance o k.feature q.feature)^2 - dist2 k.feature q.feature| ≤
        8 / 1000 * dist2 k.feature q.feature + (2^131)⁻¹ := by
    intro k hk
    have hn : min k.feature.length q.feature.length ≤ 65536 := by have := hk.short; omega
    obtain ⟨h1, h2, h3⟩ := C134_distance_error_partial hA k.feature q.feature hk.finite hq (by omega)
      (le_trans hk.near (by norm_num))
    refine ⟨h2, le_trans h3 ?_⟩
    have hn' : ((min k.feature.length q.feature.length : ℕ) : ℚ) ≤ 65536 := by exact_mod_cast hn
    generalize ((min k.feature.length q.feature.length : ℕ) : ℚ) = n at *
    refine add_le_add (mul_le_mul_of_nonneg_right ?_ (Vec.dist2_nonneg _ _)) ?_
    · rw [div_le_iff₀ (by positivity)]; norm_num; linarith
    · rw [div_le_iff₀ (by positivity)]; norm_num; linarith
  obtain ⟨x0, hx1⟩ := key kx hx
  obtain ⟨y0, hy1⟩ := key ky hy
  have hle := not_lt.1 h
  have hsq : binary64 (Vec.vectorDistance o kx.feature q.feature)^2 ≤ binary64 (Vec.vectorDistance o ky.feature q.feature)^2 :=
    pow_le_pow_left₀ x0 hle 2
  have h1 := (abs_le.1 hx1).1
  have h2 := (abs_le.1 hy1).2
  have hT := Vec.dist2_nonneg kx.feature q.feature
  have hT' := Vec.dist2_nonneg ky.feature q.feature
  have e : ((2 : ℚ)^64)⁻¹^2 = 8 * (2^131)⁻¹ := by norm_num
  generalize dist2 kx.feature q.feature = X at *
  generalize dist2 ky.feature q.feature = Y at *
  have e2 : (0 : ℚ) < (2^131)⁻¹ := by positivity
  rw [e]
  generalize ((2 : ℚ)^131)⁻¹ = t at *
  have h3 : (992 / 1000) * X ≤ (1008 / 1000) * Y + 2 * t := by linarith
  nlinarith

end Search

open Search Ref Store

/-- C135, full statement: a search for the nearest data returns the nearest: no matching live datum left out is nearer to the query
than one returned.  FALSE of the code. -/
def C135_nearest_statement : Prop :=
  ∀ (E : Env) (dt dt' : Data) (vs : List Visit) (clock : DatumKey → Int64) (q : DatumKey) (config : SearchConfig)
    (c : Collector), E.Ok → Accurate E.o → WF dt.dbMap → IsRange dt.dbMap vs →
    (∀ v ∈ vs, ∀ k, v.entry.datum.key = some k → v.now = clock k) → 0 < config.limit →
    config.scoreFuncName = "VectorDistance" → config.higherIsBetter = false →
    (∀ x ∈ q.feature, finite32 x) → (∀ k v, shows (abs dt.dbMap) clock k v → Tame q k) →
    search E vs dt ⟨some q, none⟩ (some config) = .ok (dt', c) →
    ∀ sd, IsHit E config q (shows (abs dt.dbMap) clock) sd → sd ∉ c.list →
      ∀ x ∈ c.list, trueDist2 q x ≤ trueDist2 q sd

/-- C135, partial: for a query and data of finite numbers not too far from each other, a search returns as many of the matching
live data as possible; in the order returned, none is nearer than an earlier one, and none of those left out is nearer than
one returned, up to one per cent (and 2^-64). -/
theorem C135_nearest_partial (E : Env) (hE : E.Ok) (hA : Accurate E.o) (dt : Data) (vs : List Visit)
    (clock : DatumKey → Int64) (q : DatumKey) (qv : Option DatumValue) (config : SearchConfig)
    (hwf : WF dt.dbMap) (hr : IsRange dt.dbMap vs)
    (hc : ∀ v ∈ vs, ∀ k, v.entry.datum.key = some k → v.now = clock k)
    (hlim : 0 < config.limit) (hname : config.scoreFuncName = "VectorDistance") (hlow : config.higherIsBetter = false)
    (hq : ∀ x ∈ q.feature, finite32 x) (hk : ∀ k v, shows (abs dt.dbMap) clock k v → Tame q k) :
    ∃ dt' c cands rest, search E vs dt ⟨some q, qv⟩ (some config) = .ok (dt', c) ∧
      cands.Nodup ∧ (∀ sd, sd ∈ cands ↔ IsHit E config q (shows (abs dt.dbMap) clock) sd) ∧
      (c.list ++ rest).Perm cands ∧ c.list.length = min config.limit.toNat cands.length ∧
      c.list.Pairwise (nearly q) ∧ ∀ x ∈ c.list, ∀ y ∈ rest, nearly q x y := by
  have hsf : Vec.getVectorComparisonFunction config.scoreFuncName = .vectorDistance := by rw [hname]; decide
  have hscore : ∀ sd, IsHit E config q (shows (abs dt.dbMap) clock) sd → ∃ k, Tame q k ∧
      sd.score = Vec.vectorDistance E.o k.feature q.feature ∧ trueDist2 q sd = dist2 k.feature q.feature ∧ finite64 sd.score := by
    intro sd ⟨k, v, h1, h2, _, h4⟩
    rw [hsf] at h4
    have ht := hk k v h2
    refine ⟨k, ht, h4, by unfold trueDist2; rw [h1]; rfl, ?_⟩
    rw [h4]
    exact (C134_distance_error_partial hA k.feature q.feature ht.finite hq (by have := ht.short; omega)
      (le_trans ht.near (by norm_num))).1
  have hnan : ∀ sd, IsHit E config q (shows (abs dt.dbMap) clock) sd → F64.isNaN sd.score = false := by
    intro sd hsd
    obtain ⟨_, _, _, _, hf⟩ := hscore sd hsd
    rw [SF.finite64_iff, SF.inf64] at hf
    unfold F64.isNaN
    have e : F64.mag sd.score = (SF.un64 sd.score).mag := rfl
    rw [e]
    simp only [decide_eq_false_iff_not]
    omega
  obtain ⟨dt', c, cands, h1, h2, h3, ⟨rest, p1, p2, p3, p4⟩, -⟩ := C22_search_top_k E hE dt vs clock q qv config hwf hr hc hlim hnan
  have hmem : ∀ x ∈ c.list ++ rest, IsHit E config q (shows (abs dt.dbMap) clock) x := fun x hx => (h3 x).1 (p1.mem_iff.1 hx)
  have hnear : ∀ x ∈ c.list ++ rest, ∀ y ∈ c.list ++ rest, better config.higherIsBetter y x = false → nearly q x y := by
    intro x hx y hy hb
    obtain ⟨kx, tx, sx, dx, fx⟩ := hscore x (hmem x hx)
    obtain ⟨ky, ty, sy, dy, fy⟩ := hscore y (hmem y hy)
    unfold nearly
    rw [dx, dy]
    refine nearly_of_le hA hq tx ty ?_
    rw [hlow] at hb
    unfold better at hb
    simp only [Bool.false_eq_true, if_false] at hb
    rw [← sx, ← sy, ← hA.ltD _ _ fy fx, hE.bits.ltD, hb]
    simp
  refine ⟨dt', c, cands, rest, h1, h2, h3, p1, p2, ?_, ?_⟩
  · refine List.Pairwise.imp_of_mem ?_ p3
    intro x y hx hy hb
    exact hnear x (List.mem_append_left _ hx) y (List.mem_append_left _ hy) hb
  · intro x hx y hy
    exact hnear x (List.mem_append_left _ hx) y (List.mem_append_right _ hy) (p4 y hy x hx)

namespace Search
open Gencoder

/-- Some stored vectors. -/
def exVec (f : List F32) : DatumKey := ⟨f, [], 0, 0, 1, 1⟩
def exVecStored (f : List F32) : Bytes × Entry := (encKey (exVec f), ⟨0, ⟨some (exVec f), some ⟨1, [7]⟩⟩⟩)
def exVecVisits (fs : List (List F32)) : List Visit := fs.map fun f => ⟨(exVecStored f).1, (exVecStored f).2, 1000⟩
def exVecData (fs : List (List F32)) : Data := { Data.newData Data.exConfig with dbMap := fs.map exVecStored }

theorem wf_vecs (fs : List (List F32)) (h : fs.Nodup) : WF (fs.map exVecStored) := by
  have hinj : ∀ x y, encKey (exVec x) = encKey (exVec y) → x = y := by
    intro x y hxy
    have := encKey_inj hxy
    simpa [exVec] using this
  refine ⟨⟨?_, ?_⟩, ?_⟩
  · unfold AMap.Nodup AMap.keys
    rw [List.map_map]
    refine List.pairwise_map.2 (h.imp ?_)
    intro a b hab hk
    exact hab (hinj a b hk)
  · intro b e he
    obtain ⟨x, _, hx⟩ := List.mem_map.1 he
    injection hx with h1 h2
    subst h1; subst h2
    exact ⟨_, rfl, rfl⟩
  · intro b e he
    obtain ⟨x, _, hx⟩ := List.mem_map.1 he
    injection hx with h1 h2
    subst h1; subst h2
    exact ⟨_, rfl⟩

theorem range_vecs (fs : List (List F32)) : IsRange (fs.map exVecStored) (exVecVisits fs) := by
  unfold IsRange exVecVisits
  rw [List.map_map]
  exact .refl _

theorem clock_vecs (fs : List (List F32)) : ∀ v ∈ exVecVisits fs, ∀ k, v.entry.datum.key = some k → v.now = (fun _ => 1000) k := by
  intro v hv k _
  obtain ⟨x, _, rfl⟩ := List.mem_map.1 hv
  rfl

theorem shows_vecs {fs : List (List F32)} (h : fs.Nodup) {k : DatumKey} {v : DatumValue}
    (hs : shows (abs (exVecData fs).dbMap) (fun _ => 1000) k v) : ∃ f ∈ fs, k = exVec f := by
  have := (scan_out (wf_vecs fs h) (range_vecs fs) (clock_vecs fs) k v).2 hs
  obtain ⟨e, he, hx⟩ := List.mem_map.1 this
  obtain ⟨w, hw, rfl⟩ := List.mem_map.1 he
  obtain ⟨f, hf, rfl⟩ := List.mem_map.1 (List.mem_filter.1 hw).1
  refine ⟨f, hf, ?_⟩
  simp only [exVecStored, Datum.mk.injEq, Option.some.injEq] at hx
  exact hx.1.symm

/-- The vectors (4096, 1/2) and (4096, 0), seen in this order. -/
def exTwo : List (List F32) := [[0x45800000, 0x3F000000], [0x45800000, 0]]

theorem two_tame : ∀ k v, shows (abs (exVecData exTwo).dbMap) (fun _ => 1000) k v → Tame (exVec [0, 0]) k := by
  intro k v h
  obtain ⟨f, hf, rfl⟩ := shows_vecs (by decide) h
  have h0 : binary32 0 = 0 := by decide +kernel
  have h1 : binary32 0x45800000 = 4096 := by decide +kernel
  have h2 : binary32 0x3F000000 = 1 / 2 := by decide +kernel
  simp only [exTwo, List.mem_cons, List.not_mem_nil, or_false] at hf
  rcases hf with rfl | rfl
  · refine ⟨?_, by decide, ?_⟩
    · unfold exVec finite32; decide
    · simp only [exVec, dist2, h0, h1, h2]; norm_num
  · refine ⟨?_, by decide, ?_⟩
    · unfold exVec finite32; decide
    · simp only [exVec, dist2, h0, h1]; norm_num

theorem two_answer : ∃ dt' c, search exEnv (exVecVisits exTwo) (exVecData exTwo) ⟨some (exVec [0, 0]), none⟩
    (some { defaultSearchConfig with limit := 1 }) = .ok (dt', c) ∧
    c.list = [⟨0x40B0000000000000, ⟨some (exVec [0x45800000, 0x3F000000]), some ⟨1, [7]⟩⟩⟩] :=
  listOf_some (by decide +kernel)

end Search

/-- C135, counterexample: with the query (0, 0), the vector (4096, 1/2) is returned and (4096, 0) is not: in single precision
4096² + 1/4 is 4096². -/
theorem C135_nearest_fails : ¬ C135_nearest_statement := by
  intro h
  obtain ⟨dt', c, h1, h2⟩ := two_answer
  have hwf : WF (exVecData exTwo).dbMap := wf_vecs exTwo (by decide)
  have hq : ∀ x ∈ (exVec [0, 0]).feature, finite32 x := by unfold exVec finite32; decide
  have := h exEnv (exVecData exTwo) dt' (exVecVisits exTwo) (fun _ => 1000) (exVec [0, 0])
    { defaultSearchConfig with limit := 1 } c exEnv_ok (SF.accurate id) hwf (range_vecs exTwo) (clock_vecs exTwo) (by decide) rfl rfl
    hq two_tame h1 ⟨0x40B0000000000000, ⟨some (exVec [0x45800000, 0]), some ⟨1, [7]⟩⟩⟩ ?_ ?_
    ⟨0x40B0000000000000, ⟨some (exVec [0x45800000, 0x3F000000]), some ⟨1, [7]⟩⟩⟩ (by rw [h2]; simp)
  · have h0 : binary32 0 = 0 := by decide +kernel
    have h1 : binary32 0x45800000 = 4096 := by decide +kernel
    have h2 : binary32 0x3F000000 = 1 / 2 := by decide +kernel
    simp only [trueDist2, exVec, Option.map_some, Option.getD_some, dist2, h0, h1, h2] at this
    norm_num at this
  · refine ⟨exVec [0x45800000, 0], ⟨1, [7]⟩, rfl, ?_, by simp [Passes, defaultSearchConfig], ?_⟩
    · refine (scan_out hwf (range_vecs exTwo) (clock_vecs exTwo) _ _).1 ?_
      simp [exVecVisits, exTwo, liveEntries, exVecStored, isExpired]
    · decide +kernel
  · rw [h2]; decide +kernel

/-- C135: the hypotheses are met by the two vectors above and by the query (0, 0). -/
theorem C135_example : exEnv.Ok ∧ Accurate exEnv.o ∧ WF (exVecData exTwo).dbMap ∧ IsRange (exVecData exTwo).dbMap (exVecVisits exTwo) ∧
    (∀ k v, shows (abs (exVecData exTwo).dbMap) (fun _ => 1000) k v → Tame (exVec [0, 0]) k) ∧
    ∃ v, shows (abs (exVecData exTwo).dbMap) (fun _ => 1000) (exVec [0x45800000, 0]) v :=
  ⟨exEnv_ok, SF.accurate id, wf_vecs exTwo (by decide), range_vecs exTwo, two_tame, ⟨1, [7]⟩,
    (scan_out (wf_vecs exTwo (by decide)) (range_vecs exTwo) (clock_vecs exTwo) _ _).1 (by
      simp [exVecVisits, exTwo, liveEntries, exVecStored, isExpired])⟩

end Veri
