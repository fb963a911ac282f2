import Verif.Cluster.EndToEnd
import Verif.Search.Ranking
/-
Searches over several nodes by cosine, inner product and angle: the order of the results by their true values (C146, C171, C172).
-/
set_option autoImplicit false
namespace Veri
set_option exponentiation.threshold 4000
open Clu Search Agg Ref Store Gencoder

namespace Clu

/-- The results of a search over several nodes where higher is better, by true values `T` of which the scores are accurate to `D`. -/
theorem ranked_cluster (E : Env) (config : SearchConfig) (q : DatumKey) (qv : Option DatumValue) (sites : List Site)
    (found out : List ScoredDatum) (hE : E.Ok) (hA : Accurate E.o) (hl : 0 < config.limit) (hg : config.groupLimit = 0)
    (hname : Vec.isAnnoyName config.scoreFuncName = false) (hhigh : config.higherIsBetter = true) (hok : ∀ s ∈ sites, s.Ok)
    (T D : ScoredDatum → ℝ)
    (hscore : ∀ x s, s ∈ sites → ∀ k v, x.datum = ⟨some k, some v⟩ → shows (abs s.dt.dbMap) s.clock k v →
      x.score = (Vec.getVectorComparisonFunction config.scoreFuncName).eval E.o k.feature q.feature →
      finite64 x.score ∧ |(binary64 x.score : ℝ) - T x| ≤ D x)
    (h : SearchOut E config none [⟨some q, qv⟩] [(sites, found)] out) :
    ∃ cands rest, OnePerKey (IsHitIn E config q (shelves sites)) cands ∧ (out ++ rest).Perm cands ∧
      out.length = min (asked config) cands.length ∧
      out.Pairwise (fun x y => T y ≤ T x + (D x + D y)) ∧ ∀ x ∈ out, ∀ y ∈ rest, T y ≤ T x + (D x + D y) := by
  have hscore' : ∀ x, IsHitIn E config q (shelves sites) x → finite64 x.score ∧ |(binary64 x.score : ℝ) - T x| ≤ D x := by
    intro x hx
    obtain ⟨s, hs, k, v, h1, h2, _, h4⟩ := (sitesHit_iff E config q sites x).2 hx
    exact hscore x s hs k v h1 h2 h4
  obtain ⟨cands, hc, ht⟩ := C95_cluster_search_partial E config q qv sites found out hE hl hg hname hok
    (fun x hx => not_nan (hscore' x hx).1) [] (Or.inl hhigh) h
  obtain ⟨rest, h1⟩ := ranked_topk hE hA (fun x y => T y ≤ T x + (D x + D y)) hc.1 (fun x hx => (hscore' x hx).1) (by
    intro x y hx hy h
    rw [hhigh] at h
    simp only [if_true] at h
    have h' : (binary64 y.score : ℝ) ≤ (binary64 x.score : ℝ) := by exact_mod_cast h
    have h1 := abs_le.1 (hscore' x hx).2
    have h2 := abs_le.1 (hscore' y hy).2
    linarith) ht
  exact ⟨cands, rest, hc, h1⟩

end Clu

/-- C146, by the number of components: up to `2 (5n + 20) / 2^24` of the cosine. -/
theorem C146_cluster_similar_error_partial (E : Env) (config : SearchConfig) (q : DatumKey) (qv : Option DatumValue) (sites : List Site)
    (found out : List ScoredDatum) (hE : E.Ok) (hA : Accurate E.o) (hl : 0 < config.limit) (hg : config.groupLimit = 0)
    (hname : config.scoreFuncName = "CosineSimilarity") (hhigh : config.higherIsBetter = true) (hok : ∀ s ∈ sites, s.Ok)
    (n : ℕ) (hn : n ≤ 2^15)
    (hq : OrdinaryOf n q.feature) (hk : ∀ s ∈ sites, ∀ k v, shows (abs s.dt.dbMap) s.clock k v → OrdinaryOf n k.feature)
    (h : SearchOut E config none [⟨some q, qv⟩] [(sites, found)] out) :
    ∃ cands rest, OnePerKey (IsHitIn E config q (shelves sites)) cands ∧ (out ++ rest).Perm cands ∧
      out.length = min (asked config) cands.length ∧
      out.Pairwise (fun x y => trueCosine q y ≤ trueCosine q x + (cosError n + cosError n)) ∧
      ∀ x ∈ out, ∀ y ∈ rest, trueCosine q y ≤ trueCosine q x + (cosError n + cosError n) := by
  have hsf : Vec.getVectorComparisonFunction config.scoreFuncName = .cosineSimilarity := by rw [hname]; decide
  refine ranked_cluster E config q qv sites found out hE hA hl hg (by rw [hname]; decide) hhigh hok (trueCosine q) (fun _ => cosError n)
    ?_ h
  intro x s hs k v h1 h2 h4
  rw [hsf] at h4
  have ht := hk s hs k v h2
  have := C138_cosine_error_partial hA k.feature q.feature ht.finite hq.finite n hn ht.short hq.short ht.usual hq.usual
  unfold trueCosine
  rw [h4, h1]
  exact this

/-- C171, over several nodes. -/
theorem C171_cluster_partial (E : Env) (config : SearchConfig) (q : DatumKey) (qv : Option DatumValue) (sites : List Site)
    (found out : List ScoredDatum) (hE : E.Ok) (hA : Accurate E.o) (hl : 0 < config.limit) (hg : config.groupLimit = 0)
    (hname : config.scoreFuncName = "VectorMultiplication") (hhigh : config.higherIsBetter = true) (hok : ∀ s ∈ sites, s.Ok)
    (hq : ∀ x ∈ q.feature, finite32 x) (hk : ∀ s ∈ sites, ∀ k v, shows (abs s.dt.dbMap) s.clock k v → Fits q k)
    (h : SearchOut E config none [⟨some q, qv⟩] [(sites, found)] out) :
    ∃ cands rest, OnePerKey (IsHitIn E config q (shelves sites)) cands ∧ (out ++ rest).Perm cands ∧
      out.length = min (asked config) cands.length ∧
      out.Pairwise (asLarge q) ∧ ∀ x ∈ out, ∀ y ∈ rest, asLarge q x y := by
  have hsf : Vec.getVectorComparisonFunction config.scoreFuncName = .vectorMultiplication := by rw [hname]; decide
  obtain ⟨cands, rest, g1, g2, g3, g4, g5⟩ := ranked_cluster E config q qv sites found out hE hA hl hg (by rw [hname]; decide) hhigh hok
    (fun x => (trueDot q x : ℝ)) (fun x => (errorOf q x : ℝ)) (by
      intro x s hs k v h1 h2 h4
      rw [hsf] at h4
      have ht := hk s hs k v h2
      obtain ⟨f, e⟩ := C137_product_error_partial hA k.feature q.feature ht.finite hq (by have := ht.short; omega) ht.small
      have e1 : trueDot q x = dot k.feature q.feature := by unfold trueDot; rw [h1]; rfl
      have e2 : errorOf q x = dotError k.feature q.feature := by unfold errorOf; rw [h1]; rfl
      rw [h4, e1, e2]
      refine ⟨f, ?_⟩
      unfold dotError
      exact_mod_cast e) h
  refine ⟨cands, rest, g1, g2, g3, g4.imp ?_, fun x hx y hy => ?_⟩
  · intro x y hxy
    unfold asLarge
    exact_mod_cast hxy
  · have := g5 x hx y hy
    unfold asLarge
    exact_mod_cast this

/-- C172, over several nodes. -/
theorem C172_cluster_partial (E : Env) (config : SearchConfig) (q : DatumKey) (qv : Option DatumValue) (sites : List Site)
    (found out : List ScoredDatum) (hE : E.Ok) (hA : Accurate E.o) (hB : AccurateAcos E.o) (hl : 0 < config.limit)
    (hg : config.groupLimit = 0)
    (hname : config.scoreFuncName = "AngularDistance") (hhigh : config.higherIsBetter = true) (hok : ∀ s ∈ sites, s.Ok)
    (n : ℕ) (hn : n ≤ 2^15)
    (hq : OrdinaryOf n q.feature) (hk : ∀ s ∈ sites, ∀ k v, shows (abs s.dt.dbMap) s.clock k v → OrdinaryOf n k.feature)
    (h : SearchOut E config none [⟨some q, qv⟩] [(sites, found)] out) :
    ∃ cands rest, OnePerKey (IsHitIn E config q (shelves sites)) cands ∧ (out ++ rest).Perm cands ∧
      out.length = min (asked config) cands.length ∧
      out.Pairwise (fun x y => trueAngular q y ≤ trueAngular q x + ((√(cosError n / 2) + 1 / 100000) + (√(cosError n / 2) + 1 / 100000))) ∧
      ∀ x ∈ out, ∀ y ∈ rest, trueAngular q y ≤ trueAngular q x + ((√(cosError n / 2) + 1 / 100000) + (√(cosError n / 2) + 1 / 100000)) := by
  have hsf : Vec.getVectorComparisonFunction config.scoreFuncName = .angularDistance := by rw [hname]; decide
  refine ranked_cluster E config q qv sites found out hE hA hl hg (by rw [hname]; decide) hhigh hok (trueAngular q)
    (fun _ => √(cosError n / 2) + 1 / 100000) ?_ h
  intro x s hs k v h1 h2 h4
  rw [hsf] at h4
  have ht := hk s hs k v h2
  have := C141_angular_error_partial hA hB k.feature q.feature ht.finite hq.finite n hn ht.short hq.short ht.usual hq.usual
  unfold trueAngular
  rw [h4, h1]
  exact this

/-- C171, C146: of two nodes one stores (0, 1), the other (1, 0); they meet the hypotheses, and the search for the largest product with
(1, 0) returns (1, 0). -/
theorem C171_cluster_example : exEnv.Ok ∧ Accurate exEnv.o ∧ (∀ s ∈ [exVecSite [exAxis1], exVecSite [exAxis0]], s.Ok) ∧
    OrdinaryOf 2 (exVec exAxis0).feature ∧
    (∀ s ∈ [exVecSite [exAxis1], exVecSite [exAxis0]], ∀ k v, shows (abs s.dt.dbMap) s.clock k v →
      OrdinaryOf 2 k.feature ∧ Fits (exVec exAxis0) k) ∧
    SearchOut exEnv exDotConfig none [⟨some (exVec exAxis0), none⟩]
      [([exVecSite [exAxis1], exVecSite [exAxis0]], [exVecFound F64.one exAxis0])] [exVecFound F64.one exAxis0] := by
  have h0 : OrdinaryOf 2 exAxis0 := by
    refine ⟨by unfold exAxis0 finite32; decide, by decide, Or.inr ?_⟩
    unfold norm2
    simp only [exAxis0, dot, v1, v0]
    norm_num
  have h1 : OrdinaryOf 2 exAxis1 := by
    refine ⟨by unfold exAxis1 finite32; decide, by decide, Or.inr ?_⟩
    unfold norm2
    simp only [exAxis1, dot, v1, v0]
    norm_num
  refine ⟨exEnv_ok, SF.accurate id, ?_, h0, ?_, ?_⟩
  · intro s hs
    simp only [List.mem_cons, List.not_mem_nil, or_false] at hs
    rcases hs with rfl | rfl <;> exact exVecSite_ok _ (by decide)
  · intro s hs k v hk
    simp only [List.mem_cons, List.not_mem_nil, or_false] at hs
    rcases hs with rfl | rfl
    · obtain ⟨f, hf, rfl⟩ := shows_vecs (by decide) hk
      rw [List.mem_singleton.1 hf]
      refine ⟨h1, h1.finite, by decide, ?_⟩
      simp only [exVec, exAxis0, exAxis1, absDot, v1, v0]
      norm_num
    · obtain ⟨f, hf, rfl⟩ := shows_vecs (by decide) hk
      rw [List.mem_singleton.1 hf]
      refine ⟨h0, h0.finite, by decide, ?_⟩
      simp only [exVec, exAxis0, absDot, v1, v0]
      norm_num
  · refine exVecSearch _ _ _ _ [exVecFound 0 exAxis1] [exVecFound F64.one exAxis0] _ [exVecFound F64.one exAxis0] _
      (by decide +kernel) (by decide +kernel) ?_ ?_ ?_
    · intro got hp
      rw [List.perm_singleton.1 hp]
      refine ⟨[exVecFound F64.one exAxis0], outOf_some (by decide +kernel), fun got' hp' => ?_⟩
      rw [List.perm_singleton.1 hp']
      exact outOf_some (by decide +kernel)
    · intro got hp
      rcases perm_pair hp with rfl | rfl <;> exact outOf_some (by decide +kernel)
    · intro got hp
      rw [List.perm_singleton.1 hp]
      exact outOf_some (by decide +kernel)

/-- C172: of two nodes one stores (1, 0), the other nothing; the search for the nearest direction to (1, 0) returns (1, 0). -/
theorem C172_cluster_example : SearchOut exAngEnv exAngConfig none [⟨some (exVec exAxis0), none⟩]
    [([exVecSite [], exVecSite [exAxis0]], [exVecFound F64.one exAxis0])] [exVecFound F64.one exAxis0] := by
  refine exVecSearch _ _ _ _ [] [exVecFound F64.one exAxis0] _ [exVecFound F64.one exAxis0] _
      (by decide +kernel) (by decide +kernel) ?_ ?_ ?_
  · intro got hp
    rw [List.perm_singleton.1 hp]
    refine ⟨[exVecFound F64.one exAxis0], outOf_some (by decide +kernel), fun got' hp' => ?_⟩
    rw [List.perm_singleton.1 hp']
    exact outOf_some (by decide +kernel)
  · intro got hp
    rw [List.perm_singleton.1 hp]
    exact outOf_some (by decide +kernel)
  · intro got hp
    rw [List.perm_singleton.1 hp]
    exact outOf_some (by decide +kernel)

end Veri
