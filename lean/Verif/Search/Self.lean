import Verif.Cluster.Search
import Verif.Search.Nearest
/-
A search for a stored vector at a lone node (C143), and a lone node's search in the direction "lower is better" (C95).
-/
set_option autoImplicit false
namespace Veri
set_option exponentiation.threshold 4000
open Clu Search Agg Ref Store

namespace Clu

/-- A client's search for the point 0 at a lone node. -/
theorem exAlone (config : SearchConfig) (xs : List F32) (a found out : List ScoredDatum)
    (ha : exOwn exEnv config xs = some a)
    (h2 : ∀ got : List ScoredDatum, got.Perm a → flatMerge exEnv config none got = .ok found)
    (h3 : ∀ got : List ScoredDatum, got.Perm found → multiMerge exEnv config none id got = .ok out) :
    SearchOut exEnv config none [⟨some (exPoint 0), none⟩] [([exSite xs], found)] out := by
  obtain ⟨da, ha⟩ := exOwn_some ha
  obtain ⟨g3, c3⟩ := collects_exists [a]
  have hagg : AggOut exEnv ⟨some (exPoint 0), none⟩ config [exSite xs] found :=
    .node config (exSite xs) da a [] g3 found ha (by simp) (by simp) (by simp) (by simp) c3 (h2 g3 (collects_one c3))
  obtain ⟨g4, c4⟩ := collects_exists [found]
  refine ⟨rfl, ?_, g4, id, c4, fun m => .refl m, h3 g4 (collects_one c4)⟩
  intro p hp
  simp only [List.zip_cons_cons, List.zip_nil_right, List.mem_singleton] at hp
  subst hp
  exact hagg

end Clu

/-- C95, lone node: a node with points at the distances 1 and 2, limit 1, smaller distances first: the nearer one. -/
theorem C95_alone_example : (exSite [0x40000000, 0x3F800000]).Ok ∧
    SearchOut exEnv exNearest none [⟨some (exPoint 0), none⟩]
      [([exSite [0x40000000, 0x3F800000]], [exFound F64.one 0x3F800000])] [exFound F64.one 0x3F800000] := by
  refine ⟨exSite_ok _ (by decide), exAlone _ _ [exFound F64.one 0x3F800000] _ _ (by decide +kernel) ?_ ?_⟩
  · intro got hp
    rw [List.perm_singleton.1 hp]
    exact outOf_some (by decide +kernel)
  · intro got hp
    rw [List.perm_singleton.1 hp]
    exact outOf_some (by decide +kernel)

/-- C143, full statement: a search by distance for a vector that the node stores returns this vector first.  FALSE of the code. -/
def C143_finds_itself_statement : Prop :=
  ∀ (E : Env) (config : SearchConfig) (q : DatumKey) (qv : Option DatumValue) (site : Site) (found out : List ScoredDatum),
    E.Ok → Accurate E.o → 0 < config.limit → config.groupLimit = 0 → config.scoreFuncName = "VectorDistance" →
    config.higherIsBetter = false → site.Ok →
    (∃ v, shows (abs site.dt.dbMap) site.clock q v ∧ Passes E.jsonHas config ⟨some q, some v⟩) →
    (∀ k v, shows (abs site.dt.dbMap) site.clock k v → Tame q k) →
    SearchOut E config none [⟨some q, qv⟩] [([site], found)] out →
    ∃ x rest, out = x :: rest ∧ x.datum.key = some q

/-- C143, partial: it does if the other stored vectors are at true distances between 2^-60 and 2^62 from it; and then the score
is zero. -/
theorem C143_finds_itself_partial (E : Env) (config : SearchConfig) (q : DatumKey) (qv : Option DatumValue) (site : Site)
    (found out : List ScoredDatum) (hE : E.Ok) (hA : Accurate E.o) (hl : 0 < config.limit) (hg : config.groupLimit = 0)
    (hname : config.scoreFuncName = "VectorDistance") (hlow : config.higherIsBetter = false) (hok : site.Ok)
    (v : DatumValue) (hq : shows (abs site.dt.dbMap) site.clock q v) (hpass : Passes E.jsonHas config ⟨some q, some v⟩)
    (hk : ∀ k v, shows (abs site.dt.dbMap) site.clock k v → Tame q k)
    (hsep : ∀ k v, shows (abs site.dt.dbMap) site.clock k v → k = q ∨ (2^60)⁻¹^2 ≤ dist2 k.feature q.feature)
    (h : SearchOut E config none [⟨some q, qv⟩] [([site], found)] out) :
    ∃ x rest, out = x :: rest ∧ x.datum = ⟨some q, some v⟩ ∧ binary64 x.score = 0 := by
  have hsf : Vec.getVectorComparisonFunction config.scoreFuncName = .vectorDistance := by rw [hname]; decide
  have hfin : ∀ k v, shows (abs site.dt.dbMap) site.clock k v → ∀ x ∈ k.feature, finite32 x := fun k v h => (hk k v h).finite
  have hself : dist2 q.feature q.feature = 0 := by
    generalize q.feature = f
    induction f with
    | nil => rfl
    | cons a l ih => simp [dist2, ih]
  -- the score of every hit
  have hscore : ∀ x, IsHitIn E config q (shelves [site]) x → ∃ k w, x.datum = ⟨some k, some w⟩ ∧
      shows (abs site.dt.dbMap) site.clock k w ∧ finite64 x.score ∧ 0 ≤ binary64 x.score ∧
      (99 / 100)^2 * dist2 k.feature q.feature ≤ binary64 x.score^2 ∧ binary64 x.score^2 ≤ (101 / 100)^2 * dist2 k.feature q.feature := by
    intro x hx
    obtain ⟨s, hs, k, w, h1, h2, _, h4⟩ := (sitesHit_iff E config q [site] x).2 hx
    rw [List.mem_singleton.1 hs] at h2
    rw [hsf] at h4
    have hT := hk k w h2
    have hd : dist2 k.feature q.feature = 0 ∨ (2^60)⁻¹^2 ≤ dist2 k.feature q.feature ∧ dist2 k.feature q.feature ≤ (2^62)^2 := by
      rcases hsep k w h2 with e | e
      · left; rw [e]; exact hself
      · exact Or.inr ⟨e, hT.near⟩
    have hc := C134_distance_accurate_partial hA k.feature q.feature (hfin k w h2) (hfin q v hq)
      (by have := hT.short; omega) hd
    have e : x.score = Vec.vectorDistance E.o k.feature q.feature := h4
    rw [← e] at hc
    exact ⟨k, w, h1, h2, hc⟩
  have hnan : ∀ x, IsHitIn E config q (shelves [site]) x → F64.isNaN x.score = false := by
    intro x hx
    obtain ⟨_, _, _, _, hf, _⟩ := hscore x hx
    rw [SF.finite64_iff, SF.inf64] at hf
    unfold F64.isNaN
    have e : F64.mag x.score = (SF.un64 x.score).mag := rfl
    rw [e]
    simp only [decide_eq_false_iff_not]
    omega
  obtain ⟨cands, ⟨c1, c2, c3⟩, rest, p1, p2, p3, p4⟩ := C95_alone_partial E config q qv site found out hE hl hg
    (by rw [hname]; decide) hok hnan h
  -- the query itself is a candidate
  have hme : IsHitIn E config q (shelves [site]) ⟨Vec.vectorDistance E.o q.feature q.feature, ⟨some q, some v⟩⟩ := by
    refine (sitesHit_iff E config q [site] _).1 ⟨site, by simp, q, v, rfl, hq, hpass, ?_⟩
    rw [hsf]; rfl
  have hzero : ∀ x, IsHitIn E config q (shelves [site]) x → x.datum.key = some q → binary64 x.score = 0 ∧ x.datum = ⟨some q, some v⟩ := by
    intro x hx hxk
    obtain ⟨k, w, h1, h2, _, h4, _, h6⟩ := hscore x hx
    rw [h1] at hxk
    injection hxk with hxk
    subst hxk
    rw [hself] at h6
    have hw : w = v := by
      obtain ⟨a, a1, _, a2⟩ := h2
      obtain ⟨b, b1, _, b2⟩ := hq
      rw [a1] at b1
      injection b1 with b1
      rw [← a2, ← b2, b1]
    subst hw
    refine ⟨?_, h1⟩
    have : binary64 x.score^2 = 0 := le_antisymm (by simpa using h6) (sq_nonneg _)
    exact pow_eq_zero_iff (two_ne_zero) |>.1 this
  obtain ⟨y, hy, hyk⟩ := c3 _ hme
  have hy0 := hzero y (c1 y hy) hyk
  have hlen : 0 < out.length := by
    have e : 0 < cands.length := List.length_pos_of_mem hy
    have h1 : 0 < config.limit.toNat := by have := UInt32.lt_iff_toNat_lt.1 hl; simpa using this
    have : 0 < Ref.asked config := by
      unfold Ref.asked
      split
      · exact h1
      · rename_i hr
        have : config.resultLimit.toNat ≠ 0 := fun e => hr (UInt64.toNat_inj.1 (e.trans UInt64.toNat_zero.symm))
        omega
    rw [p2]; omega
  match out, hlen, p1, p3, p4 with
  | x :: tl, _, p1, p3, p4 =>
  refine ⟨x, tl, rfl, ?_⟩
  have hx : IsHitIn E config q (shelves [site]) x := c1 x (p1.mem_iff.1 (by simp))
  -- the first is at least as near as the query itself
  have hb : F64.lt y.score x.score = false := by
    rcases List.mem_append.1 (p1.mem_iff.2 hy) with hm | hm
    · rcases List.mem_cons.1 hm with rfl | hm
      · exact F64.lt_irrefl _
      · have := (List.pairwise_cons.1 p3).1 y hm
        rw [hlow] at this
        simpa [better] using this
    · have := p4 y hm x (by simp)
      rw [hlow] at this
      simpa [better] using this
  obtain ⟨k, w, h1, h2, h3, h4, h5, h6⟩ := hscore x hx
  obtain ⟨_, _, _, _, hyf, _⟩ := hscore y (c1 y hy)
  have hle : ¬ binary64 y.score < binary64 x.score := by
    rw [← hA.ltD _ _ hyf h3, hE.bits.ltD, hb]
    simp
  rw [hy0.1] at hle
  have hx0 : binary64 x.score = 0 := le_antisymm (not_lt.1 hle) h4
  have hkq : k = q := by
    rcases hsep k w h2 with e | e
    · exact e
    · exfalso
      rw [hx0] at h5
      have : (0 : ℚ) < (2^60)⁻¹^2 := by positivity
      nlinarith
  subst hkq
  exact ⟨(hzero x hx (by rw [h1])).2, hx0⟩

namespace Search

/-- The points 2^-80 and 0, seen in this order. -/
def exTiny : List F32 := [0x17800000, 0]

theorem tiny_tame : ∀ k v, shows (abs (exSite exTiny).dt.dbMap) (exSite exTiny).clock k v → Tame (exPoint 0) k := by
  intro k v h
  have hk := (scan_out (exSite_ok exTiny (by decide)).wf (exSite_ok exTiny (by decide)).range (exSite_ok exTiny (by decide)).clock k v).2 h
  rw [show (exSite exTiny).vs = exVisits exTiny from rfl, exLive] at hk
  obtain ⟨y, hy, hyk⟩ := List.mem_map.1 hk
  injection hyk with e1 e2
  injection e1 with e1
  subst e1
  have h0 : binary32 0 = 0 := by decide +kernel
  have h1 : binary32 0x17800000 = 1 / 2^80 := by decide +kernel
  simp only [exTiny, List.mem_cons, List.not_mem_nil, or_false] at hy
  rcases hy with rfl | rfl
  · refine ⟨?_, by decide, ?_⟩
    · unfold exPoint finite32; decide
    · simp only [exPoint, dist2, h0, h1]; norm_num
  · refine ⟨?_, by decide, ?_⟩
    · unfold exPoint finite32; decide
    · simp only [exPoint, dist2, h0]; norm_num

theorem tiny_shows : shows (abs (exSite exTiny).dt.dbMap) (exSite exTiny).clock (exPoint 0) ⟨1, [7]⟩ := by
  refine (scan_out (exSite_ok exTiny (by decide)).wf (exSite_ok exTiny (by decide)).range (exSite_ok exTiny (by decide)).clock _ _).1 ?_
  rw [show (exSite exTiny).vs = exVisits exTiny from rfl, exLive]
  exact List.mem_map_of_mem (by decide)

theorem tiny_out : SearchOut exEnv exNearest none [⟨some (exPoint 0), none⟩]
    [([exSite exTiny], [exFound 0 0x17800000])] [exFound 0 0x17800000] := by
  refine exAlone _ _ [exFound 0 0x17800000] _ _ (by decide +kernel) ?_ ?_
  · intro got hp
    rw [List.perm_singleton.1 hp]
    exact outOf_some (by decide +kernel)
  · intro got hp
    rw [List.perm_singleton.1 hp]
    exact outOf_some (by decide +kernel)

end Search

/-- C143, counterexample: the points 2^-80 and 0 are stored; a search for the nearest to 0 returns 2^-80, because the square of
the difference is zero in single precision. -/
theorem C143_finds_itself_fails : ¬ C143_finds_itself_statement := by
  intro h
  obtain ⟨x, rest, h1, h2⟩ := h exEnv exNearest (exPoint 0) none (exSite exTiny) _ _ exEnv_ok (SF.accurate id) (by decide) rfl rfl rfl
    (exSite_ok _ (by decide)) ⟨_, tiny_shows, by simp [Passes, exNearest, defaultSearchConfig]⟩ tiny_tame tiny_out
  injection h1 with h1 _
  subst h1
  exact absurd h2 (by decide)

/-- C143: the points 1 and 0 are stored; they meet the hypotheses, and a search for the nearest to 0 returns 0. -/
theorem C143_example : exEnv.Ok ∧ Accurate exEnv.o ∧ (exSite [0x3F800000, 0]).Ok ∧
    (∀ k v, shows (abs (exSite [0x3F800000, 0]).dt.dbMap) (exSite [0x3F800000, 0]).clock k v →
      Tame (exPoint 0) k ∧ (k = exPoint 0 ∨ (2^60)⁻¹^2 ≤ dist2 k.feature (exPoint 0).feature)) ∧
    shows (abs (exSite [0x3F800000, 0]).dt.dbMap) (exSite [0x3F800000, 0]).clock (exPoint 0) ⟨1, [7]⟩ ∧
    SearchOut exEnv exNearest none [⟨some (exPoint 0), none⟩] [([exSite [0x3F800000, 0]], [exFound 0 0])] [exFound 0 0] := by
  have hok := exSite_ok [0x3F800000, 0] (by decide)
  refine ⟨exEnv_ok, SF.accurate id, hok, ?_, ?_, ?_⟩
  · intro k v h
    have hk := (scan_out hok.wf hok.range hok.clock k v).2 h
    rw [show (exSite [0x3F800000, 0]).vs = exVisits [0x3F800000, 0] from rfl, exLive] at hk
    obtain ⟨y, hy, hyk⟩ := List.mem_map.1 hk
    injection hyk with e1 e2
    injection e1 with e1
    subst e1
    have h0 : binary32 0 = 0 := by decide +kernel
    have h1 : binary32 0x3F800000 = 1 := by decide +kernel
    simp only [List.mem_cons, List.not_mem_nil, or_false] at hy
    rcases hy with rfl | rfl
    · refine ⟨⟨?_, by decide, ?_⟩, Or.inr ?_⟩
      · unfold exPoint finite32; decide
      · simp only [exPoint, dist2, h0, h1]; norm_num
      · simp only [exPoint, dist2, h0, h1]; norm_num
    · refine ⟨⟨?_, by decide, ?_⟩, Or.inl rfl⟩
      · unfold exPoint finite32; decide
      · simp only [exPoint, dist2, h0]; norm_num
  · refine (scan_out hok.wf hok.range hok.clock _ _).1 ?_
    rw [show (exSite [0x3F800000, 0]).vs = exVisits [0x3F800000, 0] from rfl, exLive]
    exact List.mem_map_of_mem (by decide)
  · refine exAlone _ _ [exFound 0 0] _ _ (by decide +kernel) ?_ ?_
    · intro got hp
      rw [List.perm_singleton.1 hp]
      exact outOf_some (by decide +kernel)
    · intro got hp
      rw [List.perm_singleton.1 hp]
      exact outOf_some (by decide +kernel)

end Veri
