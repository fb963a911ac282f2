import Verif.Search.Self
import Verif.Search.Similar
import Verif.Store.Props
/-
From the insert to the answer: a search over several nodes by cosine similarity (C146), and a vector that was inserted is found
(C147).
-/
set_option autoImplicit false
namespace Veri
set_option exponentiation.threshold 4000
open Clu Search Agg Ref Store Gencoder

namespace Clu

/-- The order of the results of a search, by the values of the scores. -/
theorem ranked_topk {E : Env} (hE : E.Ok) (hA : Accurate E.o) {b : Bool} {K : Nat} {hit : ScoredDatum → Prop}
    {cands out : List ScoredDatum} (R : ScoredDatum → ScoredDatum → Prop) (hc : ∀ x ∈ cands, hit x)
    (hfin : ∀ x, hit x → finite64 x.score)
    (hR : ∀ x y, hit x → hit y → (if b then binary64 y.score ≤ binary64 x.score else binary64 x.score ≤ binary64 y.score) → R x y)
    (h : IsTopK (better b) K cands out) :
    ∃ rest, (out ++ rest).Perm cands ∧ out.length = min K cands.length ∧ out.Pairwise R ∧ ∀ x ∈ out, ∀ y ∈ rest, R x y := by
  obtain ⟨rest, p1, p2, p3, p4⟩ := h
  have hmem : ∀ x ∈ out ++ rest, hit x := fun x hx => hc x (p1.mem_iff.1 hx)
  have hnear : ∀ x ∈ out ++ rest, ∀ y ∈ out ++ rest, better b y x = false → R x y := by
    intro x hx y hy hb
    have fx := hfin x (hmem x hx)
    have fy := hfin y (hmem y hy)
    refine hR x y (hmem x hx) (hmem y hy) ?_
    unfold better at hb
    cases b with
    | true =>
      simp only [if_true] at hb ⊢
      rw [← not_lt, ← hA.ltD _ _ fx fy, hE.bits.ltD, hb]
      simp
    | false =>
      simp only [Bool.false_eq_true, if_false] at hb ⊢
      rw [← not_lt, ← hA.ltD _ _ fy fx, hE.bits.ltD, hb]
      simp
  refine ⟨rest, p1, p2, ?_, ?_⟩
  · refine List.Pairwise.imp_of_mem ?_ p3
    intro x y hx hy hb
    exact hnear x (List.mem_append_left _ hx) y (List.mem_append_left _ hy) hb
  · intro x hx y hy
    exact hnear x (List.mem_append_left _ hx) y (List.mem_append_right _ hy) (p4 y hy x hx)

theorem not_nan {x : F64} (hf : finite64 x) : F64.isNaN x = false := by
  rw [SF.finite64_iff, SF.inf64] at hf
  unfold F64.isNaN
  have e : F64.mag x = (SF.un64 x).mag := rfl
  rw [e]
  simp only [decide_eq_false_iff_not]
  omega

end Clu

/-- C146, full statement: a search by cosine similarity over several nodes returns the most similar of the data that they store:
as many as asked for, in descending order, none of those left out more similar than one returned.  FALSE of the code. -/
def C146_cluster_similar_statement : Prop :=
  ∀ (E : Env) (config : SearchConfig) (q : DatumKey) (qv : Option DatumValue) (sites : List Site) (found out : List ScoredDatum),
    E.Ok → Accurate E.o → 0 < config.limit → config.groupLimit = 0 → config.scoreFuncName = "CosineSimilarity" →
    config.higherIsBetter = true → (∀ s ∈ sites, s.Ok) → Ordinary q.feature →
    (∀ s ∈ sites, ∀ k v, shows (abs s.dt.dbMap) s.clock k v → Ordinary k.feature) →
    SearchOut E config none [⟨some q, qv⟩] [(sites, found)] out →
    ∃ cands rest, OnePerKey (IsHitIn E config q (shelves sites)) cands ∧ (out ++ rest).Perm cands ∧
      out.length = min (asked config) cands.length ∧
      out.Pairwise (fun x y => trueCosine q y ≤ trueCosine q x) ∧ ∀ x ∈ out, ∀ y ∈ rest, trueCosine q y ≤ trueCosine q x

/-- C146, partial: up to 1/50 of the cosine. -/
theorem C146_cluster_similar_partial (E : Env) (config : SearchConfig) (q : DatumKey) (qv : Option DatumValue) (sites : List Site)
    (found out : List ScoredDatum) (hE : E.Ok) (hA : Accurate E.o) (hl : 0 < config.limit) (hg : config.groupLimit = 0)
    (hname : config.scoreFuncName = "CosineSimilarity") (hhigh : config.higherIsBetter = true) (hok : ∀ s ∈ sites, s.Ok)
    (hq : Ordinary q.feature) (hk : ∀ s ∈ sites, ∀ k v, shows (abs s.dt.dbMap) s.clock k v → Ordinary k.feature)
    (h : SearchOut E config none [⟨some q, qv⟩] [(sites, found)] out) :
    ∃ cands rest, OnePerKey (IsHitIn E config q (shelves sites)) cands ∧ (out ++ rest).Perm cands ∧
      out.length = min (asked config) cands.length ∧
      out.Pairwise (asSimilar q) ∧ ∀ x ∈ out, ∀ y ∈ rest, asSimilar q x y := by
  have hsf : Vec.getVectorComparisonFunction config.scoreFuncName = .cosineSimilarity := by rw [hname]; decide
  have hscore : ∀ x, IsHitIn E config q (shelves sites) x →
      finite64 x.score ∧ |(binary64 x.score : ℝ) - trueCosine q x| ≤ 1 / 100 := by
    intro x hx
    obtain ⟨s, hs, k, v, h1, h2, _, h4⟩ := (sitesHit_iff E config q sites x).2 hx
    rw [hsf] at h4
    have ht := hk s hs k v h2
    have := C138_cosine_accurate_partial hA k.feature q.feature ht.finite hq.finite ht.short hq.short ht.moderate hq.moderate
    unfold trueCosine
    rw [h4, h1]
    exact this
  obtain ⟨cands, hc, ht⟩ := C95_cluster_search_partial E config q qv sites found out hE hl hg (by rw [hname]; decide) hok
    (fun x hx => not_nan (hscore x hx).1) [] (Or.inl hhigh) h
  obtain ⟨rest, h1⟩ := ranked_topk hE hA (asSimilar q) hc.1 (fun x hx => (hscore x hx).1) (by
    intro x y hx hy h
    rw [hhigh] at h
    simp only [if_true] at h
    have h' : (binary64 y.score : ℝ) ≤ (binary64 x.score : ℝ) := by exact_mod_cast h
    have h1 := abs_le.1 (hscore x hx).2
    have h2 := abs_le.1 (hscore y hy).2
    unfold asSimilar
    linarith) ht
  exact ⟨cands, rest, hc, h1⟩

namespace Clu

/-- A node that stores these vectors. -/
def exVecSite (fs : List (List F32)) : Site := ⟨exVecData fs, exVecVisits fs, [], fun _ => 1000⟩

theorem exVecSite_ok (fs : List (List F32)) (h : fs.Nodup) : (exVecSite fs).Ok := ⟨wf_vecs fs h, range_vecs fs, clock_vecs fs⟩

/-- What such a node sends. -/
def exVecOwn (E : Env) (config : SearchConfig) (q : DatumKey) (fs : List (List F32)) : Option (List ScoredDatum) :=
  match streamSearch E (exVecVisits fs) [] (exVecData fs) ⟨some q, none⟩ (some config) with
  | .ok (_, l) => some l
  | _ => none

theorem exVecOwn_some {E : Env} {config : SearchConfig} {q : DatumKey} {fs : List (List F32)} {l : List ScoredDatum}
    (h : exVecOwn E config q fs = some l) :
    ∃ dt', streamSearch E (exVecSite fs).vs (exVecSite fs).answer (exVecSite fs).dt ⟨some q, none⟩ (some config) = .ok (dt', l) := by
  unfold exVecOwn at h
  show ∃ dt', streamSearch E (exVecVisits fs) [] (exVecData fs) ⟨some q, none⟩ (some config) = .ok (dt', l)
  split at h
  · rename_i dt' l' heq
    injection h with h
    subst h
    exact ⟨_, heq⟩
  · cases h

/-- A client's search at a node that asks one other. -/
theorem exVecSearch {E : Env} (config : SearchConfig) (q : DatumKey) (xs ys : List (List F32)) (a b found sent out : List ScoredDatum)
    (hb : exVecOwn E config q ys = some b) (ha : exVecOwn E config q xs = some a)
    (h1 : ∀ got : List ScoredDatum, got.Perm b → ∃ f, flatMerge E config none got = .ok f ∧
      ∀ got' : List ScoredDatum, got'.Perm f → multiMerge E config none id got' = .ok sent)
    (h2 : ∀ got : List ScoredDatum, got.Perm (a ++ sent) → flatMerge E config none got = .ok found)
    (h3 : ∀ got : List ScoredDatum, got.Perm found → multiMerge E config none id got = .ok out) :
    SearchOut E config none [⟨some q, none⟩] [([exVecSite xs, exVecSite ys], found)] out := by
  obtain ⟨db, hb⟩ := exVecOwn_some hb
  obtain ⟨da, ha⟩ := exVecOwn_some ha
  obtain ⟨g1, c1⟩ := collects_exists [b]
  obtain ⟨f, hf, hm⟩ := h1 g1 (collects_one c1)
  have hpeer : AggOut E ⟨some q, none⟩ config [exVecSite ys] f :=
    .node config (exVecSite ys) db b [] g1 f hb (by simp) (by simp) (by simp) (by simp) c1 hf
  obtain ⟨g2, c2⟩ := collects_exists [f]
  have hsent : MultiOut E config none [f] sent := ⟨g2, id, c2, fun m => .refl m, hm g2 (collects_one c2)⟩
  obtain ⟨g3, c3⟩ := collects_exists [a, sent]
  have hg3 : g3.Perm (a ++ sent) := by
    have := collects_perm c3
    simp only [List.flatten_cons, List.flatten_nil, List.append_nil] at this
    exact this.symm
  have hagg : AggOut E ⟨some q, none⟩ config [exVecSite xs, exVecSite ys] found :=
    .node config (exVecSite xs) da a [⟨config, [exVecSite ys], f, sent⟩] g3 found ha
      (fun p hp => by rw [List.mem_singleton.1 hp]; exact ⟨config.timeout, rfl⟩)
      (fun p hp => by rw [List.mem_singleton.1 hp]; exact hpeer)
      (fun p hp => by rw [List.mem_singleton.1 hp]; exact hsent) (by simp) c3 (h2 g3 hg3)
  obtain ⟨g4, c4⟩ := collects_exists [found]
  refine ⟨rfl, ?_, g4, id, c4, fun m => .refl m, h3 g4 (collects_one c4)⟩
  intro p hp
  simp only [List.zip_cons_cons, List.zip_nil_right, List.mem_singleton] at hp
  subst hp
  exact hagg

/-- A client's search at a lone node. -/
theorem exVecAlone (config : SearchConfig) (q : DatumKey) (xs : List (List F32)) (a found out : List ScoredDatum)
    (ha : exVecOwn exEnv config q xs = some a)
    (h2 : ∀ got : List ScoredDatum, got.Perm a → flatMerge exEnv config none got = .ok found)
    (h3 : ∀ got : List ScoredDatum, got.Perm found → multiMerge exEnv config none id got = .ok out) :
    SearchOut exEnv config none [⟨some q, none⟩] [([exVecSite xs], found)] out := by
  obtain ⟨da, ha⟩ := exVecOwn_some ha
  obtain ⟨g3, c3⟩ := collects_exists [a]
  have hagg : AggOut exEnv ⟨some q, none⟩ config [exVecSite xs] found :=
    .node config (exVecSite xs) da a [] g3 found ha (by simp) (by simp) (by simp) (by simp) c3 (h2 g3 (collects_one c3))
  obtain ⟨g4, c4⟩ := collects_exists [found]
  refine ⟨rfl, ?_, g4, id, c4, fun m => .refl m, h3 g4 (collects_one c4)⟩
  intro p hp
  simp only [List.zip_cons_cons, List.zip_nil_right, List.mem_singleton] at hp
  subst hp
  exact hagg

/-- A hit: the vector `f`, with the score `s`. -/
def exVecFound (s : F64) (f : List F32) : ScoredDatum := ⟨s, ⟨some (exVec f), some ⟨1, [7]⟩⟩⟩

/-- The vectors (1, 0) and (0, 1). -/
def exAxis0 : List F32 := [0x3F800000, 0]
def exAxis1 : List F32 := [0, 0x3F800000]

theorem turned_cluster : SearchOut exEnv exCosConfig none [⟨some (exVec exAxis0), none⟩]
    [([exVecSite exTurned], [exVecFound F64.one [0x45800000, 0x3F800000]])] [exVecFound F64.one [0x45800000, 0x3F800000]] := by
  refine exVecAlone _ _ _ [exVecFound F64.one [0x45800000, 0x3F800000]] _ _ (by decide +kernel) ?_ ?_
  · intro got hp
    rw [List.perm_singleton.1 hp]
    exact outOf_some (by decide +kernel)
  · intro got hp
    rw [List.perm_singleton.1 hp]
    exact outOf_some (by decide +kernel)

end Clu

/-- C146, counterexample: a node stores (4096, 1) and (1, 0); a search for the most similar to (1, 0) returns (4096, 1). -/
theorem C146_cluster_similar_fails : ¬ C146_cluster_similar_statement := by
  intro h
  obtain ⟨cands, rest, ⟨c1, c2, c3⟩, p1, p2, p3, p4⟩ := h exEnv exCosConfig (exVec exAxis0) none [exVecSite exTurned] _ _
    exEnv_ok (SF.accurate id) (by decide) rfl rfl rfl
    (fun s hs => by rw [List.mem_singleton.1 hs]; exact exVecSite_ok _ (by decide)) ordinary_unit
    (fun s hs => by rw [List.mem_singleton.1 hs]; exact turned_ordinary) turned_cluster
  have hwf : WF (exVecData exTurned).dbMap := wf_vecs exTurned (by decide)
  have hme : IsHitIn exEnv exCosConfig (exVec exAxis0) (shelves [exVecSite exTurned]) (exVecFound F64.one exAxis0) := by
    refine (sitesHit_iff _ _ _ _ _).1 ⟨exVecSite exTurned, by simp, exVec exAxis0, ⟨1, [7]⟩, rfl, ?_,
      by simp [Passes, exCosConfig, defaultSearchConfig], ?_⟩
    · refine (scan_out hwf (range_vecs exTurned) (clock_vecs exTurned) _ _).1 ?_
      simp [exVecVisits, exTurned, exAxis0, liveEntries, exVecStored, isExpired]
    · decide +kernel
  obtain ⟨y, hy, hyk⟩ := c3 _ hme
  have hyr : y ∈ rest := by
    rcases List.mem_append.1 (p1.mem_iff.2 hy) with hm | hm
    · rw [List.mem_singleton.1 hm] at hyk
      exact absurd hyk (by decide)
    · exact hm
  have := p4 _ (List.mem_singleton.2 rfl) y hyr
  simp only [trueCosine, hyk] at this
  simp only [exVecFound, exVec, exAxis0, Option.map_some, Option.getD_some, cosine, norm2, dot, v0, v1, v4096] at this
  norm_num at this
  have h3 : (4096 : ℝ) < √16777217 := Real.lt_sqrt_of_sq_lt (by norm_num)
  rw [le_div_iff₀ (by linarith)] at this
  linarith

/-- C146: of two nodes one stores (0, 1), the other (1, 0); they meet the hypotheses, and the search for the most similar to (1, 0)
returns (1, 0). -/
theorem C146_example : exEnv.Ok ∧ Accurate exEnv.o ∧ (∀ s ∈ [exVecSite [exAxis1], exVecSite [exAxis0]], s.Ok) ∧
    Ordinary (exVec exAxis0).feature ∧
    (∀ s ∈ [exVecSite [exAxis1], exVecSite [exAxis0]], ∀ k v, shows (abs s.dt.dbMap) s.clock k v → Ordinary k.feature) ∧
    SearchOut exEnv exCosConfig none [⟨some (exVec exAxis0), none⟩]
      [([exVecSite [exAxis1], exVecSite [exAxis0]], [exVecFound F64.one exAxis0])] [exVecFound F64.one exAxis0] := by
  have ho : Ordinary exAxis1 := by
    refine ⟨by unfold exAxis1 finite32; decide, by decide, Or.inr ?_⟩
    unfold norm2
    simp only [exAxis1, dot, v1, v0]
    norm_num
  refine ⟨exEnv_ok, SF.accurate id, ?_, ordinary_unit, ?_, ?_⟩
  · intro s hs
    simp only [List.mem_cons, List.not_mem_nil, or_false] at hs
    rcases hs with rfl | rfl <;> exact exVecSite_ok _ (by decide)
  · intro s hs k v hk
    simp only [List.mem_cons, List.not_mem_nil, or_false] at hs
    rcases hs with rfl | rfl
    · obtain ⟨f, hf, rfl⟩ := shows_vecs (by decide) hk
      rw [List.mem_singleton.1 hf]
      exact ho
    · obtain ⟨f, hf, rfl⟩ := shows_vecs (by decide) hk
      rw [List.mem_singleton.1 hf]
      exact ordinary_unit
  · refine exVecSearch _ _ _ _ [exVecFound 0 exAxis1] [exVecFound F64.one exAxis0] _ [exVecFound F64.one exAxis0] _
      (by decide +kernel) (by decide +kernel) ?_ ?_ ?_
    · intro got hp
      rw [List.perm_singleton.1 hp]
      refine ⟨[exVecFound F64.one exAxis0], outOf_some (by decide +kernel), fun got' hp' => ?_⟩
      rw [List.perm_singleton.1 hp']
      exact outOf_some (by decide +kernel)
    · intro got hp
      rcases perm_pair hp with rfl | rfl <;> exact outOf_some (by decide +kernel)
    · intro got hp
      rw [List.perm_singleton.1 hp]
      exact outOf_some (by decide +kernel)

namespace Store

/-- How long an insert is good for: for ever without a TTL, otherwise until ten seconds before the TTL ends; `t` is the time of a
look. -/
def Lasts (now : Int64) (config : Option InsertConfig) (t : Int64) : Prop :=
  match config with
  | none => True
  | some c => c.ttl = 0 ∨ 10 ≤ now.toInt + c.ttl.toNat ∧ now.toInt + c.ttl.toNat ≤ 2^63 - 11 ∧ t.toInt < now.toInt + c.ttl.toNat - 9

/-- A scan looks at `k` while the insert is good. -/
def Op.during (k : DatumKey) (now : Int64) (config : Option InsertConfig) : Op → Prop
  | .scan clock => Lasts now config (clock k)
  | _ => True

/-- What was inserted is there. -/
theorem inserted_shows {ops0 ops : List Op} {m0 m1 m2 : DBMap} {out1 : List Datum} {now : Int64} {k : DatumKey} {v : DatumValue}
    {config : Option InsertConfig} (s : Site) (h0 : Steps [] ops0 m0) (hi : Step m0 (.insert now k v config) m1 out1)
    (h1 : Steps m1 ops m2) (hs : s.dt.dbMap = m2) (hok : s.Ok) (hsane : ∀ op ∈ ops0, op.NoOverflow)
    (hno : ∀ op ∈ ops, ¬ op.writes k) (hd : ∀ op ∈ ops, op.during k now config) (hl : Lasts now config (s.clock k)) :
    shows (abs s.dt.dbMap) s.clock k v := by
  subst hs
  have hstep : Step s.dt.dbMap (.scan s.clock) _ _ := .scan hok.range hok.clock (streamAll_eq _ _)
  refine (scan_out hok.wf hok.range hok.clock k v).1 ?_
  match config, hi, hd, hl with
  | none, hi, hd, hl => exact C10_no_ttl_never_expires ops0 ops m0 m1 _ _ out1 _ now k v none _ h0 hi h1 hstep (Or.inl rfl) hsane hno
  | some c, hi, hd, hl =>
    by_cases hc : c.ttl = 0
    · exact C10_no_ttl_never_expires ops0 ops m0 m1 _ _ out1 _ now k v _ _ h0 hi h1 hstep (Or.inr ⟨c, rfl, hc⟩) hsane hno
    · simp only [Lasts, hc, false_or] at hl
      refine C09_ttl_lower ops0 ops m0 m1 _ _ out1 _ now k v c _ h0 hi h1 hstep hc hl.1 hl.2.1 hno ?_ hl.2.2
      intro op hop
      have := hd op hop
      cases op with
      | scan cl => simp only [Op.during, Lasts, hc, false_or] at this; exact this.2.2
      | insert => trivial
      | delete => trivial

end Store

/-- C147, full statement: after an accepted insert of a vector, as long as it has not expired and nobody deletes or replaces it, a
search by distance for this vector at the node returns it first.  FALSE of the code. -/
def C147_inserted_found_statement : Prop :=
  ∀ (E : Env) (config : SearchConfig) (ops0 ops : List Op) (m0 m1 : DBMap) (out1 : List Datum) (now : Int64) (q : DatumKey)
    (v : DatumValue) (ic : Option InsertConfig) (qv : Option DatumValue) (site : Site) (found out : List ScoredDatum),
    E.Ok → Accurate E.o → 0 < config.limit → config.groupLimit = 0 → config.scoreFuncName = "VectorDistance" →
    config.higherIsBetter = false →
    Steps [] ops0 m0 → Step m0 (.insert now q v ic) m1 out1 → Steps m1 ops site.dt.dbMap → site.Ok →
    (∀ op ∈ ops0, op.NoOverflow) → (∀ op ∈ ops, ¬ op.writes q) → (∀ op ∈ ops, op.during q now ic) → Lasts now ic (site.clock q) →
    Passes E.jsonHas config ⟨some q, some v⟩ →
    (∀ k v, shows (abs site.dt.dbMap) site.clock k v → Tame q k) →
    SearchOut E config none [⟨some q, qv⟩] [([site], found)] out →
    ∃ x rest, out = x :: rest ∧ x.datum = ⟨some q, some v⟩

/-- C147, partial: it does if the other stored vectors are at true distances between 2^-60 and 2^62 from it. -/
theorem C147_inserted_found_partial (E : Env) (config : SearchConfig) (ops0 ops : List Op) (m0 m1 : DBMap) (out1 : List Datum)
    (now : Int64) (q : DatumKey) (v : DatumValue) (ic : Option InsertConfig) (qv : Option DatumValue) (site : Site)
    (found out : List ScoredDatum) (hE : E.Ok) (hA : Accurate E.o) (hl : 0 < config.limit) (hg : config.groupLimit = 0)
    (hname : config.scoreFuncName = "VectorDistance") (hlow : config.higherIsBetter = false)
    (h0 : Steps [] ops0 m0) (hi : Step m0 (.insert now q v ic) m1 out1) (h1 : Steps m1 ops site.dt.dbMap) (hok : site.Ok)
    (hsane : ∀ op ∈ ops0, op.NoOverflow) (hno : ∀ op ∈ ops, ¬ op.writes q) (hd : ∀ op ∈ ops, op.during q now ic)
    (hlast : Lasts now ic (site.clock q)) (hpass : Passes E.jsonHas config ⟨some q, some v⟩)
    (hk : ∀ k v, shows (abs site.dt.dbMap) site.clock k v → Tame q k)
    (hsep : ∀ k v, shows (abs site.dt.dbMap) site.clock k v → k = q ∨ (2^60)⁻¹^2 ≤ dist2 k.feature q.feature)
    (h : SearchOut E config none [⟨some q, qv⟩] [([site], found)] out) :
    ∃ x rest, out = x :: rest ∧ x.datum = ⟨some q, some v⟩ := by
  obtain ⟨x, rest, h2, h3, _⟩ := C143_finds_itself_partial E config q qv site found out hE hA hl hg hname hlow hok v
    (inserted_shows site h0 hi h1 rfl hok hsane hno hd hlast) hpass hk hsep h
  exact ⟨x, rest, h2, h3⟩

namespace Store

/-- The insert of a key that is not there. -/
theorem insert_fresh (now : Int64) (m : DBMap) (k : DatumKey) (v : DatumValue) (c : Option InsertConfig)
    (h : m.get? (encKey k) = none) :
    insertBDMap now m (some ⟨some k, some v⟩) c = .ok (m.set (encKey k) ⟨expireAtOf now c, ⟨some k, some v⟩⟩, true) := by
  simp [insertBDMap, getKeyAsBytes_some, encodeToString, h]

/-- Point 0 is inserted first, then the point `x`. -/
theorem points_steps (x : F32) (h : x ≠ 0) :
    Step [] (.insert 900 (exPoint 0) ⟨1, [7]⟩ none) [exStored 0] [] ∧
    Steps [exStored 0] [.insert 910 (exPoint x) ⟨1, [7]⟩ none] (exSite [x, 0]).dt.dbMap := by
  have hne : encKey (exPoint x) ≠ encKey (exPoint 0) := fun e => h (by simpa [exPoint] using encKey_inj e)
  refine ⟨.insert (insert_empty _ _ _ _), .cons (.insert (b := true) ?_) .nil⟩
  have hg : AMap.get? [exStored 0] (encKey (exPoint x)) = none := by
    simp [AMap.get?, exStored, Ne.symm hne]
  rw [insert_fresh _ _ _ _ _ hg]
  simp [AMap.set, AMap.erase, exSite, exData, exStored, expireAtOf, Ne.symm hne]

end Store

/-- C147, counterexample: the point 0 is inserted, then the point 2^-80; a search for the nearest to 0 returns 2^-80. -/
theorem C147_inserted_found_fails : ¬ C147_inserted_found_statement := by
  intro h
  obtain ⟨hs1, hs2⟩ := points_steps 0x17800000 (by decide)
  obtain ⟨x, rest, h1, h2⟩ := h exEnv exNearest [] _ [] _ [] 900 (exPoint 0) ⟨1, [7]⟩ none none (exSite exTiny) _ _ exEnv_ok
    (SF.accurate id) (by decide) rfl rfl rfl .nil hs1 hs2 (exSite_ok _ (by decide)) (by simp)
    (by
      intro op hop
      rw [List.mem_singleton.1 hop]
      show ¬ exPoint 0x17800000 = exPoint 0
      decide)
    (by
      intro op hop
      rw [List.mem_singleton.1 hop]
      trivial)
    trivial (by simp [Passes, exNearest, defaultSearchConfig]) tiny_tame tiny_out
  injection h1 with h1 _
  subst h1
  exact absurd h2 (by decide)

/-- C147: the point 0 is inserted, then the point 1; the other hypotheses are met as in C143, and a search for the nearest to 0
returns 0. -/
theorem C147_example :
    Step [] (.insert 900 (exPoint 0) ⟨1, [7]⟩ none) [exStored 0] [] ∧
    Steps [exStored 0] [.insert 910 (exPoint 0x3F800000) ⟨1, [7]⟩ none] (exSite [0x3F800000, 0]).dt.dbMap ∧
    (∀ op ∈ [Op.insert 910 (exPoint 0x3F800000) ⟨1, [7]⟩ none], ¬ op.writes (exPoint 0) ∧ op.during (exPoint 0) 900 none) ∧
    Lasts 900 none ((exSite [0x3F800000, 0]).clock (exPoint 0)) ∧ Lasts 900 (some ⟨200, 0⟩) 1000 ∧
    SearchOut exEnv exNearest none [⟨some (exPoint 0), none⟩] [([exSite [0x3F800000, 0]], [exFound 0 0])] [exFound 0 0] := by
  obtain ⟨hs1, hs2⟩ := points_steps 0x3F800000 (by decide)
  refine ⟨hs1, hs2, ?_, trivial, ?_, C143_example.2.2.2.2.2⟩
  · intro op hop
    rw [List.mem_singleton.1 hop]
    refine ⟨?_, trivial⟩
    show ¬ exPoint 0x3F800000 = exPoint 0
    decide
  · unfold Lasts
    decide

end Veri
