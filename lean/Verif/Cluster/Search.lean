import Verif.Search.Stream
import Verif.Cluster.Query
import Verif.Dataset.Conc
/-
C95, C96, C97: a search over several nodes.  The whole way of an answer: the local search of each node (data/search.go:130-149), the
merge at each node that was asked (161-241), the merge of its handler (254-298, node/nodeservice.go:118-154), and the stream to
the node that asked (node/datasourceclient.go:31-59).
-/
set_option autoImplicit false
namespace Veri
open Gencoder Store

namespace Clu
open Search Agg

/-- A node's own part in a search: its data set, the visits of its scan, the answer of its index (if it is asked). -/
structure Site where
  dt : Data
  vs : List Visit
  answer : List Nat
  /-- the second at which each datum is looked at (ghost) -/
  clock : DatumKey → Int64

/-- A data set filled by well-formed inserts, scanned without a concurrent change. -/
structure Site.Ok (s : Site) : Prop where
  wf : WF s.dt.dbMap
  range : IsRange s.dt.dbMap s.vs
  clock : ∀ v ∈ s.vs, ∀ k, v.entry.datum.key = some k → v.now = s.clock k

/-- data/search.go:185-224 and 258-294: `got` is what a collecting loop that is not cut short hands to its aggregator, in some
interleaving of its sources. -/
def Collects (inputs : List (List ScoredDatum)) (got : List ScoredDatum) : Prop :=
  ∃ s, Stream.Reach 100 inputs s ∧ s.main = .finished false ∧ s.got = got

/-- data/search.go:205-227: merge without groups. -/
def flatMerge (E : Env) (config : SearchConfig) (context : Option SearchContext) (got : List ScoredDatum) :
    Res (List ScoredDatum) :=
  ((newFlat config context).insertAll E got).bind fun a => a.result

/-- data/search.go:270-297: the merge of `MultiAggregatedSearch`; `order` is the iteration order over the groups. -/
def multiMerge (E : Env) (config : SearchConfig) (context : Option SearchContext)
    (order : AMap Bytes Flat → AMap Bytes Flat) (got : List ScoredDatum) : Res (List ScoredDatum) :=
  if 0 < config.groupLimit then
    ((newGrouped config context).insertAll E got).bind fun a => a.result E (order a.groups)
  else flatMerge E config context got

/-- data/search.go:254-298 `MultiAggregatedSearch`, `inputs` being what the `AggregatedSearch` of each datum sends. -/
def MultiOut (E : Env) (config : SearchConfig) (context : Option SearchContext) (inputs : List (List ScoredDatum))
    (out : List ScoredDatum) : Prop :=
  ∃ got order, Collects inputs got ∧ (∀ m, (order m).Perm m) ∧ multiMerge E config context order got = .ok out

/-- An answer of another node: with what configuration it was asked, who took part, what its `AggregatedSearch` found and what it
sent back (node/nodeservice.go:143-151). -/
structure Peer where
  config : SearchConfig
  sites : List Site
  found : List ScoredDatum
  sent : List ScoredDatum

/-- data/search.go:161-241 `AggregatedSearch` for the datum `q`, if there is nothing in the query cache and no time limit is
reached: who takes part, and the result.  A peer is asked with the same configuration except for the timeout (line 165), without
a context (node/datasourceclient.go:41-44). -/
inductive AggOut (E : Env) (q : Datum) : SearchConfig → List Site → List ScoredDatum → Prop
  /-- A node that does not search: it has no such data set, has seen the query before, or cannot be reached. -/
  | silent (config : SearchConfig) : AggOut E q config [] []
  | node (config : SearchConfig) (site : Site) (dt' : Data) (own : List ScoredDatum) (peers : List Peer)
      (got out : List ScoredDatum) :
      streamSearch E site.vs site.answer site.dt q (some config) = .ok (dt', own) →
      (∀ p ∈ peers, ∃ t, p.config = { config with timeout := t }) →
      (∀ p ∈ peers, AggOut E q p.config p.sites p.found) →
      (∀ p ∈ peers, MultiOut E p.config none [p.found] p.sent) →
      peers.length ≤ 6 →
      Collects (own :: peers.map (·.sent)) got →
      flatMerge E config none got = .ok out →
      AggOut E q config (site :: peers.flatMap (·.sites)) out

/-- node/nodeservice.go:140-151: the answer to a client's search for `data`; `parts` says who took part in the search for each
datum and what came of it. -/
def SearchOut (E : Env) (config : SearchConfig) (context : Option SearchContext) (data : List Datum)
    (parts : List (List Site × List ScoredDatum)) (out : List ScoredDatum) : Prop :=
  parts.length = data.length ∧ (∀ p ∈ data.zip parts, AggOut E p.1 config p.2.1 p.2.2) ∧
    MultiOut E config context (parts.map (·.2)) out

end Clu

namespace Ref

/-- A stored data set together with the time at which each datum is looked at. -/
structure Shelf where
  store : DBMap
  clock : DatumKey → Int64

/-- `x` is a live datum of one of the stores that matches, with its score. -/
def IsHitIn (E : Env) (config : SearchConfig) (q : DatumKey) (shelves : List Shelf) (x : ScoredDatum) : Prop :=
  ∃ s ∈ shelves, IsHit E config q (shows (abs s.store) s.clock) x

/-- How many results are asked for: the limit, or the result limit if that is set and smaller. -/
def asked (config : SearchConfig) : Nat :=
  if config.resultLimit = 0 then config.limit.toNat else min config.limit.toNat config.resultLimit.toNat

/-- `cands` has one of the hits for each datum key that is hit. -/
def OnePerKey (hit : ScoredDatum → Prop) (cands : List ScoredDatum) : Prop :=
  (∀ x ∈ cands, hit x) ∧ (cands.map (·.datum.key)).Nodup ∧ ∀ x, hit x → ∃ y ∈ cands, y.datum.key = x.datum.key

end Ref

namespace Clu
open Search Agg Ref

/-- What is kept on the way: `o` consists of hits, and a hit that is missing has `K` others before it. -/
structure Adequate (b : Bool) (K : Nat) (S : ScoredDatum → Prop) (o : List ScoredDatum) : Prop where
  hits : ∀ x ∈ o, S x
  kept : ∀ h, S h → (∃ y ∈ o, y.datum.key = h.datum.key) ∨
    ∃ ks : List (Option DatumKey), ks.Nodup ∧ ks.length = K ∧ ∀ k ∈ ks, ∃ y ∈ o, y.datum.key = k ∧ better b h y = false

/-- The hits are numbers, have keys, and the score depends on the key only. -/
structure Sound (S : ScoredDatum → Prop) : Prop where
  keyed : ∀ x, S x → ∃ k v, x.datum = ⟨some k, v⟩
  nan : ∀ x, S x → F64.isNaN x.score = false
  score : ∀ x y, S x → S y → x.datum.key = y.datum.key → x.score = y.score

theorem Sound.mono {S T : ScoredDatum → Prop} (h : Sound T) (hs : ∀ x, S x → T x) : Sound S :=
  ⟨fun x hx => h.keyed x (hs x hx), fun x hx => h.nan x (hs x hx), fun x y hx hy => h.score x y (hs x hx) (hs y hy)⟩

theorem better_congr {b : Bool} {x x' y y' : ScoredDatum} (h : x.score = x'.score) (h' : y.score = y'.score) :
    better b x y = better b x' y' := by
  simp only [better, h, h']

theorem Adequate.perm {b : Bool} {K : Nat} {S : ScoredDatum → Prop} {o o' : List ScoredDatum} (h : Adequate b K S o)
    (hp : o.Perm o') : Adequate b K S o' := by
  refine ⟨fun x hx => h.hits x (hp.mem_iff.2 hx), fun x hx => ?_⟩
  rcases h.kept x hx with ⟨y, hy, hk⟩ | ⟨ks, h1, h2, h3⟩
  · exact Or.inl ⟨y, hp.mem_iff.1 hy, hk⟩
  · exact Or.inr ⟨ks, h1, h2, fun k hk => by
      obtain ⟨y, hy, h4⟩ := h3 k hk
      exact ⟨y, hp.mem_iff.1 hy, h4⟩⟩

theorem Adequate.append {b : Bool} {K : Nat} {S T : ScoredDatum → Prop} {o p : List ScoredDatum} (h : Adequate b K S o)
    (g : Adequate b K T p) : Adequate b K (fun x => S x ∨ T x) (o ++ p) := by
  refine ⟨fun x hx => (List.mem_append.1 hx).imp (h.hits x) (g.hits x), fun x hx => ?_⟩
  rcases hx with hx | hx
  · rcases h.kept x hx with ⟨y, hy, hk⟩ | ⟨ks, h1, h2, h3⟩
    · exact Or.inl ⟨y, List.mem_append_left _ hy, hk⟩
    · exact Or.inr ⟨ks, h1, h2, fun k hk => by
        obtain ⟨y, hy, h4⟩ := h3 k hk
        exact ⟨y, List.mem_append_left _ hy, h4⟩⟩
  · rcases g.kept x hx with ⟨y, hy, hk⟩ | ⟨ks, h1, h2, h3⟩
    · exact Or.inl ⟨y, List.mem_append_right _ hy, hk⟩
    · exact Or.inr ⟨ks, h1, h2, fun k hk => by
        obtain ⟨y, hy, h4⟩ := h3 k hk
        exact ⟨y, List.mem_append_right _ hy, h4⟩⟩

theorem Adequate.iff {b : Bool} {K : Nat} {S T : ScoredDatum → Prop} {o : List ScoredDatum} (h : Adequate b K S o)
    (hst : ∀ x, S x ↔ T x) : Adequate b K T o := by
  have : S = T := funext fun x => propext (hst x)
  rw [← this]; exact h

/-- The first `K` of the best `k ≥ K` candidates: a candidate that is not among them has `K` before it. -/
theorem top_prefix {b : Bool} {k K : Nat} {cands out : List ScoredDatum} (h : IsTopK (better b) k cands out) (hK : K ≤ k)
    {z : ScoredDatum} (hz : z ∈ cands) (hnot : z ∉ out.take K) :
    (out.take K).length = K ∧ ∀ y ∈ out.take K, better b z y = false := by
  obtain ⟨rest, hp, hlen, hsorted, hrest⟩ := h
  have hm := hp.mem_iff.2 hz
  have hlen' := hp.length_eq
  rw [List.length_append] at hlen'
  rcases List.mem_append.1 hm with hm | hm
  · rw [← List.take_append_drop K out] at hm
    rcases List.mem_append.1 hm with hm | hm
    · exact absurd hm hnot
    · have h1 : 0 < (out.drop K).length := List.length_pos_of_mem hm
      rw [List.length_drop] at h1
      refine ⟨by rw [List.length_take]; omega, fun y hy => ?_⟩
      have hs := hsorted
      rw [← List.take_append_drop K out] at hs
      exact (List.pairwise_append.1 hs).2.2 y hy z hm
  · have h1 : 0 < rest.length := List.length_pos_of_mem hm
    refine ⟨by rw [List.length_take]; omega, fun y hy => hrest z hm y (List.mem_of_mem_take hy)⟩

/-- Merging keeps what matters. -/
theorem merge_adequate {b : Bool} {k K : Nat} {S : ScoredDatum → Prop} (hs : Sound S) {arr cands out : List ScoredDatum}
    (ha : Adequate b K S arr) (hd : Distinct arr cands) (ht : IsTopK (better b) k cands out) (hK : K ≤ k) :
    Adequate b K S (out.take K) ∧ ((out.take K).map (·.datum.key)).Nodup ∧ SortedBy (better b) (out.take K) := by
  have hSc : ∀ x ∈ cands, S x := fun x hx => ha.hits x (hd.1 x hx)
  have hSo : ∀ x ∈ out.take K, S x := fun x hx => hSc x (ht.mem (List.mem_of_mem_take hx))
  have hnd : ((out.take K).map (·.datum.key)).Nodup := by
    obtain ⟨rest, hp, _⟩ := ht
    have h1 : ((out ++ rest).map (·.datum.key)).Nodup := (hp.map _).nodup_iff.2 hd.2.1
    rw [List.map_append] at h1
    exact ((List.take_sublist K out).map _).nodup (List.nodup_append.1 h1).1
  have hsort : SortedBy (better b) (out.take K) := by
    obtain ⟨rest, _, _, h3, _⟩ := ht
    exact List.Pairwise.sublist (List.take_sublist K out) h3
  -- whatever is not worse than a candidate that fell out is behind `K` others
  have full : ∀ h z, S h → z ∈ cands → z ∉ out.take K → better b h z = false →
      ∃ ks : List (Option DatumKey), ks.Nodup ∧ ks.length = K ∧
        ∀ k ∈ ks, ∃ y ∈ out.take K, y.datum.key = k ∧ better b h y = false := by
    intro h z hh hz hnot hb
    obtain ⟨h1, h2⟩ := top_prefix ht hK hz hnot
    refine ⟨(out.take K).map (·.datum.key), hnd, by rw [List.length_map]; exact h1, fun k hk => ?_⟩
    obtain ⟨y, hy, rfl⟩ := List.mem_map.1 hk
    refine ⟨y, hy, rfl, ?_⟩
    have hw := better_weakOrder b [h, z, y] (by
      intro x hx
      simp only [List.mem_cons, List.not_mem_nil, or_false] at hx
      rcases hx with rfl | rfl | rfl
      · exact hs.nan _ hh
      · exact hs.nan _ (hSc _ hz)
      · exact hs.nan _ (hSo _ hy))
    exact hw.neg_trans h (by simp) z (by simp) y (by simp) hb (h2 y hy)
  refine ⟨⟨hSo, fun h hh => ?_⟩, hnd, hsort⟩
  rcases ha.kept h hh with ⟨y, hy, hk⟩ | ⟨ks, h1, h2, h3⟩
  · obtain ⟨z, hz, hzk⟩ := hd.2.2 y hy
    by_cases hin : z ∈ out.take K
    · exact Or.inl ⟨z, hin, hzk.trans hk⟩
    · refine Or.inr (full h z hh hz hin ?_)
      have : h.score = z.score := hs.score _ _ hh (hSc z hz) (by rw [hzk, hk])
      rw [better_congr this (rfl : z.score = z.score)]
      cases b <;> simp [better, F64.lt_irrefl]
  · by_cases hall : ∀ z ∈ cands, z.datum.key ∈ ks → z ∈ out.take K
    · refine Or.inr ⟨ks, h1, h2, fun k hk => ?_⟩
      obtain ⟨y, hy, hyk, hyb⟩ := h3 k hk
      obtain ⟨z, hz, hzk⟩ := hd.2.2 y hy
      refine ⟨z, hall z hz (by rw [hzk, hyk]; exact hk), by rw [hzk, hyk], ?_⟩
      rw [better_congr (rfl : h.score = h.score) (hs.score z y (hSc z hz) (ha.hits y hy) hzk)]
      exact hyb
    · have : ∃ z ∈ cands, z.datum.key ∈ ks ∧ z ∉ out.take K := Classical.byContradiction fun hn =>
        hall fun z hz hzk => Classical.byContradiction fun hno => hn ⟨z, hz, hzk, hno⟩
      obtain ⟨z, hz, hzk, hno⟩ := this
      obtain ⟨y, hy, hyk, hyb⟩ := h3 _ hzk
      refine Or.inr (full h z hh hz hno ?_)
      rw [better_congr (rfl : h.score = h.score) (hs.score z y (hSc z hz) (ha.hits y hy) hyk.symm)]
      exact hyb

/-- A ranked list of at most `K` distinct hits that is adequate is the best `K` of all. -/
theorem adequate_topk {b : Bool} {K : Nat} {S : ScoredDatum → Prop} (hs : Sound S) (all : List ScoredDatum)
    (hall : ∀ x, S x ↔ x ∈ all) {out : List ScoredDatum} (ha : Adequate b K S out) (hlen : out.length ≤ K)
    (hnd : (out.map (·.datum.key)).Nodup) (hsort : SortedBy (better b) out) :
    ∃ cands, OnePerKey S cands ∧ IsTopK (better b) K cands out := by
  -- one hit for each key that is not in the answer
  have pick : ∀ l : List ScoredDatum, (∀ x ∈ l, S x) → ∃ rest : List ScoredDatum, (∀ x ∈ rest, S x) ∧
      (rest.map (·.datum.key)).Nodup ∧ (∀ x ∈ rest, x.datum.key ∉ out.map (·.datum.key)) ∧
      ∀ x ∈ l, x.datum.key ∈ (out ++ rest).map (·.datum.key) := by
    intro l
    induction l with
    | nil => intro _; exact ⟨[], by simp, by simp, by simp, by simp⟩
    | cons x l ih =>
      intro hl
      obtain ⟨rest, h1, h2, h3, h4⟩ := ih fun y hy => hl y (List.mem_cons_of_mem _ hy)
      by_cases hin : x.datum.key ∈ (out ++ rest).map (·.datum.key)
      · refine ⟨rest, h1, h2, h3, fun y hy => ?_⟩
        rcases List.mem_cons.1 hy with rfl | hy
        · exact hin
        · exact h4 y hy
      · rw [List.map_append, List.mem_append, not_or] at hin
        refine ⟨x :: rest, ?_, ?_, ?_, ?_⟩
        · intro y hy
          rcases List.mem_cons.1 hy with rfl | hy
          · exact hl _ List.mem_cons_self
          · exact h1 y hy
        · rw [List.map_cons, List.nodup_cons]; exact ⟨hin.2, h2⟩
        · intro y hy
          rcases List.mem_cons.1 hy with rfl | hy
          · exact hin.1
          · exact h3 y hy
        · intro y hy
          rw [List.map_append, List.map_cons]
          rcases List.mem_cons.1 hy with rfl | hy
          · simp
          · have := h4 y hy
            rw [List.map_append, List.mem_append] at this
            rw [List.mem_append, List.mem_cons]
            exact this.imp id Or.inr
  obtain ⟨rest, h1, h2, h3, h4⟩ := pick all fun x hx => (hall x).2 hx
  -- a hit that is left out
  have hbehind : ∀ r ∈ rest, out.length = K ∧ ∀ x ∈ out, better b r x = false := by
    intro r hr
    rcases ha.kept r (h1 r hr) with ⟨y, hy, hyk⟩ | ⟨ks, k1, k2, k3⟩
    · exact absurd (hyk ▸ List.mem_map_of_mem hy) (h3 r hr)
    · have hsub : ∀ k ∈ ks, k ∈ out.map (·.datum.key) := by
        intro k hk
        obtain ⟨y, hy, hyk, _⟩ := k3 k hk
        exact List.mem_map.2 ⟨y, hy, hyk⟩
      have hle := List.Nodup.length_le_of_subset k1 hsub
      rw [List.length_map] at hle
      refine ⟨by omega, fun x hx => ?_⟩
      have hxk : x.datum.key ∈ ks := Classical.byContradiction fun hno => by
        have : (x.datum.key :: ks).length ≤ (out.map (·.datum.key)).length :=
          List.Nodup.length_le_of_subset (List.nodup_cons.2 ⟨hno, k1⟩) (by
            intro k hk
            rcases List.mem_cons.1 hk with rfl | hk
            · exact List.mem_map_of_mem hx
            · exact hsub k hk)
        rw [List.length_cons, List.length_map] at this
        omega
      obtain ⟨y, hy, hyk, hyb⟩ := k3 _ hxk
      rw [better_congr (rfl : r.score = r.score) (hs.score x y (ha.hits x hx) (ha.hits y hy) hyk.symm)]
      exact hyb
  refine ⟨out ++ rest, ⟨?_, ?_, ?_⟩, rest, .refl _, ?_, hsort, fun r hr x hx => (hbehind r hr).2 x hx⟩
  · intro x hx
    exact (List.mem_append.1 hx).elim (ha.hits x) (h1 x)
  · rw [List.map_append, List.nodup_append]
    refine ⟨hnd, h2, ?_⟩
    intro a hx c hc hac
    obtain ⟨y, hy, rfl⟩ := List.mem_map.1 hc
    exact h3 y hy (hac ▸ hx)
  · intro x hx
    obtain ⟨y, hy, hyk⟩ := List.mem_map.1 (h4 x ((hall x).1 hx))
    exact ⟨y, hy, hyk⟩
  · rw [List.length_append]
    cases rest with
    | nil => simp; omega
    | cons r rest =>
      have := (hbehind r List.mem_cons_self).1
      rw [List.length_cons]
      omega

/-! ### The induction over the answers -/

theorem flatMerge_adequate {E : Env} (hE : E.Ok) {config : SearchConfig} (hl : 0 < config.limit)
    {S : ScoredDatum → Prop} (hs : Sound S) (keys : List (Option DatumKey))
    {got out : List ScoredDatum}
    (hd : config.higherIsBetter = true ∨ keys.length ≤ config.limit.toNat ∧ ∀ x ∈ got, x.datum.key ∈ keys)
    (ha : Adequate config.higherIsBetter (asked config) S got)
    (h : flatMerge E config none got = .ok out) :
    Adequate config.higherIsBetter (asked config) S out ∧ (out.map (·.datum.key)).Nodup ∧
      SortedBy (better config.higherIsBetter) out ∧ out.length ≤ asked config := by
  obtain ⟨a, acc, h1, h2, h3, h4⟩ := insertAll_topk hE keys got (newFlat config none) [] [] hl rfl (seen_nil _ _)
    IsTopK.nil (fun x hx => hs.keyed x (ha.hits x hx))
    (fun x hx y hy hk => by
      have hx := ha.hits x (by simpa using hx)
      have hy := ha.hits y (by simpa using hy)
      rw [hs.score x y hx hy hk]; exact F64.lt_irrefl _)
    (fun x hx => hs.nan x (ha.hits x (by simpa using hx)))
    (hd.imp id fun ⟨h5, h6⟩ => ⟨h5, fun x hx => h6 x (by simpa using hx)⟩)
  have h3 : Distinct got acc := by simpa using h3
  have h4 : IsTopK (better config.higherIsBetter) config.limit.toNat acc a.list := h4
  have hc : a.config = config := h2.1
  have hw : asked config ≤ config.limit.toNat := by unfold asked; split <;> omega
  have hout : out = a.list.take (asked config) := by
    unfold flatMerge at h
    rw [h1, Res.bind_ok, result_eq, hc] at h
    have hle := h4.length_le
    unfold asked
    split at h
    · rename_i h0
      injection h with h
      rw [if_pos h0, List.take_of_length_le hle, h]
    · rename_i h0
      split at h
      · cases h
      · injection h with h
        rw [if_neg h0, ← h]
        by_cases hm : config.limit.toNat ≤ config.resultLimit.toNat
        · rw [Nat.min_eq_left hm, List.take_of_length_le hle, List.take_of_length_le (by omega)]
        · rw [Nat.min_eq_right (by omega)]
  obtain ⟨g1, g2, g3⟩ := merge_adequate hs ha h3 h4 hw
  rw [hout]
  exact ⟨g1, g2, g3, by rw [List.length_take]; omega⟩

theorem collects_perm {inputs : List (List ScoredDatum)} {got : List ScoredDatum} (h : Collects inputs got) :
    inputs.flatten.Perm got := by
  obtain ⟨s, h1, h2, rfl⟩ := h
  exact ((C33_nothing_lost 100 inputs s h1).2 h2).symm

/-- The hits at one node. -/
def siteHit (E : Env) (config : SearchConfig) (q : DatumKey) (s : Site) : ScoredDatum → Prop :=
  IsHit E config q (shows (abs s.dt.dbMap) s.clock)

theorem siteHit_unique {E : Env} {config : SearchConfig} {q : DatumKey} {s : Site} {x y : ScoredDatum}
    (hx : siteHit E config q s x) (hy : siteHit E config q s y) (hk : x.datum.key = y.datum.key) : x = y := by
  obtain ⟨k, v, h1, ⟨e, h2, _, h3⟩, _, h4⟩ := hx
  obtain ⟨k', v', g1, ⟨e', g2, _, g3⟩, _, g4⟩ := hy
  rw [h1, g1] at hk
  injection hk with hk
  subst hk
  rw [h2] at g2
  injection g2 with g2
  subst g2
  subst h3
  subst g3
  cases x; cases y
  simp_all

theorem hit_score {E : Env} {config : SearchConfig} {q : DatumKey} {sh sh' : DatumKey → DatumValue → Prop} {x y : ScoredDatum}
    (hx : IsHit E config q sh x) (hy : IsHit E config q sh' y) (hk : x.datum.key = y.datum.key) : x.score = y.score := by
  obtain ⟨k, v, h1, _, _, h4⟩ := hx
  obtain ⟨k', v', g1, _, _, g4⟩ := hy
  rw [h1, g1] at hk
  injection hk with hk
  subst hk
  rw [h4, g4]

theorem asked_timeout (config : SearchConfig) (t : UInt64) : asked { config with timeout := t } = asked config := rfl

/-- A node's own results. -/
theorem own_adequate {E : Env} (hE : E.Ok) {config : SearchConfig} (hl : 0 < config.limit)
    (hname : Vec.isAnnoyName config.scoreFuncName = false) {q : DatumKey} {qv : Option DatumValue} {s : Site} (hok : s.Ok)
    (hn : ∀ x, siteHit E config q s x → F64.isNaN x.score = false) {dt' : Data} {own : List ScoredDatum}
    (h : streamSearch E s.vs s.answer s.dt ⟨some q, qv⟩ (some config) = .ok (dt', own)) :
    Adequate config.higherIsBetter (asked config) (siteHit E config q s) own ∧
      ∃ all : List ScoredDatum, ∀ x, siteHit E config q s x ↔ x ∈ all := by
  obtain ⟨dt1, c, cands, h1, h2, h3, h4, _⟩ := C22_search_top_k E hE s.dt s.vs s.clock q qv config hok.wf hok.range hok.clock hl hn
  unfold streamSearch at h
  simp only [Option.getD_some, hname, Bool.false_eq_true, if_false] at h
  rw [h1, Res.bind_ok] at h
  injection h with h
  injection h with _ h
  subst h
  have hw : asked config ≤ config.limit.toNat := by unfold asked; split <;> omega
  refine ⟨⟨fun x hx => (h3 x).1 (h4.mem hx), fun x hx => ?_⟩, cands, fun x => (h3 x).symm⟩
  have hc := (h3 x).2 hx
  obtain ⟨rest, hp, hlen, hsort, hrest⟩ := h4
  have hlen' := hp.length_eq
  rw [List.length_append] at hlen'
  rcases List.mem_append.1 (hp.mem_iff.2 hc) with hm | hm
  · exact Or.inl ⟨x, hm, rfl⟩
  · have hpos : 0 < rest.length := List.length_pos_of_mem hm
    have hnd : (c.list.map (·.datum.key)).Nodup := by
      have h5 : c.list.Nodup := (List.nodup_append.1 (hp.nodup_iff.2 h2)).1
      have h6 : ∀ y ∈ c.list, siteHit E config q s y := fun y hy => (h3 y).1 (hp.mem_iff.1 (List.mem_append_left _ hy))
      clear hlen hlen' hsort hrest hp
      generalize c.list = l at h5 h6
      induction l with
      | nil => simp
      | cons y ys ih =>
        rw [List.nodup_cons] at h5
        rw [List.map_cons, List.nodup_cons]
        refine ⟨?_, ih h5.2 fun z hz => h6 z (List.mem_cons_of_mem _ hz)⟩
        intro hy
        obtain ⟨z, hz, hzk⟩ := List.mem_map.1 hy
        have := siteHit_unique (h6 z (List.mem_cons_of_mem _ hz)) (h6 y List.mem_cons_self) hzk
        subst this
        exact h5.1 hz
    refine Or.inr ⟨(c.list.map (·.datum.key)).take (asked config), (List.take_sublist _ _).nodup hnd, ?_, ?_⟩
    · rw [List.length_take, List.length_map]; omega
    · intro k hk
      obtain ⟨y, hy, hyk⟩ := List.mem_map.1 (List.mem_of_mem_take hk)
      exact ⟨y, hy, hyk, hrest x hm y hy⟩

theorem flatten_adequate {b : Bool} {K : Nat} {α : Type} (S : α → ScoredDatum → Prop) (o : α → List ScoredDatum) :
    ∀ (l : List α), (∀ a ∈ l, Adequate b K (S a) (o a)) →
    Adequate b K (fun x => ∃ a ∈ l, S a x) (l.map o).flatten
  | [], _ => ⟨by simp, by simp⟩
  | a :: l, h => by
    rw [List.map_cons, List.flatten_cons]
    refine ((h a List.mem_cons_self).append
      (flatten_adequate S o l fun c hc => h c (List.mem_cons_of_mem _ hc))).iff fun x => ?_
    simp

theorem multi_adequate {E : Env} (hE : E.Ok) {config : SearchConfig} (hl : 0 < config.limit) (hg : config.groupLimit = 0)
    {S : ScoredDatum → Prop} (hs : Sound S) (keys : List (Option DatumKey))
    {found out : List ScoredDatum}
    (hd : config.higherIsBetter = true ∨ keys.length ≤ config.limit.toNat ∧ ∀ x ∈ found, x.datum.key ∈ keys)
    (ha : Adequate config.higherIsBetter (asked config) S found)
    (h : MultiOut E config none [found] out) :
    Adequate config.higherIsBetter (asked config) S out ∧ (out.map (·.datum.key)).Nodup ∧
      SortedBy (better config.higherIsBetter) out ∧ out.length ≤ asked config := by
  obtain ⟨got, order, h1, _, h2⟩ := h
  rw [multiMerge, if_neg (by rw [hg]; decide)] at h2
  have hp := collects_perm h1
  simp only [List.flatten_cons, List.flatten_nil, List.append_nil] at hp
  exact flatMerge_adequate hE hl hs keys (hd.imp id fun hd => ⟨hd.1, fun x hx => hd.2 x (hp.mem_iff.2 hx)⟩) (ha.perm hp) h2

/-- The hits of all the nodes that took part. -/
def sitesHit (E : Env) (config : SearchConfig) (q : DatumKey) (sites : List Site) (x : ScoredDatum) : Prop :=
  ∃ s ∈ sites, siteHit E config q s x

theorem sitesHit_timeout (E : Env) (config : SearchConfig) (t : UInt64) (q : DatumKey) (sites : List Site) :
    sitesHit E { config with timeout := t } q sites = sitesHit E config q sites := rfl

theorem sitesHit_sound {E : Env} {config : SearchConfig} {q : DatumKey} {sites : List Site}
    (hn : ∀ x, sitesHit E config q sites x → F64.isNaN x.score = false) : Sound (sitesHit E config q sites) := by
  refine ⟨?_, hn, ?_⟩
  · rintro x ⟨s, _, k, v, h, _⟩
    exact ⟨k, some v, h⟩
  · rintro x y ⟨s, _, hx⟩ ⟨s', _, hy⟩ hk
    exact hit_score hx hy hk

theorem agg_adequate {E : Env} (hE : E.Ok) (q : DatumKey) (qv : Option DatumValue) (keys : List (Option DatumKey))
    {config : SearchConfig} {sites : List Site} {out : List ScoredDatum} (h : AggOut E ⟨some q, qv⟩ config sites out) :
    0 < config.limit → config.groupLimit = 0 → Vec.isAnnoyName config.scoreFuncName = false → (∀ s ∈ sites, s.Ok) →
    (∀ x, sitesHit E config q sites x → F64.isNaN x.score = false) →
    (config.higherIsBetter = true ∨ keys.length ≤ config.limit.toNat ∧ ∀ x, sitesHit E config q sites x → x.datum.key ∈ keys) →
    Adequate config.higherIsBetter (asked config) (sitesHit E config q sites) out ∧
      ∃ all : List ScoredDatum, ∀ x, sitesHit E config q sites x ↔ x ∈ all := by
  induction h with
  | silent config =>
    intro _ _ _ _ _ _
    exact ⟨⟨by simp, by rintro x ⟨s, hs, _⟩; cases hs⟩, [], by rintro x; simp [sitesHit]⟩
  | node config site dt' own peers got out hown hcfg hagg hmulti hlen hcol hmerge ih =>
    intro hl hg hname hok hn hd
    have hsite : ∀ x, siteHit E config q site x → sitesHit E config q (site :: peers.flatMap (·.sites)) x :=
      fun x hx => ⟨site, List.mem_cons_self, hx⟩
    have hpeer : ∀ p ∈ peers, ∀ x, sitesHit E config q p.sites x →
        sitesHit E config q (site :: peers.flatMap (·.sites)) x := by
      rintro p hp x ⟨s, hs, hx⟩
      exact ⟨s, List.mem_cons_of_mem _ (List.mem_flatMap.2 ⟨p, hp, hs⟩), hx⟩
    obtain ⟨ho, all, hall⟩ := own_adequate hE hl hname (hok site List.mem_cons_self) (fun x hx => hn x (hsite x hx)) hown
    have hp : ∀ p ∈ peers, Adequate config.higherIsBetter (asked config) (sitesHit E config q p.sites) p.sent ∧
        ∃ all : List ScoredDatum, ∀ x, sitesHit E config q p.sites x ↔ x ∈ all := by
      intro p hp
      obtain ⟨t, ht⟩ := hcfg p hp
      have hih := ih p hp
      have hm := hmulti p hp
      rw [ht] at hih hm
      rw [sitesHit_timeout, asked_timeout] at hih
      have hn' : ∀ x, sitesHit E config q p.sites x → F64.isNaN x.score = false := fun x hx => hn x (hpeer p hp x hx)
      have hd' : config.higherIsBetter = true ∨
          keys.length ≤ config.limit.toNat ∧ ∀ x, sitesHit E config q p.sites x → x.datum.key ∈ keys :=
        hd.imp id fun ⟨h1, h2⟩ => ⟨h1, fun x hx => h2 x (hpeer p hp x hx)⟩
      obtain ⟨h1, h2⟩ := hih hl hg hname
        (fun s hs => hok s (List.mem_cons_of_mem _ (List.mem_flatMap.2 ⟨p, hp, hs⟩))) hn' hd'
      exact ⟨(multi_adequate hE (config := { config with timeout := t }) hl hg (sitesHit_sound hn') keys
        (hd'.imp id fun hd => ⟨hd.1, fun x hx => hd.2 x (h1.hits x hx)⟩) h1 hm).1, h2⟩
    have hS : ∀ x, (siteHit E config q site x ∨ ∃ p ∈ peers, sitesHit E config q p.sites x) ↔
        sitesHit E config q (site :: peers.flatMap (·.sites)) x := by
      intro x
      constructor
      · rintro (h | ⟨p, hp, h⟩)
        · exact hsite x h
        · exact hpeer p hp x h
      · rintro ⟨s, hs, h⟩
        rcases List.mem_cons.1 hs with rfl | hs
        · exact Or.inl h
        · obtain ⟨p, hp, hs⟩ := List.mem_flatMap.1 hs
          exact Or.inr ⟨p, hp, s, hs, h⟩
    have harr : Adequate config.higherIsBetter (asked config) (sitesHit E config q (site :: peers.flatMap (·.sites)))
        (own :: peers.map (·.sent)).flatten := by
      rw [List.flatten_cons]
      exact (ho.append (flatten_adequate (fun p : Peer => sitesHit E config q p.sites) (·.sent) peers
        fun p h => (hp p h).1)).iff hS
    have hgot := harr.perm (collects_perm hcol)
    refine ⟨(flatMerge_adequate hE hl (sitesHit_sound hn) keys (hd.imp id fun hd => ⟨hd.1, fun x hx => hd.2 x (hgot.hits x hx)⟩)
      hgot hmerge).1, ?_⟩
    have hfin : ∀ l : List Peer, (∀ p ∈ l, p ∈ peers) → ∃ all : List ScoredDatum,
        ∀ x, (∃ p ∈ l, sitesHit E config q p.sites x) ↔ x ∈ all := by
      intro l
      induction l with
      | nil => intro _; exact ⟨[], by simp⟩
      | cons p l ihl =>
        intro hl
        obtain ⟨a1, h1⟩ := (hp p (hl p List.mem_cons_self)).2
        obtain ⟨a2, h2⟩ := ihl fun p hp => hl p (List.mem_cons_of_mem _ hp)
        refine ⟨a1 ++ a2, fun x => ?_⟩
        rw [List.mem_append, ← h1, ← h2]
        simp
    obtain ⟨all2, hall2⟩ := hfin peers fun _ h => h
    refine ⟨all ++ all2, fun x => ?_⟩
    rw [← hS, List.mem_append, ← hall, ← hall2]

/-- The stores of the nodes that took part. -/
def shelves (sites : List Site) : List Shelf := sites.map fun s => ⟨s.dt.dbMap, s.clock⟩

theorem sitesHit_iff (E : Env) (config : SearchConfig) (q : DatumKey) (sites : List Site) (x : ScoredDatum) :
    sitesHit E config q sites x ↔ IsHitIn E config q (shelves sites) x := by
  constructor
  · rintro ⟨s, hs, h⟩
    exact ⟨_, List.mem_map_of_mem hs, h⟩
  · rintro ⟨s, hs, h⟩
    obtain ⟨t, ht, rfl⟩ := List.mem_map.1 hs
    exact ⟨t, ht, h⟩

end Clu
open Clu Search Agg

/-- C95, full statement: the answer to a search for one datum that is not cut short consists of the best of all live matching
data on the nodes that took part, each datum once, best first, and as many as were asked for.  FALSE of the code if lower is
better. -/
def C95_cluster_search_statement : Prop :=
  ∀ (E : Env) (config : SearchConfig) (q : DatumKey) (qv : Option DatumValue) (sites : List Site) (found out : List ScoredDatum),
    E.Ok → 0 < config.limit → config.groupLimit = 0 → Vec.isAnnoyName config.scoreFuncName = false → (∀ s ∈ sites, s.Ok) →
    (∀ x, Ref.IsHitIn E config q (shelves sites) x → F64.isNaN x.score = false) →
    SearchOut E config none [⟨some q, qv⟩] [(sites, found)] out →
    ∃ cands, Ref.OnePerKey (Ref.IsHitIn E config q (shelves sites)) cands ∧
      IsTopK (Ref.better config.higherIsBetter) (Ref.asked config) cands out

/-- C95, partial: if higher is better, or if no more than `limit` different data match. -/
theorem C95_cluster_search_partial (E : Env) (config : SearchConfig) (q : DatumKey) (qv : Option DatumValue) (sites : List Site)
    (found out : List ScoredDatum) (hE : E.Ok) (hl : 0 < config.limit) (hg : config.groupLimit = 0)
    (hname : Vec.isAnnoyName config.scoreFuncName = false) (hok : ∀ s ∈ sites, s.Ok)
    (hn : ∀ x, Ref.IsHitIn E config q (shelves sites) x → F64.isNaN x.score = false)
    (keys : List (Option DatumKey))
    (hd : config.higherIsBetter = true ∨
      keys.length ≤ config.limit.toNat ∧ ∀ x, Ref.IsHitIn E config q (shelves sites) x → x.datum.key ∈ keys)
    (h : SearchOut E config none [⟨some q, qv⟩] [(sites, found)] out) :
    ∃ cands, Ref.OnePerKey (Ref.IsHitIn E config q (shelves sites)) cands ∧
      IsTopK (Ref.better config.higherIsBetter) (Ref.asked config) cands out := by
  have hS : sitesHit E config q sites = Ref.IsHitIn E config q (shelves sites) :=
    funext fun x => propext (sitesHit_iff E config q sites x)
  rw [← hS] at hn hd ⊢
  obtain ⟨_, h1, h2⟩ := h
  obtain ⟨ha, all, hall⟩ := agg_adequate hE q qv keys (h1 (⟨some q, qv⟩, sites, found) (by simp)) hl hg hname hok hn hd
  obtain ⟨g1, g2, g3, g4⟩ := multi_adequate hE hl hg (sitesHit_sound hn) keys
    (hd.imp id fun hd => ⟨hd.1, fun x hx => hd.2 x (ha.hits x hx)⟩) ha h2
  exact adequate_topk (sitesHit_sound hn) all hall g1 g4 g2 g3

namespace Clu

/-- A collecting loop can always be completed. -/
theorem collects_exists (inputs : List (List ScoredDatum)) : ∃ got, Collects inputs got := by
  obtain ⟨s, hs, hm, _⟩ := C33_completes 100 (by decide) inputs _ .init (by simp [Stream.init])
  exact ⟨s.got, s, Stream.Reach.steps .init hs, hm, rfl⟩

/-- A node that stores these points. -/
def exSite (xs : List F32) : Site := ⟨exData xs, exVisits xs, [], fun _ => 1000⟩

theorem exSite_ok (xs : List F32) (h : xs.Nodup) : (exSite xs).Ok := ⟨wf_points xs h, range_points xs, clock_points xs⟩

/-- What a node of the example sends. -/
def exOwn (E : Env) (config : SearchConfig) (xs : List F32) : Option (List ScoredDatum) :=
  match streamSearch E (exVisits xs) [] (exData xs) ⟨some (exPoint 0), none⟩ (some config) with
  | .ok (_, l) => some l
  | _ => none

theorem exOwn_some {E : Env} {config : SearchConfig} {xs : List F32} {l : List ScoredDatum} (h : exOwn E config xs = some l) :
    ∃ dt', streamSearch E (exSite xs).vs (exSite xs).answer (exSite xs).dt ⟨some (exPoint 0), none⟩ (some config) = .ok (dt', l) := by
  unfold exOwn at h
  show ∃ dt', streamSearch E (exVisits xs) [] (exData xs) ⟨some (exPoint 0), none⟩ (some config) = .ok (dt', l)
  split at h
  · rename_i dt' l' heq
    injection h with h
    subst h
    exact ⟨_, heq⟩
  · cases h

/-- The result, for evaluation. -/
def outOf (r : Res (List ScoredDatum)) : Option (List ScoredDatum) :=
  match r with
  | .ok l => some l
  | _ => none

theorem outOf_some {r : Res (List ScoredDatum)} {l : List ScoredDatum} (h : outOf r = some l) : r = .ok l := by
  cases r with
  | ok x => simpa [outOf] using h
  | err => cases h
  | panic => cases h

theorem collects_one {l got : List ScoredDatum} (h : Collects [l] got) : got.Perm l := by
  have := collects_perm h
  simp at this
  exact this.symm

/-- A client's search for the point 0 at a node which asks one other node. -/
theorem exSearch (config : SearchConfig) (xs ys : List F32) (a b found sent out : List ScoredDatum)
    (hb : exOwn exEnv config ys = some b) (ha : exOwn exEnv config xs = some a)
    (h1 : ∀ got : List ScoredDatum, got.Perm b → ∃ f, flatMerge exEnv config none got = .ok f ∧
      ∀ got' : List ScoredDatum, got'.Perm f → multiMerge exEnv config none id got' = .ok sent)
    (h2 : ∀ got : List ScoredDatum, got.Perm (a ++ sent) → flatMerge exEnv config none got = .ok found)
    (h3 : ∀ got : List ScoredDatum, got.Perm found → multiMerge exEnv config none id got = .ok out) :
    SearchOut exEnv config none [⟨some (exPoint 0), none⟩] [([exSite xs, exSite ys], found)] out := by
  obtain ⟨db, hb⟩ := exOwn_some hb
  obtain ⟨da, ha⟩ := exOwn_some ha
  obtain ⟨g1, c1⟩ := collects_exists [b]
  obtain ⟨f, hf, hm⟩ := h1 g1 (collects_one c1)
  have hpeer : AggOut exEnv ⟨some (exPoint 0), none⟩ config [exSite ys] f :=
    .node config (exSite ys) db b [] g1 f hb (by simp) (by simp) (by simp) (by simp) c1 hf
  obtain ⟨g2, c2⟩ := collects_exists [f]
  have hsent : MultiOut exEnv config none [f] sent := ⟨g2, id, c2, fun m => .refl m, hm g2 (collects_one c2)⟩
  obtain ⟨g3, c3⟩ := collects_exists [a, sent]
  have hg3 : g3.Perm (a ++ sent) := by
    have := collects_perm c3
    simp only [List.flatten_cons, List.flatten_nil, List.append_nil] at this
    exact this.symm
  have hagg : AggOut exEnv ⟨some (exPoint 0), none⟩ config [exSite xs, exSite ys] found :=
    .node config (exSite xs) da a [⟨config, [exSite ys], f, sent⟩] g3 found ha
      (fun p hp => by rw [List.mem_singleton.1 hp]; exact ⟨config.timeout, rfl⟩)
      (fun p hp => by rw [List.mem_singleton.1 hp]; exact hpeer)
      (fun p hp => by rw [List.mem_singleton.1 hp]; exact hsent) (by simp) c3 (h2 g3 hg3)
  obtain ⟨g4, c4⟩ := collects_exists [found]
  refine ⟨rfl, ?_, g4, id, c4, fun m => .refl m, h3 g4 (collects_one c4)⟩
  intro p hp
  simp only [List.zip_cons_cons, List.zip_nil_right, List.mem_singleton] at hp
  subst hp
  exact hagg

theorem perm_pair {α : Type} {l : List α} {a b : α} (h : l.Perm [a, b]) : l = [a, b] ∨ l = [b, a] := by
  match l, h with
  | [], h => exact absurd h.length_eq (by simp)
  | [_], h => exact absurd h.length_eq (by simp)
  | _ :: _ :: _ :: _, h => exact absurd h.length_eq (by simp)
  | [x, y], h =>
    have h1 : x ∈ [a, b] := h.mem_iff.1 (by simp)
    simp only [List.mem_cons, List.not_mem_nil, or_false] at h1
    rcases h1 with rfl | rfl
    · have := (List.perm_cons x).1 h
      exact Or.inl (by rw [List.perm_singleton.1 this])
    · have := (List.perm_cons x).1 (h.trans (List.Perm.swap _ _ _))
      exact Or.inr (by rw [List.perm_singleton.1 this])

/-- A hit of the example: the point `x`, at the distance `s` from 0. -/
def exFound (s : F64) (x : F32) : ScoredDatum := ⟨s, ⟨some (exPoint x), some ⟨1, [7]⟩⟩⟩

/-- Limit 1, smaller distances first. -/
def exNearest : SearchConfig := { defaultSearchConfig with limit := 1 }

theorem exNearest_out : SearchOut exEnv exNearest none [⟨some (exPoint 0), none⟩]
    [([exSite [0x3F800000], exSite [0x40000000]], [exFound two 0x40000000])] [exFound two 0x40000000] := by
  refine exSearch exNearest [0x3F800000] [0x40000000] [exFound F64.one 0x3F800000] [exFound two 0x40000000]
    [exFound two 0x40000000] [exFound two 0x40000000] [exFound two 0x40000000] (by decide +kernel) (by decide +kernel) ?_ ?_ ?_
  · intro got hp
    rw [List.perm_singleton.1 hp]
    refine ⟨[exFound two 0x40000000], outOf_some (by decide +kernel), fun got' hp' => ?_⟩
    rw [List.perm_singleton.1 hp']
    exact outOf_some (by decide +kernel)
  · intro got hp
    rcases perm_pair hp with rfl | rfl <;> exact outOf_some (by decide +kernel)
  · intro got hp
    rw [List.perm_singleton.1 hp]
    exact outOf_some (by decide +kernel)

theorem exLive (xs : List F32) : (liveEntries (exVisits xs)).map (·.datum) = xs.map fun x => ⟨some (exPoint x), some ⟨1, [7]⟩⟩ := by
  induction xs with
  | nil => rfl
  | cons x xs ih =>
    have : liveEntries (exVisits (x :: xs)) = (exStored x).2 :: liveEntries (exVisits xs) := rfl
    rw [this, List.map_cons, ih]
    rfl

/-- The hits of the example: every stored point, with its distance. -/
theorem exHits {config : SearchConfig} (hf : config.filters = []) (hg : config.groupFilters = [])
    {xss : List (List F32)} (hnd : ∀ xs ∈ xss, xs.Nodup) (x : ScoredDatum) :
    Ref.IsHitIn exEnv config (exPoint 0) (shelves (xss.map exSite)) x ↔
      ∃ xs ∈ xss, ∃ y ∈ xs, x = exFound ((Vec.getVectorComparisonFunction config.scoreFuncName).eval exEnv.o [y] [0]) y := by
  rw [← sitesHit_iff]
  constructor
  · rintro ⟨s, hs, k, v, h1, h2, _, h4⟩
    obtain ⟨xs, hxs, rfl⟩ := List.mem_map.1 hs
    have hk := (scan_out (exSite_ok xs (hnd xs hxs)).wf (exSite_ok xs (hnd xs hxs)).range (exSite_ok xs (hnd xs hxs)).clock k v).2 h2
    rw [show (exSite xs).vs = exVisits xs from rfl, exLive] at hk
    obtain ⟨y, hy, hyk⟩ := List.mem_map.1 hk
    injection hyk with e1 e2
    injection e1 with e1
    injection e2 with e2
    subst e1; subst e2
    refine ⟨xs, hxs, y, hy, ?_⟩
    cases x
    simp only at h1 h4
    subst h1; subst h4
    rfl
  · rintro ⟨xs, hxs, y, hy, rfl⟩
    refine ⟨exSite xs, List.mem_map_of_mem hxs, exPoint y, ⟨1, [7]⟩, rfl, ?_, ?_, rfl⟩
    · refine (scan_out (exSite_ok xs (hnd xs hxs)).wf (exSite_ok xs (hnd xs hxs)).range (exSite_ok xs (hnd xs hxs)).clock _ _).1 ?_
      rw [show (exSite xs).vs = exVisits xs from rfl, exLive]
      exact List.mem_map_of_mem hy
    · simp [Ref.Passes, hf, hg]

end Clu

/-- C95, counterexample: limit 1, smaller distances first; the point at distance 1 is at the node that is asked, the one at
distance 2 at another.  The answer is the one at distance 2. -/
theorem C95_cluster_search_fails : ¬ C95_cluster_search_statement := by
  intro h
  have hnd : ∀ xs ∈ [[(0x3F800000 : F32)], [0x40000000]], xs.Nodup := by decide
  have hit := exHits (config := exNearest) rfl rfl hnd
  obtain ⟨cands, ⟨h1, h2, h3⟩, rest, h4, _, _, h5⟩ := h exEnv exNearest (exPoint 0) none
    ([[0x3F800000], [0x40000000]].map exSite) _ _ exEnv_ok (by decide) rfl (by decide)
    (fun s hs => by
      obtain ⟨xs, hxs, rfl⟩ := List.mem_map.1 hs
      exact exSite_ok xs (hnd xs hxs))
    (fun x hx => by
      obtain ⟨xs, hxs, y, hy, rfl⟩ := (hit x).1 hx
      have : y = 0x3F800000 ∨ y = 0x40000000 := by
        simp only [List.mem_cons, List.not_mem_nil, or_false] at hxs
        rcases hxs with rfl | rfl
        · exact Or.inl (List.mem_singleton.1 hy)
        · exact Or.inr (List.mem_singleton.1 hy)
      rcases this with rfl | rfl <;> decide +kernel)
    exNearest_out
  obtain ⟨y, hy, hyk⟩ := h3 _ ((hit _).2 ⟨_, List.mem_cons_self, _, List.mem_cons_self, rfl⟩)
  obtain ⟨xs, hxs, z, hz, rfl⟩ := (hit y).1 (h1 y hy)
  have hz : z = 0x3F800000 := by
    injection hyk with hyk
    injection hyk with hyk
    injection hyk with hyk
  subst hz
  rcases List.mem_append.1 (h4.mem_iff.2 hy) with hm | hm
  · have := List.mem_singleton.1 hm
    exact absurd this (by decide +kernel)
  · have := h5 _ hm _ List.mem_cons_self
    exact absurd this (by decide +kernel)

/-- C95 is about searches that happen: the same two nodes, larger distances first, limit 1. -/
theorem C95_example : SearchOut exEnv { exNearest with higherIsBetter := true } none [⟨some (exPoint 0), none⟩]
    [([exSite [0x3F800000], exSite [0x40000000]], [exFound two 0x40000000])] [exFound two 0x40000000] := by
  refine exSearch _ [0x3F800000] [0x40000000] [exFound F64.one 0x3F800000] [exFound two 0x40000000]
    [exFound two 0x40000000] [exFound two 0x40000000] [exFound two 0x40000000] (by decide +kernel) (by decide +kernel) ?_ ?_ ?_
  · intro got hp
    rw [List.perm_singleton.1 hp]
    refine ⟨[exFound two 0x40000000], outOf_some (by decide +kernel), fun got' hp' => ?_⟩
    rw [List.perm_singleton.1 hp']
    exact outOf_some (by decide +kernel)
  · intro got hp
    rcases perm_pair hp with rfl | rfl <;> exact outOf_some (by decide +kernel)
  · intro got hp
    rw [List.perm_singleton.1 hp]
    exact outOf_some (by decide +kernel)

/-! ### Several data in one request -/

open Net

/-- C96, full statement: a search for `d` data, each of which the first node passes on to the second, is carried out there for
each of them.  FALSE of the code: the requests carry the same id. -/
def C96_every_datum_statement : Prop :=
  ∀ (now : Int) (nodes : List Node) (c : SearchConfig) (d : Nat) (fresh fresh' : String) (s : QState), nodes.length = 2 →
    (∀ n ∈ nodes, n.queries = [] ∧ ∃ x, n.dataset.get? c.dataName = some x ∧ x.expires = none) →
    qexec (qstart now nodes) ([.client ⟨0, c, d, true⟩, .handle 0 fresh (List.replicate d 1)] ++
      List.replicate d (.handle 0 fresh' [])) = some s →
    s.execs.countP (fun e => decide (e.node = 1)) = d

/-- C96, counterexample: two data; the second node searches for one of them. -/
theorem C96_every_datum_fails : ¬ C96_every_datum_statement := by
  intro h
  have hrun : ∃ s, qexec (qstart 0 [exN, exN]) ([.client ⟨0, exC "", 2, true⟩, .handle 0 "q" (List.replicate 2 1)] ++
      List.replicate 2 (.handle 0 "f" [])) = some s ∧ s.execs.countP (fun e => decide (e.node = 1)) = 1 := by
    have hd : (qexec (qstart 0 [exN, exN]) ([.client ⟨0, exC "", 2, true⟩, .handle 0 "q" (List.replicate 2 1)] ++
      List.replicate 2 (.handle 0 "f" []))).any (fun (s : QState) => decide (s.execs.countP (fun e => decide (e.node = 1)) = 1)) = true := by
      decide +kernel
    obtain ⟨s, h1, h2⟩ := DS.any_some hd
    exact ⟨s, h1, of_decide_eq_true h2⟩
  obtain ⟨s, h1, h2⟩ := hrun
  have := h 0 [exN, exN] (exC "") 2 "q" "f" s rfl (by
    intro n hn
    have : n = exN := by simpa using hn
    subst this
    exact ⟨rfl, _, rfl, rfl⟩) h1
  rw [h2] at this
  cases this

/-- C96, what the code does: however many data a client asks for, at each other node at most one of them is searched for (within
the lifetime of the request ids). -/
theorem C96_only_one (now : Int) (nodes : List Node) (ls : List QLabel) (s : QState) (h : qexec (qstart now nodes) ls = some s)
    (u : String) (T : Int) (hw : ∀ e ∈ s.execs, e.uuid = u → T ≤ e.time ∧ e.time ≤ T + 5 * minute) (v : Nat) :
    ((s.execs.filter fun e => decide (e.uuid = u ∧ e.node = v ∧ e.client = false)).map (·.data)).sum ≤ 1 := by
  obtain ⟨hi, _⟩ := qinv_exec ls (qinv_start now nodes) h
  have h1 := (C37_once now nodes ls s h u T hw).1 v
  have hsub : s.execs.countP (fun e => decide (e.uuid = u ∧ e.node = v ∧ e.client = false)) ≤
      s.execs.countP (fun e => decide (e.uuid = u ∧ e.node = v ∧ e.entry = false)) := by
    apply List.countP_mono_left
    intro e he hd
    have hd := of_decide_eq_true hd
    refine decide_eq_true ⟨hd.1, hd.2.1, ?_⟩
    cases hc : e.entry with
    | false => rfl
    | true => rw [(hi.ids e he).2 hc] at hd; cases hd.2.2
  have hone : ∀ l : List Exec, (∀ e ∈ l, e.sent ≤ 6 * e.data ∧ (e.client = false → e.data = 1)) →
      ((l.filter fun e => decide (e.uuid = u ∧ e.node = v ∧ e.client = false)).map (·.data)).sum =
        l.countP (fun e => decide (e.uuid = u ∧ e.node = v ∧ e.client = false)) := by
    intro l
    induction l with
    | nil => simp
    | cons a l ih =>
      intro hl
      have := ih fun e he => hl e (by simp [he])
      rw [List.filter_cons, List.countP_cons]
      split
      · rename_i hd
        have := (hl a (by simp)).2 (of_decide_eq_true hd).2.2
        simp only [List.map_cons, List.sum_cons]
        omega
      · omega
  have := hone s.execs hi.fan
  omega

/-- C96, partial: a request with an id the node does not know is carried out, on the node's data set, and from then on the node
knows the id. -/
theorem C96_first_partial (now : Int) (fresh : String) (n : Node) (c : SearchConfig) (x : DS.Slot)
    (hq : ∀ e, n.queries.get? c.uuid = some e → alive now e = false) (hx : DS.lookup now n.dataset c.dataName = some x) :
    ∃ n' u, searchEntry now fresh n (some c) = .ok (n', some (x.data, { c with uuid := u })) ∧ n'.dataset = n.dataset ∧
      (c.uuid ≠ "" → u = c.uuid ∧ ∀ t, t ≤ now + 5 * minute → searchEntry t fresh n' (some c) = .ok (n', none)) := by
  have hnew : ∀ (n' : Node) u, queryEntry now fresh n c.uuid = some (n', u) → n'.dataset = n.dataset →
      searchEntry now fresh n (some c) = .ok (n', some (x.data, { c with uuid := u })) := by
    intro n' u h1 h2
    unfold searchEntry
    simp only [h1]
    rw [h2, DS.getNoCreate, hx]
  by_cases hu : c.uuid = ""
  · exact ⟨n, fresh, hnew _ _ (by rw [queryEntry, if_pos hu]) rfl, rfl, fun h => absurd hu h⟩
  · have h1 : queryEntry now fresh n c.uuid =
        some ({ n with queries := n.queries.set c.uuid (some (now + 5 * minute)) }, c.uuid) := by
      unfold queryEntry
      rw [if_neg hu]
      split
      · rename_i e he
        rw [hq e he]
        rfl
      · rfl
    refine ⟨_, _, hnew _ _ h1 rfl, rfl, fun _ => ⟨rfl, fun t ht => ?_⟩⟩
    have ha : alive t (some (now + 5 * minute)) = true := decide_eq_true ht
    unfold searchEntry queryEntry
    simp only [if_neg hu, AMap.get?_set_self, ha, if_true]

/-! ### Groups -/

/-- C97, full statement: in a grouped search, each result carries the score of its group: the documented function of the scores of
at most `groupLimit` different matching data with its label, on the nodes that took part, and it stands for the first of them.
FALSE of the code: the nodes that are asked send group scores, which are grouped again. -/
def C97_cluster_groups_statement : Prop :=
  ∀ (E : Env) (config : SearchConfig) (q : DatumKey) (qv : Option DatumValue) (sites : List Site) (found out : List ScoredDatum),
    E.Ok → 0 < config.limit → 0 < config.groupLimit → Vec.isAnnoyName config.scoreFuncName = false → (∀ s ∈ sites, s.Ok) →
    (∀ x, Ref.IsHitIn E config q (shelves sites) x → F64.isNaN x.score = false) →
    SearchOut E config none [⟨some q, qv⟩] [(sites, found)] out →
    ∀ sd ∈ out, ∃ members : List ScoredDatum,
      (∀ m ∈ members, Ref.IsHitIn E config q (shelves sites) m ∧ Ref.labelOf m = Ref.labelOf sd) ∧
      (members.map (·.datum.key)).Nodup ∧ members.length ≤ config.groupLimit.toNat ∧
      Ref.Represents E.o config.higherIsBetter members sd

namespace Clu

theorem silent_found {E : Env} {q : Datum} {config : SearchConfig} {found : List ScoredDatum} (h : AggOut E q config [] found) :
    found = [] := by
  cases h
  rfl

theorem silent_sent {E : Env} {config : SearchConfig} {sent : List ScoredDatum} (h : MultiOut E config none [[]] sent) :
    sent = [] := by
  obtain ⟨got, order, h1, h2, h3⟩ := h
  have : got = [] := by
    have := collects_perm h1
    simp at this
    exact this
  subst this
  have hflat : flatMerge E config none [] = .ok sent → sent = [] := by
    intro h
    unfold flatMerge at h
    simp only [Flat.insertAll, Res.bind_ok] at h
    rw [result_eq] at h
    split at h
    · injection h with h; exact h.symm
    · split at h
      · cases h
      · injection h with h
        rw [← h]; simp [newFlat]
  unfold multiMerge at h3
  split at h3
  · have ho : order [] = [] := (h2 []).eq_nil
    simp only [Grouped.insertAll, Res.bind_ok, newGrouped, Grouped.result, ho, List.map_nil, insertOnes] at h3
    exact hflat h3
  · exact hflat h3

theorem flatMerge_sub {E : Env} (hE : E.Ok) {config : SearchConfig} (hl : 0 < config.limit) {got out : List ScoredDatum}
    (hk : Ref.Keyed got) (h : flatMerge E config none got = .ok out) :
    (∀ x ∈ out, x ∈ got) ∧ config.resultLimit.toNat < 2^63 := by
  have hp : ¬ (2^63 ≤ config.resultLimit.toNat ∨ config.limit = 0 ∧ got ≠ []) := fun hc => by
    have := (C73_merge_panics_iff E hE config got hk).2 hc
    unfold flatMerge at h
    rw [this] at h
    cases h
  refine ⟨?_, by omega⟩
  obtain ⟨a, h1, _, _, h4, _⟩ := insertAll_ok hE.sort got (newFlat config none) hl rfl hk (by simp [newFlat]) (by simp [newFlat])
  unfold flatMerge at h
  rw [h1, Res.bind_ok] at h
  obtain ⟨_, _, ⟨t, ht⟩, _⟩ := C31_result_bounded E hE config none got a out h1 h
  intro x hx
  have := h4 x (by rw [← ht]; exact List.mem_append_left _ hx)
  simpa [newFlat] using this

/-- In a search in which only the node itself takes part, the only results that arrive are its own. -/
theorem alone_got {E : Env} {config : SearchConfig} {q : Datum} {site : Site} {found : List ScoredDatum}
    (h : AggOut E q config [site] found) : ∃ dt' own got, streamSearch E site.vs site.answer site.dt q (some config) = .ok (dt', own) ∧
      own.Perm got ∧ flatMerge E config none got = .ok found := by
  generalize hs : [site] = sites at h
  cases h with
  | silent => cases hs
  | node _ site' dt' own peers got out hown hcfg hagg hmulti hlen hcol hmerge =>
    injection hs with hs1 hs2
    subst hs1
    have hsent : ∀ p ∈ peers, p.sent = [] := by
      intro p hp
      have h1 : p.sites = [] := by
        rw [eq_comm, List.flatMap_eq_nil_iff] at hs2
        exact hs2 p hp
      have h2 := hagg p hp
      rw [h1] at h2
      have h3 := hmulti p hp
      rw [silent_found h2] at h3
      exact silent_sent h3
    have hnil : (peers.map (·.sent)).flatten = [] := by
      rw [List.flatten_eq_nil_iff]
      intro l hl
      obtain ⟨p, hp, rfl⟩ := List.mem_map.1 hl
      exact hsent p hp
    have := collects_perm hcol
    rw [List.flatten_cons, hnil, List.append_nil] at this
    exact ⟨dt', own, got, hown, this, hmerge⟩

/-- A search in which only the node itself takes part. -/
theorem alone_sub {E : Env} (hE : E.Ok) {config : SearchConfig} (hl : 0 < config.limit)
    (hname : Vec.isAnnoyName config.scoreFuncName = false) {q : DatumKey} {qv : Option DatumValue} {site : Site} (hok : site.Ok)
    {found : List ScoredDatum} (h : AggOut E ⟨some q, qv⟩ config [site] found) :
    ∀ x ∈ found, siteHit E config q site x := by
  obtain ⟨dt', own, got, hown, hgot, hmerge⟩ := alone_got h
  obtain ⟨dt1, c, cands, h1, h2, h3, _, _, h4⟩ := C72_nan_partial E hE site.dt site.vs site.clock q qv config hok.wf hok.range
    hok.clock hl
  unfold streamSearch at hown
  simp only [Option.getD_some, hname, Bool.false_eq_true, if_false] at hown
  rw [h1, Res.bind_ok] at hown
  injection hown with hown
  injection hown with _ hown
  subst hown
  have hhit : ∀ x ∈ got, siteHit E config q site x := fun x hx => (h3 x).1 (h4 x (hgot.mem_iff.2 hx))
  have hk : Ref.Keyed got := by
    intro x hx
    obtain ⟨k, v, h, _⟩ := hhit x hx
    exact ⟨k, some v, h⟩
  intro x hx
  exact hhit x ((flatMerge_sub hE hl hk hmerge).1 x hx)

end Clu

/-- C95, partial, for a search in which only the node itself takes part: in both directions the best of all its live matching data. -/
theorem C95_alone_partial (E : Env) (config : SearchConfig) (q : DatumKey) (qv : Option DatumValue) (site : Site)
    (found out : List ScoredDatum) (hE : E.Ok) (hl : 0 < config.limit) (hg : config.groupLimit = 0)
    (hname : Vec.isAnnoyName config.scoreFuncName = false) (hok : site.Ok)
    (hn : ∀ x, Ref.IsHitIn E config q (shelves [site]) x → F64.isNaN x.score = false)
    (h : SearchOut E config none [⟨some q, qv⟩] [([site], found)] out) :
    ∃ cands, Ref.OnePerKey (Ref.IsHitIn E config q (shelves [site])) cands ∧
      IsTopK (Ref.better config.higherIsBetter) (Ref.asked config) cands out := by
  have hS : siteHit E config q site = Ref.IsHitIn E config q (shelves [site]) := by
    funext x
    refine propext (Iff.trans ?_ (sitesHit_iff E config q [site] x))
    simp [sitesHit]
  rw [← hS] at hn ⊢
  have hs : Sound (siteHit E config q site) := by
    refine ⟨?_, hn, fun x y hx hy hk => hit_score hx hy hk⟩
    rintro x ⟨k, v, h, _⟩
    exact ⟨k, some v, h⟩
  obtain ⟨_, h1, h2⟩ := h
  obtain ⟨dt', own, got, hown, hgot, hmerge⟩ := alone_got (h1 (⟨some q, qv⟩, [site], found) (by simp))
  obtain ⟨ha, all, hall⟩ := own_adequate hE hl hname hok hn hown
  have hlen : (own.map (·.datum.key)).length ≤ config.limit.toNat := by
    obtain ⟨dt1, c, cands, g1, _, _, g4, _⟩ := C22_search_top_k E hE site.dt site.vs site.clock q qv config hok.wf hok.range
      hok.clock hl hn
    unfold streamSearch at hown
    simp only [Option.getD_some, hname, Bool.false_eq_true, if_false] at hown
    rw [g1, Res.bind_ok] at hown
    injection hown with hown
    injection hown with _ hown
    subst hown
    rw [List.length_map]
    exact g4.length_le
  obtain ⟨f1, -⟩ := flatMerge_adequate hE hl hs (own.map (·.datum.key))
    (Or.inr ⟨hlen, fun x hx => List.mem_map.2 ⟨x, hgot.mem_iff.2 hx, rfl⟩⟩) (ha.perm hgot) hmerge
  have hk : Ref.Keyed got := fun x hx => hs.keyed x ((ha.perm hgot).hits x hx)
  have hsub := (flatMerge_sub hE hl hk hmerge).1
  obtain ⟨g1, g2, g3, g4⟩ := multi_adequate hE hl hg hs (own.map (·.datum.key))
    (Or.inr ⟨hlen, fun x hx => List.mem_map.2 ⟨x, hgot.mem_iff.2 (hsub x hx), rfl⟩⟩) f1 h2
  exact adequate_topk hs all hall g1 g4 g2 g3

/-- C97, partial: if no other node takes part. -/
theorem C97_cluster_groups_partial (E : Env) (config : SearchConfig) (q : DatumKey) (qv : Option DatumValue) (site : Site)
    (found out : List ScoredDatum) (hE : E.Ok) (hl : 0 < config.limit) (hg : 0 < config.groupLimit)
    (hname : Vec.isAnnoyName config.scoreFuncName = false) (hok : site.Ok) (hr : config.resultLimit.toNat < 2^63)
    (h : SearchOut E config none [⟨some q, qv⟩] [([site], found)] out) :
    ∀ sd ∈ out, ∃ members : List ScoredDatum,
      (∀ m ∈ members, Ref.IsHitIn E config q (shelves [site]) m ∧ Ref.labelOf m = Ref.labelOf sd) ∧
      (members.map (·.datum.key)).Nodup ∧ members.length ≤ config.groupLimit.toNat ∧
      Ref.Represents E.o config.higherIsBetter members sd := by
  obtain ⟨_, h1, got, order, h2, h3, h4⟩ := h
  have hfound := alone_sub hE hl hname hok (h1 (⟨some q, qv⟩, [site], found) (by simp))
  have hgot : ∀ x ∈ got, siteHit E config q site x := fun x hx => hfound x ((collects_one h2).mem_iff.1 hx)
  have hk : Ref.Keyed got := by
    intro x hx
    obtain ⟨k, v, h, _⟩ := hgot x hx
    exact ⟨k, some v, h⟩
  have hc : Ref.Consistent got := by
    intro x hx y hy hxy
    rw [hit_score (hgot x hx) (hgot y hy) hxy]
    exact F64.lt_irrefl _
  rw [multiMerge, if_pos hg] at h4
  obtain ⟨a, g1, g2⟩ := C30_grouped_result E hE config got hl hg hr hk
  obtain ⟨out', ones, rest, r1, r2, r3, r4, r5, _⟩ := g2 (order a.groups) (h3 _)
  rw [g1, Res.bind_ok, r1] at h4
  injection h4 with h4
  subst h4
  intro sd hsd
  obtain ⟨g, e1, e2⟩ := r4 sd (r5.mem_iff.1 (List.mem_append_left _ hsd))
  have hsub : ∀ x ∈ Ref.inGroup (Ref.labelOf sd) got, x ∈ got ∧ Ref.labelOf x = Ref.labelOf sd := fun x hx => by
    have := List.mem_filter.1 hx
    exact ⟨this.1, of_decide_eq_true this.2⟩
  obtain ⟨g', cands, c1, c2, c3, c4, c5⟩ := C29_no_duplicates_partial E hE (groupConfig config) (Ref.inGroup (Ref.labelOf sd) got) hg
    (fun x hx => hk x (hsub x hx).1) (consistent_mono hc fun x hx => (hsub x hx).1)
  have : g' = g := by
    unfold groupMerge at e1
    rw [e1] at c1
    injection c1 with c1
    exact c1.symm
  subst this
  refine ⟨g'.list, fun m hm => ?_, c2, ?_, e2⟩
  · have := hsub m (c3.1 m (c4 m hm))
    exact ⟨(sitesHit_iff E config q [site] m).1 ⟨site, List.mem_cons_self, hgot m this.1⟩, this.2⟩
  · rw [c5]; exact Nat.min_le_left _ _

namespace Clu

def four : F64 := 0x4010000000000000
def eight : F64 := 0x4020000000000000
def twelve : F64 := 0x4028000000000000
def thirteen : F64 := 0x402A000000000000

/-- Larger distances first, groups of two. -/
def exPairs : SearchConfig := { defaultSearchConfig with higherIsBetter := true, groupLimit := 2 }

theorem exPairs_out : SearchOut exEnv exPairs none [⟨some (exPoint 0), none⟩]
    [([exSite [0x3F800000], exSite [0x40800000, 0x41000000]], [exFound twelve 0x41000000, exFound F64.one 0x3F800000])]
    [exFound thirteen 0x41000000] := by
  refine exSearch exPairs [0x3F800000] [0x40800000, 0x41000000] [exFound F64.one 0x3F800000]
    [exFound eight 0x41000000, exFound four 0x40800000] _ [exFound twelve 0x41000000] _
    (by decide +kernel) (by decide +kernel) ?_ ?_ ?_
  · intro got hp
    refine ⟨[exFound eight 0x41000000, exFound four 0x40800000], ?_, fun got' hp' => ?_⟩
    · rcases perm_pair hp with rfl | rfl <;> exact outOf_some (by decide +kernel)
    · rcases perm_pair hp' with rfl | rfl <;> exact outOf_some (by decide +kernel)
  · intro got hp
    rcases perm_pair hp with rfl | rfl <;> exact outOf_some (by decide +kernel)
  · intro got hp
    rcases perm_pair hp with rfl | rfl <;> exact outOf_some (by decide +kernel)

end Clu

/-- C97, counterexample: groups of two, scores are summed; the node that is asked has a datum with score 1, another one has data
with scores 4 and 8 of the same group.  The answer is 13, the sum of all three. -/
theorem C97_cluster_groups_fails : ¬ C97_cluster_groups_statement := by
  intro h
  have hnd : ∀ xs ∈ [[(0x3F800000 : F32)], [0x40800000, 0x41000000]], xs.Nodup := by decide
  have hit : ∀ x, Ref.IsHitIn exEnv exPairs (exPoint 0) (shelves ([[0x3F800000], [0x40800000, 0x41000000]].map exSite)) x →
      x = exFound F64.one 0x3F800000 ∨ x = exFound four 0x40800000 ∨ x = exFound eight 0x41000000 := by
    intro x hx
    obtain ⟨xs, hxs, y, hy, rfl⟩ := (exHits (config := exPairs) rfl rfl hnd x).1 hx
    simp only [List.mem_cons, List.not_mem_nil, or_false] at hxs
    rcases hxs with rfl | rfl
    · rw [List.mem_singleton.1 hy]
      exact Or.inl (by decide +kernel)
    · simp only [List.mem_cons, List.not_mem_nil, or_false] at hy
      rcases hy with rfl | rfl
      · exact Or.inr (Or.inl (by decide +kernel))
      · exact Or.inr (Or.inr (by decide +kernel))
  obtain ⟨members, h1, h2, h3, ⟨first, rest, h4, _⟩, h5⟩ := h exEnv exPairs (exPoint 0) none
    ([[0x3F800000], [0x40800000, 0x41000000]].map exSite) _ _ exEnv_ok (by decide) (by decide) (by decide)
    (fun s hs => by
      obtain ⟨xs, hxs, rfl⟩ := List.mem_map.1 hs
      exact exSite_ok xs (hnd xs hxs))
    (fun x hx => by rcases hit x hx with rfl | rfl | rfl <;> decide +kernel)
    exPairs_out _ List.mem_cons_self
  have hm : ∀ m ∈ members, m = exFound F64.one 0x3F800000 ∨ m = exFound four 0x40800000 ∨ m = exFound eight 0x41000000 :=
    fun m hm => hit m (h1 m hm).1
  have h3 : members.length ≤ 2 := h3
  match members, h3, hm, h4, h5 with
  | [], _, _, h4, _ => cases h4
  | [a], _, hm, _, h5 =>
    rcases hm a (by simp) with rfl | rfl | rfl <;> exact absurd h5 (by decide +kernel)
  | [a, b], _, hm, _, h5 =>
    rcases hm a (by simp) with rfl | rfl | rfl <;> rcases hm b (by simp) with rfl | rfl | rfl <;>
      exact absurd h5 (by decide +kernel)
  | _ :: _ :: _ :: _, h3, _, _, _ => simp at h3

end Veri
