import Verif.Cluster.EndToEnd
/-
C168: a search with room for all matching data returns all of them (data/search.go:130-298, data/aggregator.go:78-136).
C169: so what was inserted at one node is found from every node.
-/
set_option autoImplicit false
namespace Veri
open Gencoder Store

namespace Clu
open Search Agg Ref

/-- What a search for one datum that has room for all hits answers: hits only, one for each key. -/
structure Whole (S : ScoredDatum → Prop) (o : List ScoredDatum) : Prop where
  hits : ∀ x ∈ o, S x
  all : ∀ x, S x → ∃ y ∈ o, y.datum.key = x.datum.key
  once : (o.map (·.datum.key)).Nodup

theorem Whole.length {S : ScoredDatum → Prop} {o : List ScoredDatum} (h : Whole S o) {keys : List (Option DatumKey)}
    (hk : ∀ x, S x → x.datum.key ∈ keys) : o.length ≤ keys.length := by
  have := List.Nodup.length_le_of_subset h.once (l₂ := keys) fun k hm => by
    obtain ⟨x, hx, rfl⟩ := List.mem_map.1 hm
    exact hk x (h.hits x hx)
  rwa [List.length_map] at this

/-- `Result` when the result limit is large enough. -/
theorem result_room {a : Flat} {out : List ScoredDatum} (h : a.result = .ok out)
    (hr : a.config.resultLimit = 0 ∨ a.list.length ≤ a.config.resultLimit.toNat) : out = a.list := by
  rw [result_eq] at h
  split at h
  · injection h with h; exact h.symm
  · rename_i h0
    split at h
    · cases h
    · injection h with h
      rw [← h, List.take_of_length_le (hr.resolve_left h0)]

theorem asked_room {config : SearchConfig} {n : Nat} (h : n ≤ asked config) :
    n ≤ config.limit.toNat ∧ (config.resultLimit = 0 ∨ n ≤ config.resultLimit.toNat) := by
  unfold asked at h
  split at h
  · rename_i h0; exact ⟨h, Or.inl h0⟩
  · exact ⟨by omega, Or.inr (by omega)⟩

/-- The merge of `AggregatedSearch`. -/
theorem flatMerge_whole {E : Env} (hE : E.Ok) {config : SearchConfig} (hl : 0 < config.limit) {S : ScoredDatum → Prop}
    (hkeyed : ∀ x, S x → ∃ k v, x.datum = ⟨some k, v⟩)
    (hscore : ∀ x y, S x → S y → x.datum.key = y.datum.key → x.score = y.score) {keys : List (Option DatumKey)}
    (hk : ∀ x, S x → x.datum.key ∈ keys) (hroom : keys.length ≤ asked config) {got out : List ScoredDatum}
    (hits : ∀ x ∈ got, S x) (all : ∀ x, S x → ∃ y ∈ got, y.datum.key = x.datum.key)
    (h : flatMerge E config none got = .ok out) : Whole S out := by
  obtain ⟨h5, h6⟩ := asked_room hroom
  obtain ⟨a, acc, o, h1, h2, h3, h4, h7⟩ := insertAll_distinct hE got (newFlat config none) [] [] hl rfl (seen_nil _ _)
    ⟨[], .refl _⟩ (by simp [newFlat]) (fun x hx => hkeyed x (hits x hx))
    (fun x hx y hy e => by
      rw [hscore x y (hits x (by simpa using hx)) (hits y (by simpa using hy)) e]; exact F64.lt_irrefl _)
  have h3 : Distinct got acc := by simpa using h3
  have hlen : acc.length ≤ keys.length := by
    have := List.Nodup.length_le_of_subset h3.2.1 (l₂ := keys) fun k hm => by
      obtain ⟨x, hx, rfl⟩ := List.mem_map.1 hm
      exact hk x (hits x (h3.1 x hx))
    rwa [List.length_map] at this
  have h7 : a.list.length = min config.limit.toNat acc.length := h7
  have hlen2 := h4.length_eq
  rw [List.length_append] at hlen2
  have ho : o = [] := List.eq_nil_of_length_eq_zero (by omega)
  rw [ho, List.append_nil] at h4
  unfold flatMerge at h
  rw [h1, Res.bind_ok] at h
  have hc : a.config = config := h2.1
  have hout := result_room h (by rw [hc]; exact h6.imp id fun h6 => by omega)
  rw [hout]
  refine ⟨fun x hx => hits x (h3.1 x (h4.mem_iff.1 hx)), fun x hx => ?_, ((h4.map _).nodup_iff).2 h3.2.1⟩
  obtain ⟨y, hy, e⟩ := all x hx
  obtain ⟨z, hz, e'⟩ := h3.2.2 y hy
  exact ⟨z, h4.mem_iff.2 hz, e'.trans e⟩

/-- A node's own results. -/
theorem own_whole {E : Env} (hE : E.Ok) {config : SearchConfig} (hl : 0 < config.limit)
    (hname : Vec.isAnnoyName config.scoreFuncName = false) {q : DatumKey} {qv : Option DatumValue} {s : Site} (hok : s.Ok)
    {keys : List (Option DatumKey)} (hk : ∀ x, siteHit E config q s x → x.datum.key ∈ keys) (hroom : keys.length ≤ config.limit.toNat)
    {dt' : Data} {own : List ScoredDatum}
    (h : streamSearch E s.vs s.answer s.dt ⟨some q, qv⟩ (some config) = .ok (dt', own)) : Whole (siteHit E config q s) own := by
  obtain ⟨hnd, hmem⟩ := cands_spec E hok.wf hok.range hok.clock q config
  generalize hcs : (liveEntries s.vs).filterMap (candOf E (newCollector config) q) = cands at hnd hmem
  have hkeys : (cands.map (·.datum.key)).Nodup := by
    rw [List.nodup_iff_pairwise_ne, List.pairwise_map]
    exact hnd.imp_of_mem fun {x y} hx hy hne e => hne (siteHit_unique ((hmem x).1 hx) ((hmem y).1 hy) e)
  have hlen : cands.length ≤ keys.length := by
    have := List.Nodup.length_le_of_subset hkeys (l₂ := keys) fun k hm => by
      obtain ⟨x, hx, rfl⟩ := List.mem_map.1 hm
      exact hk x ((hmem x).1 hx)
    rwa [List.length_map] at this
  obtain ⟨c, h1, h2, o, h3⟩ := Search.insertAll_spec hE.sort cands (newCollector config) hl (by simp [newCollector])
  have hs : search E s.vs s.dt ⟨some q, qv⟩ (some config) = .ok ({ s.dt with dbMap := eraseAll s.dt.dbMap (expiredKeys s.vs) }, c) := by
    have hlp := loopDBMap_complete (searchCb E ⟨some q, qv⟩) s.vs s.dt.dbMap (newCollector config) c
      (by rw [feed_search E q qv _ _ (live_keyed hok.wf hok.range), hcs, h1]; rfl)
    unfold search
    simp only [Option.getD_some, hlp, Res.bind_ok]
  unfold streamSearch at h
  simp only [Option.getD_some, hname, Bool.false_eq_true, if_false] at h
  rw [hs, Res.bind_ok] at h
  injection h with h
  injection h with _ h
  subst h
  have h2 : c.list.length = min config.limit.toNat (0 + cands.length) := h2
  have h3 : (c.list ++ o).Perm cands := h3
  have hl3 := h3.length_eq
  rw [List.length_append] at hl3
  have ho : o = [] := List.eq_nil_of_length_eq_zero (by omega)
  rw [ho, List.append_nil] at h3
  exact ⟨fun x hx => (hmem x).1 (h3.mem_iff.1 hx), fun x hx => ⟨x, h3.mem_iff.2 ((hmem x).2 hx), rfl⟩,
    ((h3.map _).nodup_iff).2 hkeys⟩

theorem hit_keyed {E : Env} {config : SearchConfig} {q : DatumKey} {sites : List Site} (x : ScoredDatum)
    (h : sitesHit E config q sites x) : ∃ k v, x.datum = ⟨some k, v⟩ := by
  obtain ⟨s, _, k, v, h, _⟩ := h
  exact ⟨k, some v, h⟩

theorem hits_score {E : Env} {config : SearchConfig} {q : DatumKey} {sites : List Site} (x y : ScoredDatum)
    (hx : sitesHit E config q sites x) (hy : sitesHit E config q sites y) (hk : x.datum.key = y.datum.key) : x.score = y.score := by
  obtain ⟨s, _, hx⟩ := hx
  obtain ⟨s', _, hy⟩ := hy
  exact hit_score hx hy hk

theorem agg_whole {E : Env} (hE : E.Ok) (q : DatumKey) (qv : Option DatumValue) (keys : List (Option DatumKey))
    {config : SearchConfig} {sites : List Site} {out : List ScoredDatum} (h : AggOut E ⟨some q, qv⟩ config sites out) :
    0 < config.limit → config.groupLimit = 0 → Vec.isAnnoyName config.scoreFuncName = false → (∀ s ∈ sites, s.Ok) →
    (∀ x, sitesHit E config q sites x → x.datum.key ∈ keys) → keys.length ≤ asked config →
    Whole (sitesHit E config q sites) out := by
  induction h with
  | silent config =>
    intro _ _ _ _ _ _
    exact ⟨by simp, (by rintro x ⟨s, hs, _⟩; cases hs), by simp⟩
  | node config site dt' own peers got out hown hcfg hagg hmulti hlen hcol hmerge ih =>
    intro hl hg hname hok hk hroom
    have hsite : ∀ x, siteHit E config q site x → sitesHit E config q (site :: peers.flatMap (·.sites)) x :=
      fun x hx => ⟨site, List.mem_cons_self, hx⟩
    have hpeer : ∀ p ∈ peers, ∀ x, sitesHit E config q p.sites x →
        sitesHit E config q (site :: peers.flatMap (·.sites)) x := by
      rintro p hp x ⟨s, hs, hx⟩
      exact ⟨s, List.mem_cons_of_mem _ (List.mem_flatMap.2 ⟨p, hp, hs⟩), hx⟩
    have ho := own_whole hE hl hname (hok site List.mem_cons_self) (fun x hx => hk x (hsite x hx)) (asked_room hroom).1 hown
    have hp : ∀ p ∈ peers, Whole (sitesHit E config q p.sites) p.sent := by
      intro p hp
      obtain ⟨t, ht⟩ := hcfg p hp
      have hih := ih p hp
      have hm := hmulti p hp
      rw [ht] at hih hm
      rw [sitesHit_timeout, asked_timeout] at hih
      have h1 := hih hl hg hname (fun s hs => hok s (List.mem_cons_of_mem _ (List.mem_flatMap.2 ⟨p, hp, hs⟩)))
        (fun x hx => hk x (hpeer p hp x hx)) hroom
      obtain ⟨got', order, g1, _, g2⟩ := hm
      rw [multiMerge, if_neg (by rw [hg]; decide)] at g2
      have hperm := collects_perm g1
      simp only [List.flatten_cons, List.flatten_nil, List.append_nil] at hperm
      exact flatMerge_whole hE (config := { config with timeout := t }) hl (hit_keyed (config := config)) (hits_score (config := config))
        (fun x hx => hk x (hpeer p hp x hx)) hroom (fun x hx => h1.hits x (hperm.mem_iff.2 hx))
        (fun x hx => by
          obtain ⟨y, hy, e⟩ := h1.all x hx
          exact ⟨y, hperm.mem_iff.1 hy, e⟩) g2
    have hperm := collects_perm hcol
    refine flatMerge_whole hE hl hit_keyed hits_score hk hroom ?_ ?_ hmerge
    · intro x hx
      have := hperm.mem_iff.2 hx
      rw [List.flatten_cons, List.mem_append] at this
      rcases this with h | h
      · exact hsite x (ho.hits x h)
      · obtain ⟨l, hl', hx'⟩ := List.mem_flatten.1 h
        obtain ⟨p, hpm, rfl⟩ := List.mem_map.1 hl'
        exact hpeer p hpm x ((hp p hpm).hits x hx')
    · rintro x ⟨s, hs, hx⟩
      have hin : ∃ y ∈ (own :: peers.map (·.sent)).flatten, y.datum.key = x.datum.key := by
        rw [List.flatten_cons]
        rcases List.mem_cons.1 hs with rfl | hs
        · obtain ⟨y, hy, e⟩ := ho.all x hx
          exact ⟨y, List.mem_append_left _ hy, e⟩
        · obtain ⟨p, hpm, hs⟩ := List.mem_flatMap.1 hs
          obtain ⟨y, hy, e⟩ := (hp p hpm).all x ⟨s, hs, hx⟩
          exact ⟨y, List.mem_append_right _ (List.mem_flatten.2 ⟨_, List.mem_map_of_mem hpm, hy⟩), e⟩
      obtain ⟨y, hy, e⟩ := hin
      exact ⟨y, hperm.mem_iff.1 hy, e⟩

/-! ### The last merge, with any context and any number of data -/

/-- One arrival when there is room: it is kept, or its key is there already. -/
theorem insert_room {E : Env} (hE : IsSort E.sort) {a a' : Flat} {sd : ScoredDatum} (k : DatumKey) (v : Option DatumValue)
    (hk : sd.datum = ⟨some k, v⟩) (hroom : a.list.length < a.config.limit.toNat)
    (hs : ∀ k, a.seen.get? (encKey k) ≠ none → ∃ y ∈ a.list, y.datum.key = some k) (h : a.insert E sd = .ok a') :
    (a' = a ∧ ∃ y ∈ a.list, y.datum.key = some k) ∨
    (a.Same a' ∧ (∃ s, a'.list.Perm ({ sd with score := s } :: a.list)) ∧
      ∀ k, a'.seen.get? (encKey k) ≠ none → ∃ y ∈ a'.list, y.datum.key = some k) := by
  have fin : ∀ s, Flat.insertToList E { a with seen := a.seen.set (encKey k) s } { sd with score := s } = .ok a' →
      a.Same a' ∧ (∃ s, a'.list.Perm ({ sd with score := s } :: a.list)) ∧
      ∀ k, a'.seen.get? (encKey k) ≠ none → ∃ y ∈ a'.list, y.datum.key = some k := by
    intro s hi
    unfold Flat.insertToList at hi
    rw [if_pos ((toNat_lt_limit (Nat.le_of_lt hroom)).2 hroom)] at hi
    injection hi with hi
    subst hi
    have hp := (hE.perm (lessFor E.o a.config.higherIsBetter) (a.list ++ [{ sd with score := s }])).trans
      (List.perm_append_comm (l₁ := a.list))
    refine ⟨⟨rfl, rfl⟩, ⟨s, hp⟩, ?_⟩
    intro k' hg
    by_cases he : encKey k = encKey k'
    · exact ⟨{ sd with score := s }, hp.mem_iff.2 (by simp), by rw [← encKey_inj he, hk]⟩
    · have hg : AMap.get? (AMap.set a.seen (encKey k) s) (encKey k') ≠ none := hg
      rw [AMap.get?_set_ne _ _ he] at hg
      obtain ⟨y, hy, e⟩ := hs k' hg
      exact ⟨y, hp.mem_iff.2 (by simp [hy]), e⟩
  unfold Flat.insert at h
  cases hb : bestScore E.o a.config a.context sd with
  | panic => rw [hb] at h; cases h
  | err e => rw [hb] at h; cases h
  | ok s =>
    rw [hb] at h
    simp only [Res.bind_ok, Flat.insertScored, hk, getKeyAsBytes_some, Res.ofOption_some, encodeToString] at h
    rw [← hk] at h
    cases hg : a.seen.get? (encKey k) with
    | none =>
      rw [hg] at h
      exact Or.inr (fin s h)
    | some s' =>
      rw [hg] at h
      simp only at h
      split at h
      · exact Or.inr (fin s h)
      · injection h with h
        exact Or.inl ⟨h.symm, hs k (by rw [hg]; simp)⟩

theorem insertAll_room {E : Env} (hE : IsSort E.sort) : ∀ (sds : List ScoredDatum) (a a' : Flat),
    Keyed sds → a.list.length + sds.length ≤ a.config.limit.toNat →
    (∀ k, a.seen.get? (encKey k) ≠ none → ∃ y ∈ a.list, y.datum.key = some k) → a.insertAll E sds = .ok a' →
    a.Same a' ∧ (∃ rest, (a'.list.map (·.datum) ++ rest).Perm (a.list.map (·.datum) ++ sds.map (·.datum))) ∧
      (∀ x ∈ a.list ++ sds, ∃ y ∈ a'.list, y.datum.key = x.datum.key)
  | [], a, a', _, _, _, h => by
    simp only [Flat.insertAll, Res.ok.injEq] at h
    subst h
    exact ⟨.refl a, ⟨[], by simp⟩, fun x hx => ⟨x, by simpa using hx, rfl⟩⟩
  | sd :: sds, a, a', hk, hroom, hs, h => by
    obtain ⟨k, v, hkv⟩ := hk sd List.mem_cons_self
    have hk' : Keyed sds := fun x hx => hk x (List.mem_cons_of_mem _ hx)
    simp only [List.length_cons] at hroom
    rw [Flat.insertAll] at h
    cases hi : a.insert E sd with
    | panic => rw [hi] at h; cases h
    | err e => rw [hi] at h; cases h
    | ok a1 =>
      rw [hi, Res.bind_ok] at h
      rcases insert_room hE k v hkv (by omega) hs hi with ⟨rfl, y, hy, e⟩ | ⟨h1, ⟨s, h2⟩, h3⟩
      · obtain ⟨g1, ⟨rest, g2⟩, g3⟩ := insertAll_room hE sds a1 a' hk' (by omega) hs h
        refine ⟨g1, ⟨sd.datum :: rest, ?_⟩, ?_⟩
        · refine List.perm_middle.trans ((g2.cons _).trans ?_)
          rw [List.map_cons]
          exact List.perm_middle.symm
        · intro x hx
          rcases List.mem_append.1 hx with hx | hx
          · exact g3 x (List.mem_append_left _ hx)
          · rcases List.mem_cons.1 hx with rfl | hx
            · obtain ⟨z, hz, e'⟩ := g3 y (List.mem_append_left _ hy)
              exact ⟨z, hz, by rw [e', e, hkv]⟩
            · exact g3 x (List.mem_append_right _ hx)
      · have hlen : a1.list.length = a.list.length + 1 := by rw [h2.length_eq]; simp
        obtain ⟨g1, ⟨rest, g2⟩, g3⟩ := insertAll_room hE sds a1 a' hk' (by rw [h1.1]; omega) h3 h
        refine ⟨h1.trans g1, ⟨rest, ?_⟩, ?_⟩
        · refine g2.trans (((h2.map (·.datum)).append_right _).trans ?_)
          rw [List.map_cons, List.map_cons]
          exact List.perm_middle.symm
        · intro x hx
          rcases List.mem_append.1 hx with hx | hx
          · exact g3 x (List.mem_append_left _ (h2.mem_iff.2 (by simp [hx])))
          · rcases List.mem_cons.1 hx with rfl | hx
            · obtain ⟨z, hz, e'⟩ := g3 { x with score := s } (List.mem_append_left _ (h2.mem_iff.2 (by simp)))
              exact ⟨z, hz, e'⟩
            · exact g3 x (List.mem_append_right _ hx)

theorem length_flatten_le {α : Type} {n : Nat} : ∀ (ls : List (List α)), (∀ l ∈ ls, l.length ≤ n) → ls.flatten.length ≤ n * ls.length
  | [], _ => by simp
  | l :: ls, h => by
    have := length_flatten_le ls fun l hl => h l (List.mem_cons_of_mem _ hl)
    have h1 := h l List.mem_cons_self
    rw [List.flatten_cons, List.length_append, List.length_cons, Nat.mul_add]
    omega

end Clu
open Clu Search Agg

/-- C168: a search that is not cut short, with room for as many results as different data match (times the number of data asked for),
returns every live matching datum of the nodes that took part and nothing else; each once if one datum was asked for. -/
theorem C168_all_returned (E : Env) (hE : E.Ok) (config : SearchConfig) (context : Option SearchContext)
    (qs : List (DatumKey × Option DatumValue)) (parts : List (List Site × List ScoredDatum)) (out : List ScoredDatum)
    (hl : 0 < config.limit) (hg : config.groupLimit = 0) (hname : ¬ "Annoy".toList <+: config.scoreFuncName.toList)
    (hok : ∀ p ∈ parts, ∀ s ∈ p.1, s.Ok) (keys : List (Option DatumKey)) (hroom : keys.length * qs.length ≤ Ref.asked config)
    (hk : ∀ p ∈ qs.zip parts, ∀ x, Ref.IsHitIn E config p.1.1 (shelves p.2.1) x → x.datum.key ∈ keys)
    (h : SearchOut E config context (qs.map fun q => ⟨some q.1, q.2⟩) parts out) :
    (∀ p ∈ qs.zip parts, ∀ x, Ref.IsHitIn E config p.1.1 (shelves p.2.1) x → ∃ y ∈ out, y.datum.key = x.datum.key) ∧
    (∀ y ∈ out, ∃ p ∈ qs.zip parts, ∃ x, Ref.IsHitIn E config p.1.1 (shelves p.2.1) x ∧ y.datum = x.datum) ∧
    (qs.length = 1 → (out.map (·.datum.key)).Nodup) := by
  have hn : Vec.isAnnoyName config.scoreFuncName = false := by
    cases h : Vec.isAnnoyName config.scoreFuncName with
    | false => rfl
    | true => exact absurd (List.isPrefixOf_iff_prefix.mp h) hname
  obtain ⟨h1, h2, got, order, h3, -, h4⟩ := h
  rw [List.length_map] at h1
  rw [multiMerge, if_neg (by rw [hg]; decide)] at h4
  have hwhole : ∀ p ∈ qs.zip parts, Whole (sitesHit E config p.1.1 p.2.1) p.2.2 := by
    intro p hp
    have hpos : 0 < qs.length := List.length_pos_of_mem (List.of_mem_zip hp).1
    have hle : keys.length ≤ keys.length * qs.length := Nat.le_mul_of_pos_right _ hpos
    refine agg_whole hE p.1.1 p.1.2 keys ?_ hl hg hn (hok p.2 (List.of_mem_zip hp).2)
      (fun x hx => hk p hp x ((sitesHit_iff ..).1 hx)) (by omega)
    have := h2 (⟨some p.1.1, p.1.2⟩, p.2) (by
      rw [List.zip_map_left]
      exact List.mem_map.2 ⟨p, hp, rfl⟩)
    exact this
  have hin : ∀ q ∈ parts, ∃ p ∈ qs.zip parts, p.2 = q := by
    intro q hq
    obtain ⟨i, hi, rfl⟩ := List.getElem_of_mem hq
    have hi' : i < (qs.zip parts).length := by rw [List.length_zip]; omega
    exact ⟨(qs.zip parts)[i], List.getElem_mem hi', by simp⟩
  have hperm := collects_perm h3
  have hlen : got.length ≤ keys.length * qs.length := by
    rw [← hperm.length_eq]
    have := length_flatten_le (n := keys.length) (parts.map (·.2)) (by
      intro l hl
      obtain ⟨q, hq, rfl⟩ := List.mem_map.1 hl
      obtain ⟨p, hp, rfl⟩ := hin q hq
      exact (hwhole p hp).length fun x hx => hk p hp x ((sitesHit_iff ..).1 hx))
    rw [List.length_map, h1] at this
    exact this
  obtain ⟨h5, h6⟩ := asked_room hroom
  have hgot : ∀ x ∈ got, ∃ p ∈ qs.zip parts, x ∈ p.2.2 := by
    intro x hx
    obtain ⟨l, hl, hx⟩ := List.mem_flatten.1 (hperm.mem_iff.2 hx)
    obtain ⟨q, hq, rfl⟩ := List.mem_map.1 hl
    obtain ⟨p, hp, rfl⟩ := hin q hq
    exact ⟨p, hp, hx⟩
  have hkeyed : Ref.Keyed got := by
    intro x hx
    obtain ⟨p, hp, hx⟩ := hgot x hx
    exact hit_keyed x ((hwhole p hp).hits x hx)
  unfold flatMerge at h4
  cases hi : (newFlat config context).insertAll E got with
  | panic => rw [hi] at h4; cases h4
  | err e => rw [hi] at h4; cases h4
  | ok a =>
    rw [hi, Res.bind_ok] at h4
    obtain ⟨g1, ⟨rest, g2⟩, g3⟩ := insertAll_room hE.sort got (newFlat config context) a hkeyed
      (by simp only [newFlat, List.length_nil]; omega) (by simp [newFlat]) hi
    have g2 : (a.list.map (·.datum) ++ rest).Perm (got.map (·.datum)) := by simpa [newFlat] using g2
    have hal : a.list.length ≤ got.length := by
      have := g2.length_eq
      simp only [List.length_append, List.length_map] at this
      omega
    have hc : a.config = config := g1.1
    have hout := result_room h4 (by rw [hc]; exact h6.imp id fun h6 => by omega)
    subst hout
    refine ⟨?_, ?_, ?_⟩
    · intro p hp x hx
      obtain ⟨y, hy, e⟩ := (hwhole p hp).all x ((sitesHit_iff ..).2 hx)
      have hyg : y ∈ got := hperm.mem_iff.1 (List.mem_flatten.2 ⟨p.2.2, List.mem_map_of_mem (List.of_mem_zip hp).2, hy⟩)
      obtain ⟨z, hz, e'⟩ := g3 y (by simpa [newFlat] using hyg)
      exact ⟨z, hz, e'.trans e⟩
    · intro y hy
      have := g2.mem_iff.1 (List.mem_append_left _ (List.mem_map_of_mem (f := (·.datum)) hy))
      obtain ⟨x, hx, e⟩ := List.mem_map.1 this
      obtain ⟨p, hp, hx⟩ := hgot x hx
      exact ⟨p, hp, x, (sitesHit_iff ..).1 ((hwhole p hp).hits x hx), e.symm⟩
    · intro hone
      have hgk : (got.map (·.datum.key)).Nodup := by
        rw [← (hperm.map _).nodup_iff]
        match qs, parts, h1, hone, hwhole with
        | [q], [p], _, _, hwhole =>
          simpa using (hwhole (q, p) (by simp)).once
      have : ((a.list.map (·.datum) ++ rest).map (·.key)).Nodup := by
        rw [(g2.map _).nodup_iff, List.map_map]; exact hgk
      rw [List.map_append, List.map_map] at this
      exact (List.nodup_append.1 this).1

namespace Clu

/-- Limit 2, smaller distances first. -/
def exBoth : SearchConfig := { defaultSearchConfig with limit := 2 }

theorem exBoth_out : SearchOut exEnv exBoth none [⟨some (exPoint 0), none⟩]
    [([exSite [0x3F800000], exSite [0x40000000]], [exFound F64.one 0x3F800000, exFound two 0x40000000])]
    [exFound F64.one 0x3F800000, exFound two 0x40000000] := by
  refine exSearch exBoth [0x3F800000] [0x40000000] [exFound F64.one 0x3F800000] [exFound two 0x40000000]
    [exFound F64.one 0x3F800000, exFound two 0x40000000] [exFound two 0x40000000] [exFound F64.one 0x3F800000, exFound two 0x40000000]
    (by decide +kernel) (by decide +kernel) ?_ ?_ ?_
  · intro got hp
    rw [List.perm_singleton.1 hp]
    refine ⟨[exFound two 0x40000000], outOf_some (by decide +kernel), fun got' hp' => ?_⟩
    rw [List.perm_singleton.1 hp']
    exact outOf_some (by decide +kernel)
  · intro got hp
    rcases perm_pair hp with rfl | rfl <;> exact outOf_some (by decide +kernel)
  · intro got hp
    rcases perm_pair hp with rfl | rfl <;> exact outOf_some (by decide +kernel)

end Clu

/-- The two nodes of the counterexample of C95, asked for two data: the hypotheses are met, and both data are found. -/
theorem C168_example : ∃ out, SearchOut exEnv exBoth none [⟨some (exPoint 0), none⟩]
      [([exSite [0x3F800000], exSite [0x40000000]], [exFound F64.one 0x3F800000, exFound two 0x40000000])] out ∧
    (∃ y ∈ out, y.datum.key = some (exPoint 0x3F800000)) ∧ (∃ y ∈ out, y.datum.key = some (exPoint 0x40000000)) := by
  have hnd : ∀ xs ∈ [[(0x3F800000 : F32)], [0x40000000]], xs.Nodup := by decide
  have hit := exHits (config := exBoth) rfl rfl hnd
  refine ⟨_, exBoth_out, ?_⟩
  obtain ⟨h1, -, -⟩ := C168_all_returned exEnv exEnv_ok exBoth none [(exPoint 0, none)]
    [([[0x3F800000], [0x40000000]].map exSite, [exFound F64.one 0x3F800000, exFound two 0x40000000])] _ (by decide) rfl (by decide)
    (fun p hp s hs => by
      rw [List.mem_singleton.1 hp] at hs
      obtain ⟨xs, hxs, rfl⟩ := List.mem_map.1 hs
      exact exSite_ok xs (hnd xs hxs))
    [some (exPoint 0x3F800000), some (exPoint 0x40000000)] (by decide)
    (fun p hp x hx => by
      rw [List.zip_cons_cons, List.zip_nil_right, List.mem_singleton] at hp
      subst hp
      obtain ⟨xs, hxs, y, hy, rfl⟩ := (hit x).1 hx
      simp only [List.mem_cons, List.not_mem_nil, or_false] at hxs
      rcases hxs with rfl | rfl <;> rw [List.mem_singleton.1 hy] <;> simp [exFound])
    exBoth_out
  have h2 := fun x hx => h1 _ (List.mem_singleton.2 rfl) x ((hit x).2 hx)
  exact ⟨h2 (exFound _ 0x3F800000) ⟨_, List.mem_cons_self, _, List.mem_cons_self, rfl⟩,
    h2 (exFound _ 0x40000000) ⟨_, List.mem_cons_of_mem _ List.mem_cons_self, _, List.mem_cons_self, rfl⟩⟩

/-- C169: after an accepted insert at a node, as long as it has not expired and nobody deletes or replaces it there, every search of any
node that reaches this node, is not cut short, whose filters it passes and that has room for all matching data returns it, or what
another node has under its key. -/
theorem C169_inserted_returned (E : Env) (hE : E.Ok) (config : SearchConfig) (context : Option SearchContext)
    (qs : List (DatumKey × Option DatumValue)) (parts : List (List Site × List ScoredDatum)) (out : List ScoredDatum)
    (hl : 0 < config.limit) (hg : config.groupLimit = 0) (hname : ¬ "Annoy".toList <+: config.scoreFuncName.toList)
    (hok : ∀ p ∈ parts, ∀ s ∈ p.1, s.Ok) (keys : List (Option DatumKey)) (hroom : keys.length * qs.length ≤ Ref.asked config)
    (hk : ∀ p ∈ qs.zip parts, ∀ x, Ref.IsHitIn E config p.1.1 (shelves p.2.1) x → x.datum.key ∈ keys)
    (h : SearchOut E config context (qs.map fun q => ⟨some q.1, q.2⟩) parts out)
    (p : (DatumKey × Option DatumValue) × List Site × List ScoredDatum) (hp : p ∈ qs.zip parts) (site : Site) (hsite : site ∈ p.2.1)
    (ops0 ops : List Op) (m0 m1 : DBMap) (out1 : List Datum) (now : Int64) (k : DatumKey) (v : DatumValue) (ic : Option InsertConfig)
    (h0 : Steps [] ops0 m0) (hi : Step m0 (.insert now k v ic) m1 out1) (h1 : Steps m1 ops site.dt.dbMap)
    (hsane : ∀ op ∈ ops0, op.NoOverflow) (hno : ∀ op ∈ ops, ¬ op.writes k) (hd : ∀ op ∈ ops, op.during k now ic)
    (hlast : Lasts now ic (site.clock k)) (hpass : Ref.Passes E.jsonHas config ⟨some k, some v⟩) :
    ∃ y ∈ out, y.datum.key = some k ∧
      ((∀ s ∈ (parts.flatMap (·.1)), ∀ w, Ref.shows (abs s.dt.dbMap) s.clock k w → w = v) → y.datum = ⟨some k, some v⟩) := by
  obtain ⟨g1, g2, -⟩ := C168_all_returned E hE config context qs parts out hl hg hname hok keys hroom hk h
  have hsh := inserted_shows site h0 hi h1 rfl (hok p.2 (List.of_mem_zip hp).2 site hsite) hsane hno hd hlast
  obtain ⟨y, hy, e⟩ := g1 p hp ⟨_, ⟨some k, some v⟩⟩
    ⟨_, List.mem_map_of_mem hsite, k, v, rfl, hsh, hpass, rfl⟩
  refine ⟨y, hy, e, fun hsame => ?_⟩
  obtain ⟨p', hp', x, ⟨sh, hsh', k', w, hx1, hx2, -, -⟩, hx⟩ := g2 y hy
  obtain ⟨s, hs, rfl⟩ := List.mem_map.1 hsh'
  rw [hx, hx1] at e
  injection e with e
  subst e
  rw [hx, hx1, hsame s (List.mem_flatMap.2 ⟨p'.2, (List.of_mem_zip hp').2, hs⟩) w hx2]

/-- The hypotheses of C169 can be met: the point 2, inserted at the second node, is in the answer of the first. -/
theorem C169_example : Step [] (.insert 900 (exPoint 0x40000000) ⟨1, [7]⟩ none) (exSite [0x40000000]).dt.dbMap [] ∧
    ∃ out, SearchOut exEnv exBoth none [⟨some (exPoint 0), none⟩]
      [([exSite [0x3F800000], exSite [0x40000000]], [exFound F64.one 0x3F800000, exFound two 0x40000000])] out ∧
    ∃ y ∈ out, y.datum.key = some (exPoint 0x40000000) := by
  have hnd : ∀ xs ∈ [[(0x3F800000 : F32)], [0x40000000]], xs.Nodup := by decide
  have hit := exHits (config := exBoth) rfl rfl hnd
  have hs : Step [] (.insert 900 (exPoint 0x40000000) ⟨1, [7]⟩ none) (exSite [0x40000000]).dt.dbMap [] :=
    .insert (insert_empty _ _ _ _)
  refine ⟨hs, _, exBoth_out, ?_⟩
  obtain ⟨y, hy, e, -⟩ := C169_inserted_returned exEnv exEnv_ok exBoth none [(exPoint 0, none)]
    [([[0x3F800000], [0x40000000]].map exSite, [exFound F64.one 0x3F800000, exFound two 0x40000000])] _ (by decide) rfl (by decide)
    (fun p hp s hs => by
      rw [List.mem_singleton.1 hp] at hs
      obtain ⟨xs, hxs, rfl⟩ := List.mem_map.1 hs
      exact exSite_ok xs (hnd xs hxs))
    [some (exPoint 0x3F800000), some (exPoint 0x40000000)] (by decide)
    (fun p hp x hx => by
      rw [List.zip_cons_cons, List.zip_nil_right, List.mem_singleton] at hp
      subst hp
      obtain ⟨xs, hxs, y, hy, rfl⟩ := (hit x).1 hx
      simp only [List.mem_cons, List.not_mem_nil, or_false] at hxs
      rcases hxs with rfl | rfl <;> rw [List.mem_singleton.1 hy] <;> simp [exFound])
    exBoth_out _ (List.mem_singleton.2 rfl) (exSite [0x40000000]) (List.mem_map_of_mem (f := exSite) (a := [0x40000000]) (by simp))
    [] [] [] _ [] 900 (exPoint 0x40000000) ⟨1, [7]⟩ none .nil hs .nil (by simp) (by simp) (by simp) trivial
    (by simp [Ref.Passes, exBoth, defaultSearchConfig])
  exact ⟨y, hy, e⟩

end Veri
