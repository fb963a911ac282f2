import Verif.Search.Model
import Verif.Vector.SoftFloat
/-
C22, C23, C24, C25, C72: local search.
-/
set_option autoImplicit false
namespace Veri
open Gencoder Store

namespace Ref

/-- The datum carries every requested path: the group filters in its group label, the filters in its label. -/
def Passes (has : Bytes → String → Bool) (config : SearchConfig) (d : Datum) : Prop :=
  (∀ f ∈ config.groupFilters, ∃ k, d.key = some k ∧ has k.groupLabel f = true) ∧
  (∀ f ∈ config.filters, ∃ v, d.value = some v ∧ has v.label f = true)

/-- Result order: larger scores first or smaller scores first. -/
def better (higherIsBetter : Bool) (a b : ScoredDatum) : Bool :=
  if higherIsBetter then F64.lt b.score a.score else F64.lt a.score b.score

/-- `sd` is a matching live datum with its own score; `shown` says what is live. -/
def IsHit (E : Env) (config : SearchConfig) (q : DatumKey) (shown : DatumKey → DatumValue → Prop) (sd : ScoredDatum) :
    Prop :=
  ∃ k v, sd.datum = ⟨some k, some v⟩ ∧ shown k v ∧ Passes E.jsonHas config sd.datum ∧
    sd.score = (Vec.getVectorComparisonFunction config.scoreFuncName).eval E.o k.feature q.feature

end Ref

namespace Search
open Ref

theorem lessFor_eq {E : Env} (h : E.Ok) (b : Bool) : lessFor E.o b = Ref.better b := by
  funext x y; simp [lessFor, Ref.better, h.bits.ltD]

/-- Off NaN the result order is a strict weak order. -/
theorem better_weakOrder (b : Bool) (l : List ScoredDatum) (h : ∀ x ∈ l, F64.isNaN x.score = false) :
    WeakOrderOn (Ref.better b) l := by
  constructor
  · intro a _; cases b <;> simp [Ref.better, F64.lt_irrefl]
  · intro x hx y hy z hz h1 h2
    cases b
    · exact F64.lt_trans h1 h2
    · exact F64.lt_trans h2 h1
  · intro x hx y hy z hz
    cases b
    · simp only [Ref.better]
      simp only [Bool.false_eq_true, if_false]
      rw [F64.not_lt_iff (h _ hx) (h _ hy), F64.not_lt_iff (h _ hy) (h _ hz), F64.not_lt_iff (h _ hx) (h _ hz)]
      omega
    · simp only [Ref.better, if_true]
      rw [F64.not_lt_iff (h _ hy) (h _ hx), F64.not_lt_iff (h _ hz) (h _ hy), F64.not_lt_iff (h _ hz) (h _ hx)]
      omega

/-- The collector's settings, without its list. -/
def Collector.Same (c d : Collector) : Prop :=
  d.scoreFunc = c.scoreFunc ∧ d.n = c.n ∧ d.higherIsBetter = c.higherIsBetter ∧ d.filters = c.filters ∧
    d.groupFilters = c.groupFilters

theorem Collector.Same.refl (c : Collector) : c.Same c := ⟨rfl, rfl, rfl, rfl, rfl⟩

theorem Collector.Same.trans {a b c : Collector} (h : a.Same b) (g : b.Same c) : a.Same c := by
  obtain ⟨h1, h2, h3, h4, h5⟩ := h
  obtain ⟨g1, g2, g3, g4, g5⟩ := g
  exact ⟨g1.trans h1, g2.trans h2, g3.trans h3, g4.trans h4, g5.trans h5⟩

theorem insert_same {E : Env} {c c' : Collector} {sd : ScoredDatum} (h : c.insert E sd = .ok c') : c.Same c' := by
  unfold Collector.insert at h
  split at h
  · injection h with h; subst h; exact ⟨rfl, rfl, rfl, rfl, rfl⟩
  · cases hl : c.list.getLast? with
    | none => rw [hl] at h; simp at h
    | some last =>
      rw [hl] at h
      simp only [Res.ofOption_some, Res.bind_ok] at h
      split at h
      · injection h with h; subst h; exact ⟨rfl, rfl, rfl, rfl, rfl⟩
      · injection h with h; subst h; exact .refl _

/-- Collect a list of candidates one after the other. -/
def insertAll (E : Env) (c : Collector) : List ScoredDatum → Res Collector
  | [] => .ok c
  | sd :: sds => (c.insert E sd).bind fun c => insertAll E c sds

theorem insert_topk {E : Env} (hE : E.Ok) (c : Collector) (hn : 0 < c.n) (cands : List ScoredDatum) (sd : ScoredDatum)
    (h : IsTopK (Ref.better c.higherIsBetter) c.n.toNat cands c.list)
    (hw : WeakOrderOn (Ref.better c.higherIsBetter) (sd :: cands)) :
    ∃ c', c.insert E sd = .ok c' ∧ IsTopK (Ref.better c.higherIsBetter) c.n.toNat (sd :: cands) c'.list := by
  have hle := h.length_le
  have hlt : UInt32.ofNat c.list.length < c.n ↔ c.list.length < c.n.toNat := by
    rw [UInt32.lt_iff_toNat_lt, UInt32.toNat_ofNat']
    have := c.n.toNat_lt
    rw [Nat.mod_eq_of_lt (by omega)]
  unfold Collector.insert
  rw [lessFor_eq hE]
  by_cases hl : c.list.length < c.n.toNat
  · rw [if_pos (hlt.2 hl)]
    exact ⟨_, rfl, h.step_room E.sort hE.sort hl sd hw⟩
  · rw [if_neg (fun hh => hl (hlt.1 hh))]
    have hk : c.list.length = c.n.toNat := by omega
    have hpos : 0 < c.n.toNat := by simpa using UInt32.lt_iff_toNat_lt.1 hn
    have hne : c.list ≠ [] := by intro hnil; rw [hnil] at hk; simp at hk; omega
    have hsplit := List.dropLast_concat_getLast hne
    rw [List.getLast?_eq_some_getLast hne]
    simp only [Res.ofOption_some, Res.bind_ok, hE.bits.ltD]
    have hb : ((c.higherIsBetter && F64.lt (c.list.getLast hne).score sd.score) ||
        (!c.higherIsBetter && F64.lt sd.score (c.list.getLast hne).score)) =
        Ref.better c.higherIsBetter sd (c.list.getLast hne) := by
      cases c.higherIsBetter <;> simp [Ref.better]
    rw [hb]
    rw [← hsplit] at h hk
    split
    · rename_i hbt
      exact ⟨_, rfl, h.step_replace E.sort hE.sort _ _ hk sd hbt hw⟩
    · rename_i hbt
      refine ⟨_, rfl, ?_⟩
      have := h.step_skip _ _ hk sd (by simpa using hbt) hw
      rw [hsplit] at this
      exact this

theorem insertAll_topk {E : Env} (hE : E.Ok) : ∀ (sds : List ScoredDatum) (c : Collector) (cands : List ScoredDatum),
    0 < c.n → IsTopK (Ref.better c.higherIsBetter) c.n.toNat cands c.list →
    WeakOrderOn (Ref.better c.higherIsBetter) (cands ++ sds) →
    ∃ c', insertAll E c sds = .ok c' ∧ c.Same c' ∧
      IsTopK (Ref.better c.higherIsBetter) c.n.toNat (cands ++ sds) c'.list
  | [], c, cands, _, h, _ => ⟨c, rfl, .refl c, by rwa [List.append_nil]⟩
  | sd :: sds, c, cands, hn, h, hw => by
    obtain ⟨c1, h1, h2⟩ := insert_topk hE c hn cands sd h (hw.mono (by simp; grind))
    have hs := insert_same h1
    have hs' := hs
    obtain ⟨_, e1, e2, _⟩ := hs'
    obtain ⟨c2, g1, g2, g3⟩ := insertAll_topk hE sds c1 (sd :: cands) (by rw [e1]; exact hn)
      (by rw [e1, e2]; exact h2) (by rw [e2]; exact hw.mono (by simp; grind))
    refine ⟨c2, ?_, hs.trans g2, ?_⟩
    · rw [insertAll, h1]; exact g1
    · rw [e1, e2] at g3
      exact g3.perm (by
        rw [List.cons_append]
        exact List.perm_middle.symm)

/-- The filters, as a Boolean, for a datum with key and value. -/
def passB (E : Env) (fs gs : List String) (k : DatumKey) (v : DatumValue) : Bool :=
  (gs.all fun f => E.jsonHas k.groupLabel f) && (fs.all fun f => E.jsonHas v.label f)

theorem passesFilters_eq (E : Env) (c : Collector) (k : DatumKey) (v : DatumValue) :
    c.passesFilters E ⟨some k, some v⟩ = .ok (passB E c.filters c.groupFilters k v) := by
  unfold Collector.passesFilters passB
  cases hg : c.groupFilters with
  | nil =>
    cases hf : c.filters with
    | nil => simp
    | cons f fs => simp
  | cons g gs =>
    cases hf : c.filters with
    | nil =>
      simp only [List.isEmpty_cons, Bool.false_eq_true, if_false, Res.ofOption_some, Res.bind_ok,
        List.isEmpty_nil, if_true, List.all_nil, Bool.and_true]
      cases ((g :: gs).all fun f => E.jsonHas k.groupLabel f) <;> rfl
    | cons f fs =>
      simp only [List.isEmpty_cons, Bool.false_eq_true, if_false, Res.ofOption_some, Res.bind_ok]
      cases ((g :: gs).all fun f => E.jsonHas k.groupLabel f) <;> simp

theorem passB_iff (E : Env) (config : SearchConfig) (k : DatumKey) (v : DatumValue) :
    passB E config.filters config.groupFilters k v = true ↔ Passes E.jsonHas config ⟨some k, some v⟩ := by
  simp [passB, Passes]

/-- The candidates among a list of entries that all have key and value. -/
def candOf (E : Env) (c : Collector) (q : DatumKey) (e : Entry) : Option ScoredDatum :=
  match e.datum.key, e.datum.value with
  | some k, some v =>
    if passB E c.filters c.groupFilters k v then some ⟨c.scoreFunc.eval E.o k.feature q.feature, e.datum⟩ else none
  | _, _ => none

theorem candOf_same {E : Env} {c c' : Collector} (h : c.Same c') (q : DatumKey) : candOf E c' q = candOf E c q := by
  obtain ⟨h1, h2, h3, h4, h5⟩ := h
  funext e
  unfold candOf
  rw [h1, h4, h5]

theorem feed_search (E : Env) (q : DatumKey) (qv : Option DatumValue) : ∀ (es : List Entry) (c : Collector),
    (∀ e ∈ es, ∃ k v, e.datum = ⟨some k, some v⟩) →
    feed (searchCb E ⟨some q, qv⟩) es c =
      (insertAll E c (es.filterMap (candOf E c q))).bind fun c => .ok (c, none)
  | [], c, _ => rfl
  | e :: es, c, he => by
    obtain ⟨k, v, hd⟩ := he e (by simp)
    have ih := fun c => feed_search E q qv es c (fun e h => he e (by simp [h]))
    rw [feed, searchCb, hd, passesFilters_eq]
    simp only [Res.bind_ok]
    by_cases hp : passB E c.filters c.groupFilters k v = true
    · have hc : candOf E c q e = some ⟨c.scoreFunc.eval E.o k.feature q.feature, ⟨some k, some v⟩⟩ := by
        simp [candOf, hd, hp]
      rw [List.filterMap_cons_some hc, if_pos hp]
      simp only [Res.ofOption_some, Res.bind_ok, insertAll]
      cases hi : c.insert E ⟨c.scoreFunc.eval E.o k.feature q.feature, ⟨some k, some v⟩⟩ with
      | panic => rfl
      | err x => rfl
      | ok c1 =>
        simp only [Res.bind_ok]
        rw [ih c1, candOf_same (insert_same hi)]
    · have hc : candOf E c q e = none := by simp [candOf, hd, hp]
      rw [List.filterMap_cons_none hc, if_neg hp]
      simp only [Res.bind_ok]
      rw [ih c]

theorem feed_loop_panic {σ : Type} (cb : σ → Entry → Res (σ × Option Err)) : ∀ (vs : List Visit) (m : DBMap) (s : σ),
    feed cb (liveEntries vs) s = .panic → loopDBMap cb vs m s = .panic
  | [], m, s, h => by simp [liveEntries, feed] at h
  | v :: vs, m, s, h => by
    by_cases hx : isExpired v.entry v.now = true
    · have h1 : liveEntries (v :: vs) = liveEntries vs := by simp [liveEntries, hx]
      rw [h1] at h
      rw [loopDBMap, if_pos hx]
      exact feed_loop_panic cb vs _ s h
    · have h1 : liveEntries (v :: vs) = v.entry :: liveEntries vs := by simp [liveEntries, hx]
      rw [h1, feed] at h
      rw [loopDBMap, if_neg hx]
      cases hc : cb s v.entry with
      | panic => rfl
      | err e => rw [hc] at h; cases h
      | ok p =>
        obtain ⟨s1, e⟩ := p
        rw [hc] at h
        simp only [Res.bind_ok] at h ⊢
        cases e with
        | some x => simp at h
        | none => exact feed_loop_panic cb vs m s1 h

theorem live_keyed {m : DBMap} (h : WF m) {vs : List Visit} (hr : IsRange m vs) (e : Entry)
    (he : e ∈ liveEntries vs) : ∃ k v, e.datum = ⟨some k, some v⟩ := by
  obtain ⟨v, hv, rfl⟩ := List.mem_map.1 he
  obtain ⟨k, w, _, hw⟩ := h.entry (AMap.mem_of_get? (range_get? h.nodup hr v (List.mem_filter.1 hv).1))
  exact ⟨k, w, by rw [hw]⟩

/-- The candidates of a scan are exactly the hits, each once. -/
theorem cands_spec (E : Env) {m : DBMap} (h : WF m) {vs : List Visit} {clock : DatumKey → Int64} (hr : IsRange m vs)
    (hc : ∀ v ∈ vs, ∀ k, v.entry.datum.key = some k → v.now = clock k) (q : DatumKey) (config : SearchConfig) :
    ((liveEntries vs).filterMap (candOf E (newCollector config) q)).Nodup ∧
    ∀ sd, sd ∈ (liveEntries vs).filterMap (candOf E (newCollector config) q) ↔
      IsHit E config q (Ref.shows (abs m) clock) sd := by
  have hcand : ∀ e sd, candOf E (newCollector config) q e = some sd → sd.datum = e.datum := by
    intro e sd hs
    unfold candOf at hs
    split at hs
    · split at hs
      · injection hs with hs; subst hs; rfl
      · cases hs
    · cases hs
  constructor
  · have hnd := nodup_out h hr
    rw [List.map_map] at hnd
    have hnd := List.pairwise_map.1 hnd
    refine List.Pairwise.filterMap (candOf E (newCollector config) q) ?_ hnd
    intro a b hab x hx y hy hxy
    apply hab
    have h1 := hcand _ _ hx
    have h2 := hcand _ _ hy
    simp only [Function.comp_def]
    rw [← h1, ← h2, hxy]
  · intro sd
    rw [List.mem_filterMap]
    constructor
    · rintro ⟨e, he, hs⟩
      obtain ⟨k, v, hd⟩ := live_keyed h hr e he
      have hsd := hcand _ _ hs
      unfold candOf at hs
      rw [hd] at hs hsd
      simp only at hs
      split at hs
      · rename_i hp
        injection hs with hs
        refine ⟨k, v, hsd, ?_, ?_, ?_⟩
        · exact (scan_out h hr hc k v).1 (List.mem_map.2 ⟨e, he, hd⟩)
        · rw [hsd]; exact (passB_iff E config k v).1 hp
        · rw [← hs]; rfl
      · cases hs
    · rintro ⟨k, v, hsd, hsh, hp, hsc⟩
      obtain ⟨e, he, hd⟩ := List.mem_map.1 ((scan_out h hr hc k v).2 hsh)
      refine ⟨e, he, ?_⟩
      rw [hsd] at hp
      unfold candOf
      rw [hd]
      simp only
      rw [show passB E (newCollector config).filters (newCollector config).groupFilters k v = true from
        (passB_iff E config k v).2 hp, if_pos rfl]
      obtain ⟨sc, dd⟩ := sd
      simp only at hsd hsc
      rw [hsd, hsc]
      rfl

/-- Collecting with a positive limit never panics, keeps only candidates and as many as possible; no assumption on
the scores. -/
theorem insert_ok {E : Env} (hE : IsSort E.sort) (c : Collector) (hn : 0 < c.n) (hle : c.list.length ≤ c.n.toNat)
    (sd : ScoredDatum) :
    ∃ c', c.insert E sd = .ok c' ∧ c'.list.length = min c.n.toNat (c.list.length + 1) ∧
      ∃ out, (c'.list ++ out).Perm (c.list ++ [sd]) := by
  have hlt : UInt32.ofNat c.list.length < c.n ↔ c.list.length < c.n.toNat := by
    rw [UInt32.lt_iff_toNat_lt, UInt32.toNat_ofNat']
    have := c.n.toNat_lt
    rw [Nat.mod_eq_of_lt (by omega)]
  unfold Collector.insert
  by_cases hl : c.list.length < c.n.toNat
  · rw [if_pos (hlt.2 hl)]
    refine ⟨_, rfl, ?_, [], ?_⟩
    · simp only [(hE.perm _ _).length_eq, List.length_append, List.length_cons, List.length_nil]; omega
    · rw [List.append_nil]; exact hE.perm _ _
  · rw [if_neg (fun hh => hl (hlt.1 hh))]
    have hpos : 0 < c.n.toNat := by simpa using UInt32.lt_iff_toNat_lt.1 hn
    have hne : c.list ≠ [] := by intro hnil; rw [hnil] at hl; simp at hl; omega
    have hsplit := List.dropLast_concat_getLast hne
    rw [List.getLast?_eq_some_getLast hne]
    simp only [Res.ofOption_some, Res.bind_ok]
    split
    · refine ⟨_, rfl, ?_, [c.list.getLast hne], ?_⟩
      · have hd := congrArg List.length hsplit
        simp only [(hE.perm _ _).length_eq, List.length_append, List.length_cons, List.length_nil] at hd ⊢; omega
      · refine ((hE.perm _ _).append_right _).trans ?_
        rw [List.append_assoc]
        conv => rhs; rw [← hsplit, List.append_assoc]
        exact List.Perm.append_left _ (List.Perm.swap _ _ _)
    · exact ⟨c, rfl, by omega, [sd], .refl _⟩

theorem insertAll_spec {E : Env} (hE : IsSort E.sort) : ∀ (sds : List ScoredDatum) (c : Collector), 0 < c.n →
    c.list.length ≤ c.n.toNat → ∃ c', insertAll E c sds = .ok c' ∧
      c'.list.length = min c.n.toNat (c.list.length + sds.length) ∧ ∃ out, (c'.list ++ out).Perm (c.list ++ sds)
  | [], c, hn, hle => ⟨c, rfl, by simp; omega, [], .refl _⟩
  | sd :: sds, c, hn, hle => by
    obtain ⟨c1, h1, h2, o1, h3⟩ := insert_ok hE c hn hle sd
    obtain ⟨_, e1, _⟩ := insert_same h1
    obtain ⟨c2, g1, g2, o2, g3⟩ := insertAll_spec hE sds c1 (by rw [e1]; exact hn) (by rw [e1]; omega)
    refine ⟨c2, by rw [insertAll, h1]; exact g1, ?_, o2 ++ o1, ?_⟩
    · rw [g2, e1, h2]; simp only [List.length_cons]; omega
    · rw [← List.append_assoc]
      refine (g3.append_right o1).trans ?_
      rw [List.append_assoc]
      refine (List.Perm.append_left _ List.perm_append_comm).trans ?_
      rw [← List.append_assoc]
      refine (h3.append_right sds).trans ?_
      rw [List.append_assoc]; exact .refl _

theorem insertAll_ok {E : Env} (hE : IsSort E.sort) (sds : List ScoredDatum) (c : Collector) (hn : 0 < c.n)
    (hle : c.list.length ≤ c.n.toNat) : ∃ c', insertAll E c sds = .ok c' := by
  obtain ⟨c', h, _⟩ := insertAll_spec hE sds c hn hle
  exact ⟨c', h⟩

end Search

open Search

/-- C22.  With a positive limit and scores that are numbers, exact search returns the `limit` best of the matching
live data (`cands` lists each of them exactly once), best first; the only change to the data set is that expired data
are forgotten. -/
theorem C22_search_top_k (E : Env) (hE : E.Ok) (dt : Data) (vs : List Visit) (clock : DatumKey → Int64)
    (q : DatumKey) (qv : Option DatumValue) (config : SearchConfig)
    (hwf : WF dt.dbMap) (hr : IsRange dt.dbMap vs)
    (hc : ∀ v ∈ vs, ∀ k, v.entry.datum.key = some k → v.now = clock k)
    (hlim : 0 < config.limit)
    (hnan : ∀ sd, Ref.IsHit E config q (Ref.shows (abs dt.dbMap) clock) sd → F64.isNaN sd.score = false) :
    ∃ dt' c cands, search E vs dt ⟨some q, qv⟩ (some config) = .ok (dt', c) ∧
      cands.Nodup ∧ (∀ sd, sd ∈ cands ↔ Ref.IsHit E config q (Ref.shows (abs dt.dbMap) clock) sd) ∧
      IsTopK (Ref.better config.higherIsBetter) config.limit.toNat cands c.list ∧
      dt' = { dt with dbMap := dt'.dbMap } ∧ abs dt'.dbMap = Ref.afterScan (abs dt.dbMap) clock := by
  obtain ⟨hnd, hmem⟩ := cands_spec E hwf hr hc q config
  have hw := better_weakOrder config.higherIsBetter _ (fun x hx => hnan x ((hmem x).1 hx))
  obtain ⟨c', h1, h2, h3⟩ := insertAll_topk hE _ (newCollector config) [] hlim IsTopK.nil hw
  refine ⟨{ dt with dbMap := eraseAll dt.dbMap (expiredKeys vs) }, c', _, ?_, hnd, hmem, h3, rfl, ?_⟩
  · have hl := loopDBMap_complete (searchCb E ⟨some q, qv⟩) vs dt.dbMap (newCollector config) c'
      (by rw [feed_search E q qv _ _ (live_keyed hwf hr), h1]; rfl)
    unfold search
    simp only [Option.getD_some, hl, Res.bind_ok]
  · exact scan_abs hwf hr hc

/-- Without a configuration the default one is used. -/
theorem C22_default_config (E : Env) (dt : Data) (vs : List Visit) (q : Datum) :
    search E vs dt q none = search E vs dt q (some defaultSearchConfig) := rfl

namespace Search
open Ref

/-- An invariant of the callback is an invariant of the scan. -/
theorem loop_invariant {σ : Type} (P : σ → Prop) (cb : σ → Entry → Res (σ × Option Err))
    (hcb : ∀ s e s' x, P s → cb s e = .ok (s', x) → P s') : ∀ (vs : List Visit) (m : DBMap) (s : σ) m' s' x,
    P s → loopDBMap cb vs m s = .ok (m', s', x) → P s'
  | [], m, s, m', s', x, hp, h => by
    simp only [loopDBMap, Res.ok.injEq, Prod.mk.injEq] at h
    rw [← h.2.1]; exact hp
  | v :: vs, m, s, m', s', x, hp, h => by
    rw [loopDBMap] at h
    split at h
    · exact loop_invariant P cb hcb vs _ s m' s' x hp h
    · cases hc : cb s v.entry with
      | panic => rw [hc] at h; cases h
      | err e => rw [hc] at h; cases h
      | ok p =>
        obtain ⟨s1, e⟩ := p
        rw [hc] at h
        have hp1 := hcb s v.entry s1 e hp hc
        simp only [Res.bind_ok] at h
        cases e with
        | some y =>
          simp only [Res.ok.injEq, Prod.mk.injEq] at h
          rw [← h.2.1]; exact hp1
        | none => exact loop_invariant P cb hcb vs m s1 m' s' x hp1 h

theorem passesFilters_true {E : Env} {c : Collector} {d : Datum} (config : SearchConfig)
    (hf : c.filters = config.filters) (hg : c.groupFilters = config.groupFilters)
    (h : c.passesFilters E d = .ok true) : Passes E.jsonHas config d := by
  obtain ⟨key, value⟩ := d
  unfold Collector.passesFilters at h
  rw [hf, hg] at h
  unfold Passes
  cases hg' : config.groupFilters with
  | nil =>
    cases hf' : config.filters with
    | nil => simp
    | cons f fs =>
      rw [hg', hf'] at h
      cases value with
      | none => simp at h
      | some v => simpa using h
  | cons g gs =>
    rw [hg'] at h
    cases key with
    | none => simp at h
    | some k =>
      simp only [List.isEmpty_cons, Bool.false_eq_true, if_false, Res.ofOption_some, Res.bind_ok] at h
      split at h
      · rename_i hgp
        rw [List.all_eq_true] at hgp
        refine ⟨fun f hf' => ⟨k, rfl, hgp f hf'⟩, ?_⟩
        cases hf' : config.filters with
        | nil => simp
        | cons f fs =>
          rw [hf'] at h
          cases value with
          | none => simp at h
          | some v => simpa using h
      · simp at h

theorem insert_mem {E : Env} (hE : IsSort E.sort) {c c' : Collector} {sd : ScoredDatum} (h : c.insert E sd = .ok c') :
    ∀ x ∈ c'.list, x ∈ c.list ∨ x = sd := by
  unfold Collector.insert at h
  split at h
  · injection h with h; subst h
    intro x hx
    simpa using (hE.perm _ _).mem_iff.1 hx
  · cases hl : c.list.getLast? with
    | none => rw [hl] at h; simp at h
    | some last =>
      rw [hl] at h
      simp only [Res.ofOption_some, Res.bind_ok] at h
      split at h
      · injection h with h; subst h
        intro x hx
        have := (hE.perm _ _).mem_iff.1 hx
        rcases List.mem_append.1 this with h1 | h1
        · exact Or.inl (List.dropLast_subset _ h1)
        · exact Or.inr (by simpa using h1)
      · injection h with h; subst h; exact fun x hx => Or.inl hx

theorem search_filters {E : Env} (hE : IsSort E.sort) (vs : List Visit) (dt dt' : Data) (q : Datum)
    (config : SearchConfig) (c : Collector) (h : search E vs dt q (some config) = .ok (dt', c)) :
    ∀ sd ∈ c.list, Passes E.jsonHas config sd.datum := by
  unfold search at h
  simp only [Option.getD_some] at h
  cases hl : loopDBMap (searchCb E q) vs dt.dbMap (newCollector config) with
  | panic => rw [hl] at h; cases h
  | err e => rw [hl] at h; cases h
  | ok p =>
    obtain ⟨m, c1, x⟩ := p
    rw [hl] at h
    simp only [Res.bind_ok, Res.ok.injEq, Prod.mk.injEq] at h
    rw [← h.2]
    refine (loop_invariant (fun c => c.filters = config.filters ∧ c.groupFilters = config.groupFilters ∧
      ∀ sd ∈ c.list, Passes E.jsonHas config sd.datum) _ ?_ _ _ _ _ _ _ ⟨rfl, rfl, by simp [newCollector]⟩ hl).2.2
    rintro s e s' x ⟨h1, h2, h3⟩ hcb
    unfold searchCb at hcb
    cases hp : s.passesFilters E e.datum with
    | panic => rw [hp] at hcb; cases hcb
    | err e => rw [hp] at hcb; cases hcb
    | ok b =>
      rw [hp] at hcb
      simp only [Res.bind_ok] at hcb
      cases b with
      | false =>
        simp only [Bool.false_eq_true, if_false, Res.ok.injEq, Prod.mk.injEq] at hcb
        rw [← hcb.1]; exact ⟨h1, h2, h3⟩
      | true =>
        simp only [if_true] at hcb
        cases hk : e.datum.key with
        | none => rw [hk] at hcb; simp at hcb
        | some k =>
          cases hq : q.key with
          | none => rw [hk, hq] at hcb; simp at hcb
          | some qk =>
            rw [hk, hq] at hcb
            simp only [Res.ofOption_some, Res.bind_ok] at hcb
            cases hi : s.insert E ⟨s.scoreFunc.eval E.o k.feature qk.feature, e.datum⟩ with
            | panic => rw [hi] at hcb; cases hcb
            | err e => rw [hi] at hcb; cases hcb
            | ok c2 =>
              rw [hi] at hcb
              simp only [Res.bind_ok, Res.ok.injEq, Prod.mk.injEq] at hcb
              rw [← hcb.1]
              obtain ⟨_, _, _, g1, g2⟩ := insert_same hi
              refine ⟨g1.trans h1, g2.trans h2, fun sd hsd => ?_⟩
              rcases insert_mem hE hi sd hsd with h4 | h4
              · exact h3 sd h4
              · rw [h4]; exact passesFilters_true config h1 h2 hp

theorem annoyLoop_invariant {E : Env} (q : Datum) (index : List (Option Datum)) (config : SearchConfig)
    (P : ScoredDatum → Prop)
    (hP : ∀ d k qk c, some d ∈ index → d.key = some k → q.key = some qk → c.scoreFunc =
      Vec.getVectorComparisonFunction config.scoreFuncName → Passes E.jsonHas config d →
      P ⟨(c : Collector).scoreFunc.eval E.o qk.feature k.feature, d⟩) :
    ∀ (answer : List Nat) (c c' : Collector) (counter : UInt32),
    c.scoreFunc = Vec.getVectorComparisonFunction config.scoreFuncName →
    c.filters = config.filters → c.groupFilters = config.groupFilters → (∀ sd ∈ c.list, P sd) →
    annoyLoop E q index c counter answer = .ok c' → ∀ sd ∈ c'.list, P sd
  | [], c, c', counter, h0, h1, h2, h3, h => by
    simp only [annoyLoop, Res.ok.injEq] at h; rw [← h]; exact h3
  | r :: rs, c, c', counter, h0, h1, h2, h3, h => by
    rw [annoyLoop] at h
    split at h
    · cases h
    · exact annoyLoop_invariant q index config P hP rs c c' counter h0 h1 h2 h3 h
    · rename_i d hd
      cases hp : c.passesFilters E d with
      | panic => rw [hp] at h; cases h
      | err e => rw [hp] at h; cases h
      | ok b =>
        rw [hp] at h
        simp only [Res.bind_ok] at h
        cases b with
        | false => exact annoyLoop_invariant q index config P hP rs c c' counter h0 h1 h2 h3 (by simpa using h)
        | true =>
          simp only [if_true] at h
          cases hq : q.key with
          | none => rw [hq] at h; simp at h
          | some qk =>
            cases hk : d.key with
            | none => rw [hq, hk] at h; simp at h
            | some k =>
              rw [hq, hk] at h
              simp only [Res.ofOption_some, Res.bind_ok] at h
              have hnew : ∀ sd ∈ c.list ++ [(⟨c.scoreFunc.eval E.o qk.feature k.feature, d⟩ : ScoredDatum)], P sd := by
                intro sd hsd
                rcases List.mem_append.1 hsd with h4 | h4
                · exact h3 sd h4
                · rw [List.mem_singleton.1 h4]
                  exact hP d k qk c (List.mem_of_getElem? hd) hk hq h0 (passesFilters_true config h1 h2 hp)
              split at h
              · simp only [Res.ok.injEq] at h
                rw [← h]; exact hnew
              · exact annoyLoop_invariant q index config P hP rs _ c' _ (by exact h0) (by exact h1) (by exact h2) hnew h

end Search

/-- C23.  Whatever the store, the index, the configuration and the scores: everything a local search (exact or by
index) hands out passes every requested filter. -/
theorem C23_results_pass_filters (E : Env) (hE : E.Ok) (vs : List Visit) (answer : List Nat) (dt dt' : Data)
    (q : Datum) (config : SearchConfig) (out : List ScoredDatum)
    (h : streamSearch E vs answer dt q (some config) = .ok (dt', out)) :
    ∀ sd ∈ out, Ref.Passes E.jsonHas config sd.datum := by
  unfold streamSearch at h
  simp only [Option.getD_some] at h
  have hs : ∀ x : Res (Data × Collector), (x.bind fun (dt, c) => .ok (dt, c.list)) = .ok (dt', out) →
      ∃ c, x = .ok (dt', c) ∧ c.list = out := by
    intro x hx
    cases x with
    | panic => cases hx
    | err e => cases hx
    | ok p =>
      simp only [Res.bind_ok, Res.ok.injEq, Prod.mk.injEq] at hx
      exact ⟨p.2, by rw [← hx.1], hx.2⟩
  obtain ⟨c, hx, rfl⟩ := hs _ h
  split at hx
  · unfold searchAnnoy at hx
    split at hx
    · exact search_filters hE.sort _ _ _ _ _ _ hx
    · simp only [Option.getD_some] at hx
      split at hx
      · exact search_filters hE.sort _ _ _ _ _ _ hx
      · rename_i a _ _
        cases hq : q.key with
        | none => rw [hq] at hx; simp at hx
        | some qk =>
          rw [hq] at hx
          simp only [Res.ofOption_some, Res.bind_ok] at hx
          cases ha : annoyLoop E q a.dataIndex (newCollector config) 0 answer with
          | panic => rw [ha] at hx; cases hx
          | err e => rw [ha] at hx; cases hx
          | ok c1 =>
            rw [ha] at hx
            simp only [Res.bind_ok, Res.ok.injEq, Prod.mk.injEq] at hx
            rw [← hx.2]
            exact annoyLoop_invariant q a.dataIndex config (fun sd => Ref.Passes E.jsonHas config sd.datum)
              (fun d k qk c _ _ _ _ hp => hp) answer _ _ _ rfl rfl rfl (by simp [newCollector]) ha
  · exact search_filters hE.sort _ _ _ _ _ _ hx

/-- C24, full statement: a local search returns normally.  FALSE of the code. -/
def C24_search_never_panics_statement : Prop :=
  ∀ (E : Env) (vs : List Visit) (answer : List Nat) (dt : Data) (q : Datum) (config : SearchConfig),
    E.Ok → WF dt.dbMap → IsRange dt.dbMap vs → streamSearch E vs answer dt q (some config) ≠ .panic

/-- C24, exact behaviour of exact search on a store built from well-formed inserts, for a query with a key: it panics
exactly when the limit is zero and some live datum matches. -/
theorem C24_search_panics_iff (E : Env) (hE : E.Ok) (dt : Data) (vs : List Visit) (clock : DatumKey → Int64)
    (q : DatumKey) (qv : Option DatumValue) (config : SearchConfig)
    (hwf : WF dt.dbMap) (hr : IsRange dt.dbMap vs)
    (hc : ∀ v ∈ vs, ∀ k, v.entry.datum.key = some k → v.now = clock k) :
    search E vs dt ⟨some q, qv⟩ (some config) = .panic ↔
      config.limit = 0 ∧ ∃ sd, Ref.IsHit E config q (Ref.shows (abs dt.dbMap) clock) sd := by
  obtain ⟨_, hmem⟩ := cands_spec E hwf hr hc q config
  have hfeed := feed_search E q qv (liveEntries vs) (newCollector config) (live_keyed hwf hr)
  have hok : ∀ c', insertAll E (newCollector config) ((liveEntries vs).filterMap (candOf E (newCollector config) q)) =
      .ok c' → search E vs dt ⟨some q, qv⟩ (some config) ≠ .panic := by
    intro c' h1
    have hl := loopDBMap_complete (searchCb E ⟨some q, qv⟩) vs dt.dbMap (newCollector config) c'
      (by rw [hfeed, h1]; rfl)
    unfold search
    simp [hl]
  constructor
  · intro hp
    by_cases hlim : config.limit = 0
    · refine ⟨hlim, ?_⟩
      cases hcs : (liveEntries vs).filterMap (candOf E (newCollector config) q) with
      | nil => exact absurd hp (hok _ (by rw [hcs]; rfl))
      | cons sd sds => exact ⟨sd, (hmem sd).1 (by rw [hcs]; simp)⟩
    · exfalso
      have hpos : 0 < (newCollector config).n := by
        rw [UInt32.lt_iff_toNat_lt]
        have : config.limit.toNat ≠ 0 := fun h => hlim (UInt32.toNat_inj.1 h)
        show 0 < config.limit.toNat
        omega
      obtain ⟨c', h1⟩ := insertAll_ok hE.sort _ (newCollector config) hpos (by simp [newCollector])
      exact hok c' h1 hp
  · rintro ⟨hlim, sd, hsd⟩
    have hne := (hmem sd).2 hsd
    have hp : insertAll E (newCollector config) ((liveEntries vs).filterMap (candOf E (newCollector config) q)) =
        .panic := by
      cases hcs : (liveEntries vs).filterMap (candOf E (newCollector config) q) with
      | nil => rw [hcs] at hne; cases hne
      | cons x xs =>
        have : (newCollector config).insert E x = .panic := by
          simp [Collector.insert, newCollector, hlim]
        rw [insertAll, this]; rfl
    have := feed_loop_panic (searchCb E ⟨some q, qv⟩) vs dt.dbMap (newCollector config) (by rw [hfeed, hp]; rfl)
    unfold search
    simp [this]

namespace Search
open Ref

/-- Arithmetic of real machines, a real sort, and a JSON library that finds nothing. -/
def exEnv : Env := ⟨SF.ops id, ISort.sort, fun _ _ => false⟩

theorem exEnv_ok : exEnv.Ok := ⟨SF.bits id, ISort.isSort⟩

/-- A one-dimensional key. -/
def exPoint (x : F32) : DatumKey := ⟨[x], [], 0, 0, 1, 1⟩

def exStored (x : F32) : Bytes × Entry := (encKey (exPoint x), ⟨0, ⟨some (exPoint x), some ⟨1, [7]⟩⟩⟩)

theorem wf_points (xs : List F32) (h : xs.Nodup) : WF (xs.map exStored) := by
  have hinj : ∀ x y, encKey (exPoint x) = encKey (exPoint y) → x = y := by
    intro x y hxy
    have := encKey_inj hxy
    simpa [exPoint] using this
  refine ⟨⟨?_, ?_⟩, ?_⟩
  · unfold AMap.Nodup AMap.keys
    rw [List.map_map]
    refine List.pairwise_map.2 (h.imp ?_)
    intro a b hab hk
    exact hab (hinj a b hk)
  · intro b e he
    obtain ⟨x, _, hx⟩ := List.mem_map.1 he
    injection hx with h1 h2
    subst h1; subst h2
    exact ⟨_, rfl, rfl⟩
  · intro b e he
    obtain ⟨x, _, hx⟩ := List.mem_map.1 he
    injection hx with h1 h2
    subst h1; subst h2
    exact ⟨_, rfl⟩

def exVisits (xs : List F32) : List Visit := xs.map fun x => ⟨(exStored x).1, (exStored x).2, 1000⟩

theorem range_points (xs : List F32) : IsRange (xs.map exStored) (exVisits xs) := by
  unfold IsRange exVisits
  rw [List.map_map]
  exact .refl _

theorem clock_points (xs : List F32) : ∀ v ∈ exVisits xs, ∀ k, v.entry.datum.key = some k → v.now = (fun _ => 1000) k := by
  intro v hv k _
  obtain ⟨x, _, rfl⟩ := List.mem_map.1 hv
  rfl

/-- The result list, for evaluation. -/
def listOf : Res (Data × Collector) → Option (List ScoredDatum)
  | .ok (_, c) => some c.list
  | _ => none

theorem listOf_some {r : Res (Data × Collector)} {l : List ScoredDatum} (h : listOf r = some l) :
    ∃ dt c, r = .ok (dt, c) ∧ c.list = l := by
  cases r with
  | ok p => exact ⟨p.1, p.2, rfl, by simpa [listOf] using h⟩
  | err e => cases h
  | panic => cases h

def exData (xs : List F32) : Data := { Data.newData Data.exConfig with dbMap := xs.map exStored }

end Search

/-- C24, counterexample: a limit of zero on a store with one datum. -/
theorem C24_search_never_panics_fails : ¬ C24_search_never_panics_statement := by
  intro h
  refine h exEnv (exVisits [0]) [] (exData [0]) ⟨some (exPoint 0), none⟩ { defaultSearchConfig with limit := 0 }
    exEnv_ok (wf_points [0] (by decide)) (range_points [0]) ?_
  have hs := (C24_search_panics_iff exEnv exEnv_ok (exData [0]) (exVisits [0]) (fun _ => 1000) (exPoint 0) none
    { defaultSearchConfig with limit := 0 } (wf_points [0] (by decide)) (range_points [0]) (clock_points [0])).2
    ⟨rfl, ⟨_, ⟨some (exPoint 0), some ⟨1, [7]⟩⟩⟩, exPoint 0, ⟨1, [7]⟩, rfl, ?_, ?_, rfl⟩
  · have hname : Vec.isAnnoyName "VectorDistance" = false := by decide
    unfold streamSearch
    simp only [Option.getD_some, defaultSearchConfig, hname] at hs ⊢
    rw [if_neg (by decide), hs]
    rfl
  · refine (scan_out (wf_points [0] (by decide)) (range_points [0]) (clock_points [0]) _ _).1 ?_
    exact List.mem_cons_self
  · simp [Ref.Passes, defaultSearchConfig]

/-- C24, partial: exact search with a positive limit and a query that has a key never panics on a store built from
well-formed inserts. -/
theorem C24_search_returns_partial (E : Env) (hE : E.Ok) (dt : Data) (vs : List Visit) (clock : DatumKey → Int64)
    (q : DatumKey) (qv : Option DatumValue) (config : SearchConfig)
    (hwf : WF dt.dbMap) (hr : IsRange dt.dbMap vs)
    (hc : ∀ v ∈ vs, ∀ k, v.entry.datum.key = some k → v.now = clock k) (hlim : config.limit ≠ 0) :
    search E vs dt ⟨some q, qv⟩ (some config) ≠ .panic := fun h =>
  hlim ((C24_search_panics_iff E hE dt vs clock q qv config hwf hr hc).1 h).1

open Classical in
/-- C25.  Index search: with `answer` the positions the index ranks (all within the snapshot; none if the limit is
zero, annoylib.h:1362), the result is the first `limit` of the answered snapshot data that pass the filters, in the
order of the answer, each with its score by the requested function. -/
theorem C25_index_search (E : Env) (vs : List Visit) (answer : List Nat) (dt : Data) (q : DatumKey)
    (qv : Option DatumValue) (config : SearchConfig) (a : Annoyer) (ha : dt.annoyer = some a) (hne : a.dataIndex ≠ [])
    (hkv : ∀ d, some d ∈ a.dataIndex → ∃ k v, d = ⟨some k, some v⟩)
    (hrange : ∀ r ∈ answer, r < a.dataIndex.length) (h0 : config.limit = 0 → answer = []) :
    ∃ c, searchAnnoy E vs answer dt ⟨some q, qv⟩ (some config) = .ok (dt, c) ∧
      c.list = (((answer.filterMap fun r => (a.dataIndex[r]?).join).filter
          fun d => decide (Ref.Passes E.jsonHas config d)).take config.limit.toNat).map
        fun d => ⟨(Vec.getVectorComparisonFunction config.scoreFuncName).eval E.o q.feature
          ((d.key.map (·.feature)).getD []), d⟩ := by
  have main : ∀ (answer : List Nat) (c : Collector) (counter : UInt32), (∀ r ∈ answer, r < a.dataIndex.length) →
      (newCollector config).Same c → (counter < config.limit ∨ answer = []) →
      ∃ c', annoyLoop E ⟨some q, qv⟩ a.dataIndex c counter answer = .ok c' ∧
        c'.list = c.list ++ (((answer.filterMap fun r => (a.dataIndex[r]?).join).filter
          fun d => decide (Ref.Passes E.jsonHas config d)).take (config.limit.toNat - counter.toNat)).map
        fun d => ⟨(Vec.getVectorComparisonFunction config.scoreFuncName).eval E.o q.feature
          ((d.key.map (·.feature)).getD []), d⟩ := by
    intro answer
    induction answer with
    | nil => intro c counter _ _ _; exact ⟨c, rfl, by simp⟩
    | cons r rs ih =>
      intro c counter hr hs hcl
      have hr1 : ∀ r ∈ rs, r < a.dataIndex.length := fun r h => hr r (by simp [h])
      have hlt : r < a.dataIndex.length := hr r (by simp)
      have hcl' : counter < config.limit := by
        rcases hcl with h | h
        · exact h
        · cases h
      have hcn : counter.toNat < config.limit.toNat := UInt32.lt_iff_toNat_lt.1 hcl'
      obtain ⟨e1, e2, e3, e4, e5⟩ := hs
      rw [annoyLoop]
      have hget : a.dataIndex[r]? = some a.dataIndex[r] := List.getElem?_eq_getElem hlt
      cases hd : a.dataIndex[r] with
      | none =>
        rw [hget, hd]
        have : (fun r => ((a.dataIndex[r]?).join : Option Datum)) r = none := by
          show (a.dataIndex[r]?).join = none
          rw [hget, hd]; rfl
        rw [List.filterMap_cons_none (f := fun r => (a.dataIndex[r]?).join) this]
        exact ih c counter hr1 ⟨e1, e2, e3, e4, e5⟩ (Or.inl hcl')
      | some d =>
        rw [hget, hd]
        have hj : (fun r => ((a.dataIndex[r]?).join : Option Datum)) r = some d := by
          show (a.dataIndex[r]?).join = some d
          rw [hget, hd]; rfl
        rw [List.filterMap_cons_some (f := fun r => (a.dataIndex[r]?).join) hj]
        obtain ⟨k, v, rfl⟩ := hkv d (by rw [← hd]; exact List.getElem_mem hlt)
        simp only [passesFilters_eq, Res.bind_ok]
        rw [e4, e5]
        have hpi := passB_iff E config k v
        by_cases hp : passB E config.filters config.groupFilters k v = true
        · have hp' : passB E (newCollector config).filters (newCollector config).groupFilters k v = true := hp
          rw [if_pos hp', List.filter_cons_of_pos (by simpa using hpi.1 hp)]
          simp only [Res.ofOption_some, Res.bind_ok]
          have hadd : (counter + 1).toNat = counter.toNat + 1 := by
            rw [UInt32.toNat_add]
            have : (1 : UInt32).toNat = 1 := rfl
            have := config.limit.toNat_lt
            omega
          have hsub : config.limit.toNat - counter.toNat = (config.limit.toNat - (counter + 1).toNat) + 1 := by omega
          rw [hsub, List.take_succ_cons]
          rw [e2]
          split
          · rename_i hge
            have hge' : config.limit.toNat ≤ (counter + 1).toNat := UInt32.le_iff_toNat_le.1 hge
            refine ⟨_, rfl, ?_⟩
            rw [show config.limit.toNat - (counter + 1).toNat = 0 by omega]
            simp [e1, newCollector]
          · rename_i hge
            have hlt' : counter + 1 < config.limit := by
              rw [UInt32.lt_iff_toNat_lt]
              have : ¬ (config.limit ≤ counter + 1) := hge
              rw [UInt32.le_iff_toNat_le] at this
              omega
            obtain ⟨c', g1, g2⟩ := ih { c with list := c.list ++ [⟨c.scoreFunc.eval E.o q.feature k.feature, ⟨some k, some v⟩⟩] }
              (counter + 1) hr1 ⟨e1, e2, e3, e4, e5⟩ (Or.inl hlt')
            refine ⟨c', by rw [e2, e4, e5] at g1; exact g1, ?_⟩
            rw [g2]
            simp [e1, newCollector]
        · have hp' : ¬ passB E (newCollector config).filters (newCollector config).groupFilters k v = true := hp
          rw [if_neg hp', List.filter_cons_of_neg (by simpa using fun h => hp (hpi.2 h))]
          exact ih c counter hr1 ⟨e1, e2, e3, e4, e5⟩ (Or.inl hcl')
  obtain ⟨c, h1, h2⟩ := main answer (newCollector config) 0 hrange (.refl _) (by
    by_cases hl : config.limit = 0
    · exact Or.inr (h0 hl)
    · left
      rw [UInt32.lt_iff_toNat_lt]
      have : config.limit.toNat ≠ 0 := fun h => hl (UInt32.toNat_inj.1 h)
      show 0 < _
      omega)
  refine ⟨c, ?_, by simpa [newCollector] using h2⟩
  unfold searchAnnoy
  simp only [ha, Option.getD_some]
  rw [if_neg (by simpa using hne), h1]
  rfl

/-- C25: no result of an index search is outside the snapshot, and there are at most `limit`. -/
theorem C25_index_search_bounded (E : Env) (vs : List Visit) (answer : List Nat) (dt : Data) (q : DatumKey)
    (qv : Option DatumValue) (config : SearchConfig) (a : Annoyer) (ha : dt.annoyer = some a) (hne : a.dataIndex ≠ [])
    (hkv : ∀ d, some d ∈ a.dataIndex → ∃ k v, d = ⟨some k, some v⟩)
    (hrange : ∀ r ∈ answer, r < a.dataIndex.length) (h0 : config.limit = 0 → answer = []) :
    ∃ c, searchAnnoy E vs answer dt ⟨some q, qv⟩ (some config) = .ok (dt, c) ∧
      c.list.length ≤ config.limit.toNat ∧ ∀ sd ∈ c.list, some sd.datum ∈ a.dataIndex := by
  obtain ⟨c, h1, h2⟩ := C25_index_search E vs answer dt q qv config a ha hne hkv hrange h0
  refine ⟨c, h1, ?_, ?_⟩
  · rw [h2, List.length_map, List.length_take]; omega
  · intro sd hsd
    rw [h2] at hsd
    obtain ⟨d, hd, rfl⟩ := List.mem_map.1 hsd
    have := (List.mem_filter.1 (List.mem_of_mem_take hd)).1
    obtain ⟨r, hr, hj⟩ := List.mem_filterMap.1 this
    have : a.dataIndex[r]? = some (some d) := by
      cases hx : a.dataIndex[r]? with
      | none => rw [hx] at hj; simp at hj
      | some y => rw [hx] at hj; simpa using hj
    exact List.mem_of_getElem? this

/-- C25: without an index, index search is exact search. -/
theorem C25_no_index (E : Env) (vs : List Visit) (answer : List Nat) (dt : Data) (q : Datum)
    (config : Option SearchConfig) (h : dt.annoyer = none ∨ ∃ a, dt.annoyer = some a ∧ a.dataIndex = []) :
    searchAnnoy E vs answer dt q config = search E vs dt q config := by
  unfold searchAnnoy
  rcases h with h | ⟨a, h, h'⟩
  · simp [h]
  · simp [h, h']

/-- C22 as a client of the stream sees it: a name without the prefix means exact search, and all of its results are sent. -/
theorem C22_streamed_top_k (E : Env) (hE : E.Ok) (dt : Data) (vs : List Visit) (answer : List Nat) (clock : DatumKey → Int64)
    (q : DatumKey) (qv : Option DatumValue) (config : SearchConfig)
    (hwf : WF dt.dbMap) (hr : IsRange dt.dbMap vs)
    (hc : ∀ v ∈ vs, ∀ k, v.entry.datum.key = some k → v.now = clock k)
    (hlim : 0 < config.limit) (hname : ¬ "Annoy".toList <+: config.scoreFuncName.toList)
    (hnan : ∀ sd, Ref.IsHit E config q (Ref.shows (abs dt.dbMap) clock) sd → F64.isNaN sd.score = false) :
    ∃ dt' out cands, streamSearch E vs answer dt ⟨some q, qv⟩ (some config) = .ok (dt', out) ∧
      cands.Nodup ∧ (∀ sd, sd ∈ cands ↔ Ref.IsHit E config q (Ref.shows (abs dt.dbMap) clock) sd) ∧
      IsTopK (Ref.better config.higherIsBetter) config.limit.toNat cands out := by
  obtain ⟨dt', c, cands, h1, h2, h3, h4, -⟩ := C22_search_top_k E hE dt vs clock q qv config hwf hr hc hlim hnan
  refine ⟨dt', c.list, cands, ?_, h2, h3, h4⟩
  have hn : Vec.isAnnoyName config.scoreFuncName = false := by
    cases h : Vec.isAnnoyName config.scoreFuncName with
    | false => rfl
    | true => exact absurd (List.isPrefixOf_iff_prefix.mp h) hname
  unfold streamSearch
  simp only [Option.getD_some, hn, Bool.false_eq_true, if_false, h1]
  rfl

open Classical in
/-- C25 as a client of the stream sees it: a name with the prefix means index search, and all of its results are sent. -/
theorem C25_streamed_index (E : Env) (vs : List Visit) (answer : List Nat) (dt : Data) (q : DatumKey)
    (qv : Option DatumValue) (config : SearchConfig) (a : Annoyer) (ha : dt.annoyer = some a) (hne : a.dataIndex ≠ [])
    (hkv : ∀ d, some d ∈ a.dataIndex → ∃ k v, d = ⟨some k, some v⟩)
    (hrange : ∀ r ∈ answer, r < a.dataIndex.length) (h0 : config.limit = 0 → answer = [])
    (hname : "Annoy".toList <+: config.scoreFuncName.toList) :
    streamSearch E vs answer dt ⟨some q, qv⟩ (some config) =
      .ok (dt, (((answer.filterMap fun r => (a.dataIndex[r]?).join).filter
          fun d => decide (Ref.Passes E.jsonHas config d)).take config.limit.toNat).map
        fun d => ⟨(Vec.getVectorComparisonFunction config.scoreFuncName).eval E.o q.feature
          ((d.key.map (·.feature)).getD []), d⟩) := by
  obtain ⟨c, h1, h2⟩ := C25_index_search E vs answer dt q qv config a ha hne hkv hrange h0
  have hn : Vec.isAnnoyName config.scoreFuncName = true := List.isPrefixOf_iff_prefix.mpr hname
  unfold streamSearch
  simp only [Option.getD_some, hn, if_true, h1, ← h2]
  rfl

/-- C25: an answer with an empty slot, a filtered limit and a skipped datum. -/
example :
    let d := fun x : F32 => (⟨some (exPoint x), some ⟨1, [7]⟩⟩ : Datum)
    let a : Annoyer := ⟨[some (d 0), none, some (d 0x3F800000), some (d 0x40000000)], []⟩
    let dt : Data := { exData [] with annoyer := some a }
    ∃ c, searchAnnoy exEnv [] [3, 1, 0, 2] dt (d 0x40000000) (some { defaultSearchConfig with limit := 2 }) = .ok (dt, c) ∧
      c.list = [⟨0, d 0x40000000⟩, ⟨0x4000000000000000, d 0⟩] := by
  refine ⟨_, rfl, ?_⟩
  decide +kernel

/-- C72, full statement: no matching live datum left out of the answer scores strictly better than one returned,
whatever the scores are.  FALSE of the code. -/
def C72_nan_does_not_hide_statement : Prop :=
  ∀ (E : Env) (dt dt' : Data) (vs : List Visit) (clock : DatumKey → Int64) (q : DatumKey) (config : SearchConfig)
    (c : Collector), E.Ok → WF dt.dbMap → IsRange dt.dbMap vs →
    (∀ v ∈ vs, ∀ k, v.entry.datum.key = some k → v.now = clock k) → 0 < config.limit →
    search E vs dt ⟨some q, none⟩ (some config) = .ok (dt', c) →
    ∀ sd, Ref.IsHit E config q (Ref.shows (abs dt.dbMap) clock) sd → sd ∉ c.list →
      ∀ x ∈ c.list, Ref.better config.higherIsBetter sd x = false

/-- C72, partial: whatever the scores, the answer consists of matching live data, each at most once, and has
min(limit, number of them) entries.  With number scores only, C22 gives the rest. -/
theorem C72_nan_partial (E : Env) (hE : E.Ok) (dt : Data) (vs : List Visit) (clock : DatumKey → Int64)
    (q : DatumKey) (qv : Option DatumValue) (config : SearchConfig)
    (hwf : WF dt.dbMap) (hr : IsRange dt.dbMap vs)
    (hc : ∀ v ∈ vs, ∀ k, v.entry.datum.key = some k → v.now = clock k) (hlim : 0 < config.limit) :
    ∃ dt' c, ∃ cands : List ScoredDatum, search E vs dt ⟨some q, qv⟩ (some config) = .ok (dt', c) ∧ cands.Nodup ∧
      (∀ sd, sd ∈ cands ↔ Ref.IsHit E config q (Ref.shows (abs dt.dbMap) clock) sd) ∧
      c.list.length = min config.limit.toNat cands.length ∧ c.list.Nodup ∧ ∀ sd ∈ c.list, sd ∈ cands := by
  obtain ⟨hnd, hmem⟩ := cands_spec E hwf hr hc q config
  obtain ⟨c', h1, h2, out, h3⟩ := insertAll_spec hE.sort
    ((liveEntries vs).filterMap (candOf E (newCollector config) q)) (newCollector config) hlim (by simp [newCollector])
  have h3' : (c'.list ++ out).Perm ((liveEntries vs).filterMap (candOf E (newCollector config) q)) := by
    simpa [newCollector] using h3
  have hl := loopDBMap_complete (searchCb E ⟨some q, qv⟩) vs dt.dbMap (newCollector config) c'
    (by rw [feed_search E q qv _ _ (live_keyed hwf hr), h1]; rfl)
  refine ⟨_, c', _, by unfold search; simp only [Option.getD_some, hl, Res.bind_ok]; rfl, hnd, hmem, ?_, ?_, ?_⟩
  · rw [h2]; simp [newCollector]
  · exact (List.nodup_append.1 (h3'.nodup_iff.2 hnd)).1
  · intro sd hsd; exact h3'.mem_iff.1 (List.mem_append_left _ hsd)

/-- The stored points 5, NaN and 3, seen in this order. -/
def Search.exNaN : List F32 := [0x40A00000, 0x7FC00000, 0x40400000]

/-- C72, counterexample: data at 5, NaN and 3, query at 0, limit 2: the answer is {5, NaN}, 3 is lost. -/
theorem C72_nan_does_not_hide_fails : ¬ C72_nan_does_not_hide_statement := by
  intro h
  let hit (x : F32) (s : F64) : ScoredDatum := ⟨s, ⟨some (exPoint x), some ⟨1, [7]⟩⟩⟩
  have hs : ∃ dt' c, search exEnv (exVisits exNaN) (exData exNaN) ⟨some (exPoint 0), none⟩
      (some { defaultSearchConfig with limit := 2 }) = .ok (dt', c) ∧
      c.list = [hit 0x40A00000 0x4014000000000000, hit 0x7FC00000 0x7FF8000000000000] :=
    listOf_some (by decide +kernel)
  obtain ⟨dt', c, h1, h2⟩ := hs
  have hwf : WF (exData exNaN).dbMap := wf_points exNaN (by decide)
  have := h exEnv (exData exNaN) dt' (exVisits exNaN) (fun _ => 1000) (exPoint 0)
    { defaultSearchConfig with limit := 2 } c exEnv_ok hwf (range_points exNaN)
    (clock_points exNaN) (by decide) h1 (hit 0x40400000 0x4008000000000000) ?_ ?_
    (hit 0x40A00000 0x4014000000000000) (by rw [h2]; simp)
  · revert this; decide +kernel
  · refine ⟨exPoint 0x40400000, ⟨1, [7]⟩, rfl, ?_, by simp [Ref.Passes, defaultSearchConfig], ?_⟩
    · refine (scan_out hwf (range_points exNaN) (clock_points exNaN) _ _).1 ?_
      simp [exVisits, exNaN, liveEntries, exStored, isExpired]
    · decide +kernel
  · rw [h2]; decide +kernel

/-- C22, C23, C24 non-vacuity: a concrete search meets all hypotheses, and returns the two nearest of three. -/
example : ∃ dt' c, search exEnv (exVisits [0x40A00000, 0, 0x40400000]) (exData [0x40A00000, 0, 0x40400000])
      ⟨some (exPoint 0x40400000), none⟩ (some { defaultSearchConfig with limit := 2 }) = .ok (dt', c) ∧
    c.list = [⟨0, ⟨some (exPoint 0x40400000), some ⟨1, [7]⟩⟩⟩,
      ⟨0x4000000000000000, ⟨some (exPoint 0x40A00000), some ⟨1, [7]⟩⟩⟩] :=
  listOf_some (by decide +kernel)

example : WF (exData [0x40A00000, 0, 0x40400000]).dbMap ∧
    IsRange (exData [0x40A00000, 0, 0x40400000]).dbMap (exVisits [0x40A00000, 0, 0x40400000]) :=
  ⟨wf_points _ (by decide), range_points _⟩

end Veri
