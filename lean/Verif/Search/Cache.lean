import Verif.Search.Json
import Verif.Search.Stream
/-
C35, C36, C75: the query cache of a data set (data/search.go:151-183, 227-241).
The cache library (go-cache) is modelled from its documented behaviour.
-/
set_option autoImplicit false
namespace Veri.QCache
open Json

/-- What is outside the repository. -/
structure CEnv where
  /-- what the merging of results uses -/
  A : Env
  /-- string escaping of encoding/json -/
  J : JsonStr
  /-- `uint64(float64(timeout) * 0.9)` -/
  shrink : UInt64 → UInt64
  /-- the expiry time after `IncrementExpiration`, from the old one, the time and the duration -/
  extend : Option Int → Int → Int → Option Int

/-- What is assumed of `IncrementExpiration`: the item lives at least `d` from now and at most `d` longer than before.
(True of both readings of its name, `now + d` and `old + d`.) -/
def CEnv.Ok (E : CEnv) : Prop := ∀ (old now d : Int), now ≤ old → 0 < d →
  ∃ e, E.extend (some old) now d = some e ∧ now + d ≤ e ∧ e ≤ old + d

/-- An item of the cache; `none`: never expires. -/
structure Item where
  result : List ScoredDatum
  expires : Option Int

abbrev Cache := AMap Bytes Item

/-- data/search.go:179 and 236: `time.Duration(config.CacheDuration) * time.Second`, in int64. -/
def nanos (cacheDuration : UInt64) : Int := (cacheDuration.toInt64 * 1000000000).toInt

/-- go-cache `Set`: duration 0 is the default of data/data.go:89, a negative duration means no expiry. -/
def newItem (now : Int) (result : List ScoredDatum) (d : Int) : Item :=
  let d := if d = 0 then 300000000000 else d
  ⟨result, if d > 0 then some (now + d) else none⟩

/-- go-cache `Get`: expired items are not found. -/
def live (now : Int) (i : Item) : Bool :=
  match i.expires with
  | none => true
  | some e => decide (now ≤ e)

def lookup (now : Int) (c : Cache) (k : Bytes) : Option Item :=
  match c.get? k with
  | none => none
  | some i => if live now i then some i else none

/-- What the first part of a search does. -/
structure Begun where
  queryKey : Bytes
  /-- the configuration, shared with the other searches of the request -/
  config : SearchConfig
  cache : Cache
  /-- the answer, if it came from the cache -/
  hit : Option (List ScoredDatum)

/-- data/search.go:162-183, the part of `AggregatedSearch` before the search.  `none`: nil dereference. -/
def beginSearch (E : CEnv) (now : Int) (c : Cache) (datum : Datum) (config : SearchConfig) : Option Begun :=
  match getSearchKey E.J datum config with
  | none => none
  | some queryKey =>
    let config' := { config with timeout := E.shrink config.timeout }
    if config.cacheDuration > 0 then
      match lookup now c queryKey with
      | some item => some ⟨queryKey, config',
          c.set queryKey { item with expires := E.extend item.expires now (nanos config.cacheDuration) },
          some item.result⟩
      | none => some ⟨queryKey, config', c, none⟩
    else some ⟨queryKey, config', c, none⟩

/-- data/search.go:235-239: the end of `AggregatedSearch`. -/
def finishSearch (now : Int) (c : Cache) (queryKey : Bytes) (config : SearchConfig) (result : List ScoredDatum) : Cache :=
  if config.cacheDuration > 0 then c.set queryKey (newItem now result (nanos config.cacheDuration)) else c

/-- data/search.go:205-227: merging the results of the sources in the order they arrive. -/
def mergeAll (A : Env) (config : SearchConfig) (got : List ScoredDatum) : Res (List ScoredDatum) :=
  ((Agg.newFlat config none).insertAll A got).bind fun a => a.result

/-! ### Histories -/

/-- A request and its configuration, which the searches for its datums share and change (data/search.go:165). -/
structure Req where
  received : SearchConfig
  current : SearchConfig

/-- A search for one datum of a request: the configuration received with the request, and the one it found. -/
structure Query where
  queryKey : Bytes
  datum : Datum
  received : SearchConfig
  config : SearchConfig

/-- An answer put into the cache: what the sources sent, and whether the search was cut short by its timeout. -/
structure Stored extends Query where
  result : List ScoredDatum
  time : Int
  inputs : List (List ScoredDatum)
  cut : Bool

/-- An answer given from the cache, and how many were given under the same key before. -/
structure Served extends Query where
  result : List ScoredDatum
  time : Int
  earlier : Nat

/-- The state of one data set's cache; `stored` and `served` record the history. -/
structure QS where
  now : Int
  cache : Cache
  reqs : List Req
  running : List Query
  stored : List Stored
  served : List Served

def hits (s : QS) (k : Bytes) : Nat := (s.served.filter (fun v => v.queryKey == k)).length

inductive Step (E : CEnv) : QS → QS → Prop
  | tick (s : QS) (d : Int) : 0 ≤ d → Step E s { s with now := s.now + d }
  /-- a request arrives -/
  | request (s : QS) (c : SearchConfig) : Step E s { s with reqs := s.reqs ++ [⟨c, c⟩] }
  /-- the search for one of the datums of a request begins, and is answered from the cache -/
  | hit (s : QS) (l r : List Req) (q : Req) (datum : Datum) (b : Begun) (res : List ScoredDatum) :
      s.reqs = l ++ q :: r → beginSearch E s.now s.cache datum q.current = some b → b.hit = some res →
      Step E s { s with
        cache := b.cache
        reqs := l ++ { q with current := b.config } :: r
        served := s.served ++ [⟨⟨b.queryKey, datum, q.received, q.current⟩, res, s.now, hits s b.queryKey⟩] }
  /-- ... or is not -/
  | miss (s : QS) (l r : List Req) (q : Req) (datum : Datum) (b : Begun) :
      s.reqs = l ++ q :: r → beginSearch E s.now s.cache datum q.current = some b → b.hit = none →
      Step E s { s with
        cache := b.cache
        reqs := l ++ { q with current := b.config } :: r
        running := s.running ++ [⟨b.queryKey, datum, q.received, q.current⟩] }
  /-- a search ends, complete or cut short by its timeout (data/search.go:185-240) -/
  | finish (s : QS) (l r : List Query) (q : Query) (result : List ScoredDatum) (inputs : List (List ScoredDatum))
      (st : Stream.State ScoredDatum) (cut : Bool) : s.running = l ++ q :: r →
      Stream.Reach 100 inputs st → st.main = .finished cut → mergeAll E.A q.config st.got = .ok result →
      Step E s { s with
        cache := finishSearch s.now s.cache q.queryKey q.config result
        running := l ++ r
        stored := if q.config.cacheDuration > 0 then s.stored ++ [⟨q, result, s.now, inputs, cut⟩] else s.stored }
  /-- the janitor of the cache removes an expired item -/
  | clean (s : QS) (k : Bytes) (i : Item) : s.cache.get? k = some i → live s.now i = false →
      Step E s { s with cache := s.cache.erase k }

inductive Reach (E : CEnv) (start : Int) : QS → Prop
  | init : Reach E start ⟨start, [], [], [], [], []⟩
  | step {s s' : QS} : Reach E start s → Step E s s' → Reach E start s'

/-- Equal up to the request id. -/
def SameQuery (a b : SearchConfig) : Prop := { a with uuid := "" } = { b with uuid := "" }

/-- Equal up to request id and timeout. -/
def SameButTimeout (a b : SearchConfig) : Prop := { a with uuid := "", timeout := 0 } = { b with uuid := "", timeout := 0 }

theorem SameQuery.weaken {a b : SearchConfig} (h : SameQuery a b) : SameButTimeout a b := by
  unfold SameQuery at h
  unfold SameButTimeout
  cases a; cases b
  simp_all

theorem SameButTimeout.trans {a b c : SearchConfig} (h : SameButTimeout a b) (g : SameButTimeout b c) :
    SameButTimeout a c := Eq.trans h g

/-- The duration fits in int64 nanoseconds. -/
def Fits (c : SearchConfig) : Prop := c.cacheDuration.toNat * 1000000000 < 2 ^ 63

theorem nanos_fits {c : SearchConfig} (h : Fits c) : nanos c.cacheDuration = c.cacheDuration.toNat * 1000000000 := by
  unfold Fits at h
  unfold nanos
  rw [Int64.toInt_mul]
  have h1 : c.cacheDuration.toInt64.toInt = c.cacheDuration.toNat := by
    rw [Store.toInt_toInt64, Int.bmod_eq_of_le] <;> omega
  rw [h1]
  show Int.bmod (_ * 1000000000) (2 ^ 64) = _
  rw [Int.bmod_eq_of_le] <;> omega

/-- A query's key is the key of its datum and configuration, which is the received one but for the timeout. -/
def QOk (E : CEnv) (q : Query) : Prop :=
  getSearchKey E.J q.datum q.config = some q.queryKey ∧ SameButTimeout q.config q.received

theorem searchKey_inj {J : JsonStr} {d d' : Datum} {c c' : SearchConfig} {k : Bytes}
    (h : getSearchKey J d c = some k) (h' : getSearchKey J d' c' = some k) : d.key = d'.key ∧ SameQuery c c' := by
  unfold getSearchKey getKeyAsBytes at h h'
  cases hd : d.key with
  | none => rw [hd] at h; cases h
  | some a =>
    cases hd' : d'.key with
    | none => rw [hd'] at h'; cases h'
    | some a' =>
      rw [hd] at h; rw [hd'] at h'
      simp only [(Gencoder.marshalKey_eq a).1, (Gencoder.marshalKey_eq a').1, Option.some.injEq] at h h'
      rw [← h'] at h
      obtain ⟨h1, h2⟩ := Gencoder.encKey_append_inj _ _ _ _ h
      exact ⟨by rw [h1], encodeSearchConfig_inj J c c' h2⟩

/-- Where an item of the cache comes from. -/
def ItemOk (s : QS) (k : Bytes) (i : Item) : Prop :=
  ∃ w ∈ s.stored, w.queryKey = k ∧ w.result = i.result ∧ w.config.cacheDuration > 0 ∧
    (Fits w.config → ∃ e, i.expires = some e ∧ e ≤ w.time + nanos w.config.cacheDuration * (1 + hits s k))

/-- A stored answer is the merge of results that the sources sent, of all of them unless the search was cut short. -/
def MergedOk (E : CEnv) (w : Stored) : Prop :=
  ∃ got rest, (got ++ rest).Perm w.inputs.flatten ∧ mergeAll E.A w.config got = .ok w.result ∧
    (w.cut = false → rest = [])

structure Inv (E : CEnv) (s : QS) : Prop where
  items : ∀ k i, s.cache.get? k = some i → ItemOk s k i
  reqs : ∀ q ∈ s.reqs, SameButTimeout q.current q.received
  running : ∀ q ∈ s.running, QOk E q
  stored : ∀ w ∈ s.stored, QOk E w.toQuery
  merged : ∀ w ∈ s.stored, MergedOk E w
  served : ∀ v ∈ s.served, QOk E v.toQuery ∧ ∃ w ∈ s.stored, w.queryKey = v.queryKey ∧ w.result = v.result ∧
    (Fits w.config → v.time ≤ w.time + nanos w.config.cacheDuration * (1 + v.earlier))

theorem SameQuery.duration {a b : SearchConfig} (h : SameQuery a b) : a.cacheDuration = b.cacheDuration := by
  have := congrArg SearchConfig.cacheDuration (show ({ a with uuid := "" } : SearchConfig) = _ from h)
  exact this

theorem pos_nanos {c : SearchConfig} (h : Fits c) (h0 : c.cacheDuration > 0) : 0 < nanos c.cacheDuration := by
  rw [nanos_fits h]
  have : 0 < c.cacheDuration.toNat := h0
  omega

theorem hits_mono_le {s s' : QS} (k : Bytes) (h : ∃ l, s'.served = s.served ++ l) : hits s k ≤ hits s' k := by
  obtain ⟨l, h⟩ := h
  simp only [hits, h, List.filter_append, List.length_append]
  omega

theorem ItemOk.mono {s s' : QS} {k : Bytes} {i : Item} (h : ItemOk s k i) (hs : ∀ w ∈ s.stored, w ∈ s'.stored)
    (hv : ∃ l, s'.served = s.served ++ l) : ItemOk s' k i := by
  obtain ⟨w, hw, h1, h2, h3, h4⟩ := h
  refine ⟨w, hs w hw, h1, h2, h3, fun hf => ?_⟩
  obtain ⟨e, he, hle⟩ := h4 hf
  refine ⟨e, he, Int.le_trans hle ?_⟩
  have := hits_mono_le k hv
  have hp := pos_nanos hf h3
  have : nanos w.config.cacheDuration * (1 + (hits s k : Int)) ≤ nanos w.config.cacheDuration * (1 + (hits s' k : Int)) :=
    Int.mul_le_mul_of_nonneg_left (by omega) (by omega)
  omega

theorem beginSearch_key {E : CEnv} {now : Int} {c : Cache} {datum : Datum} {config : SearchConfig} {b : Begun}
    (h : beginSearch E now c datum config = some b) :
    getSearchKey E.J datum config = some b.queryKey ∧ b.config = { config with timeout := E.shrink config.timeout } := by
  unfold beginSearch at h
  cases hk : getSearchKey E.J datum config with
  | none => simp [hk] at h
  | some k =>
    simp only [hk] at h
    split at h
    · split at h <;> (simp only [Option.some.injEq] at h; subst h; exact ⟨rfl, rfl⟩)
    · simp only [Option.some.injEq] at h; subst h; exact ⟨rfl, rfl⟩

theorem beginSearch_miss {E : CEnv} {now : Int} {c : Cache} {datum : Datum} {config : SearchConfig} {b : Begun}
    (h : beginSearch E now c datum config = some b) (hm : b.hit = none) : b.cache = c := by
  unfold beginSearch at h
  cases hk : getSearchKey E.J datum config with
  | none => simp [hk] at h
  | some k =>
    simp only [hk] at h
    split at h
    · split at h
      · simp only [Option.some.injEq] at h; subst h; cases hm
      · simp only [Option.some.injEq] at h; subst h; rfl
    · simp only [Option.some.injEq] at h; subst h; rfl

theorem beginSearch_hit {E : CEnv} {now : Int} {c : Cache} {datum : Datum} {config : SearchConfig} {b : Begun}
    {res : List ScoredDatum} (h : beginSearch E now c datum config = some b) (hm : b.hit = some res) :
    ∃ i, c.get? b.queryKey = some i ∧ live now i = true ∧ i.result = res ∧ config.cacheDuration > 0 ∧
      b.cache = c.set b.queryKey { i with expires := E.extend i.expires now (nanos config.cacheDuration) } := by
  unfold beginSearch at h
  cases hk : getSearchKey E.J datum config with
  | none => simp [hk] at h
  | some k =>
    simp only [hk] at h
    split at h
    · rename_i hc
      cases hl : lookup now c k with
      | none => simp only [hl, Option.some.injEq] at h; subst h; cases hm
      | some i =>
        simp only [hl, Option.some.injEq] at h
        subst h
        simp only [Option.some.injEq] at hm
        unfold lookup at hl
        cases hg : c.get? k with
        | none => simp [hg] at hl
        | some j =>
          simp only [hg] at hl
          split at hl
          · rename_i hlive
            simp only [Option.some.injEq] at hl
            subst hl
            exact ⟨j, rfl, hlive, hm, hc, rfl⟩
          · cases hl
    · simp only [Option.some.injEq] at h; subst h; cases hm

theorem inv_step {E : CEnv} (hE : E.Ok) {s s' : QS} (h : Inv E s) (hs : Step E s s') : Inv E s' := by
  cases hs with
  | tick d hd => exact ⟨fun k i hi => (h.items k i hi).mono (fun _ => id) ⟨[], by simp⟩, h.reqs, h.running, h.stored, h.merged, h.served⟩
  | request c =>
    refine ⟨fun k i hi => (h.items k i hi).mono (fun _ => id) ⟨[], by simp⟩, ?_, h.running, h.stored, h.merged, h.served⟩
    intro q hq
    rcases List.mem_append.1 hq with hq | hq
    · exact h.reqs q hq
    · rw [List.mem_singleton.1 hq]
      exact rfl
  | hit l r q datum b res hr hb hh =>
    obtain ⟨hkey, hcfg⟩ := beginSearch_key hb
    obtain ⟨i, hi, hlive, hres, hcd, hcache⟩ := beginSearch_hit hb hh
    have hq : SameButTimeout q.current q.received := h.reqs q (by rw [hr]; simp)
    obtain ⟨w, hw, hwk, hwr, hwc, hwe⟩ := h.items _ i hi
    have hwok := (h.stored w hw).1
    rw [hwk] at hwok
    obtain ⟨_, hsame⟩ := searchKey_inj hwok hkey
    have hdur : w.config.cacheDuration = q.current.cacheDuration := hsame.duration
    refine ⟨?_, ?_, h.running, h.stored, h.merged, ?_⟩
    · intro k j hj
      rw [hcache, AMap.get?_set] at hj
      split at hj
      · rename_i heq
        subst heq
        simp only [Option.some.injEq] at hj
        subst hj
        refine ⟨w, hw, hwk, hwr, hwc, fun hf => ?_⟩
        obtain ⟨e, he, hle⟩ := hwe hf
        have hpos := pos_nanos hf hwc
        have hnow : s.now ≤ e := by
          unfold live at hlive
          rw [he] at hlive
          simpa using hlive
        obtain ⟨e', he', h1, h2⟩ := hE e s.now (nanos q.current.cacheDuration) hnow (hdur ▸ hpos)
        refine ⟨e', by rw [he]; exact he', ?_⟩
        have hcount : hits { s with
            cache := b.cache
            reqs := l ++ { q with current := b.config } :: r
            served := s.served ++ [⟨⟨b.queryKey, datum, q.received, q.current⟩, res, s.now, hits s b.queryKey⟩] }
            b.queryKey = hits s b.queryKey + 1 := by
          simp [hits, List.filter_append]
        rw [hcount]
        rw [← hdur] at h2
        have : nanos w.config.cacheDuration * (1 + ((hits s b.queryKey + 1 : Nat) : Int)) =
            nanos w.config.cacheDuration * (1 + (hits s b.queryKey : Int)) + nanos w.config.cacheDuration := by
          rw [show (1 + ((hits s b.queryKey + 1 : Nat) : Int)) = (1 + (hits s b.queryKey : Int)) + 1 by omega, Int.mul_add,
            Int.mul_one]
        omega
      · exact (h.items k j hj).mono (fun _ => id) ⟨_, rfl⟩
    · intro q' hq'
      rcases List.mem_append.1 hq' with hq' | hq'
      · exact h.reqs q' (by rw [hr]; exact List.mem_append_left _ hq')
      · rcases List.mem_cons.1 hq' with rfl | hq'
        · show SameButTimeout b.config q.received
          rw [hcfg]
          exact SameButTimeout.trans rfl hq
        · exact h.reqs q' (by rw [hr]; exact List.mem_append_right _ (List.mem_cons_of_mem _ hq'))
    · intro v hv
      rcases List.mem_append.1 hv with hv | hv
      · exact h.served v hv
      · rw [List.mem_singleton.1 hv]
        refine ⟨⟨hkey, hq⟩, w, hw, hwk, by rw [hwr, hres], fun hf => ?_⟩
        obtain ⟨e, he, hle⟩ := hwe hf
        unfold live at hlive
        rw [he] at hlive
        simp at hlive
        exact Int.le_trans hlive hle
  | miss l r q datum b hr hb hh =>
    obtain ⟨hkey, hcfg⟩ := beginSearch_key hb
    have hq : SameButTimeout q.current q.received := h.reqs q (by rw [hr]; simp)
    have hc := beginSearch_miss hb hh
    refine ⟨?_, ?_, ?_, h.stored, h.merged, h.served⟩
    · intro k j hj
      rw [hc] at hj
      exact (h.items k j hj).mono (fun _ => id) ⟨[], by simp⟩
    · intro q' hq'
      rcases List.mem_append.1 hq' with hq' | hq'
      · exact h.reqs q' (by rw [hr]; exact List.mem_append_left _ hq')
      · rcases List.mem_cons.1 hq' with rfl | hq'
        · show SameButTimeout b.config q.received
          rw [hcfg]
          exact SameButTimeout.trans rfl hq
        · exact h.reqs q' (by rw [hr]; exact List.mem_append_right _ (List.mem_cons_of_mem _ hq'))
    · intro q' hq'
      rcases List.mem_append.1 hq' with hq' | hq'
      · exact h.running q' hq'
      · rw [List.mem_singleton.1 hq']
        exact ⟨hkey, hq⟩
  | finish l r q result inputs st cut hr hst hcut hmerge =>
    have hq := h.running q (by rw [hr]; simp)
    have hsub : ∀ w ∈ s.stored, w ∈ (if q.config.cacheDuration > 0 then s.stored ++ [⟨q, result, s.now, inputs, cut⟩] else s.stored) := by
      intro w hw
      split
      · exact List.mem_append_left _ hw
      · exact hw
    refine ⟨?_, h.reqs, ?_, ?_, ?_, ?_⟩
    · intro k j hj
      unfold finishSearch at hj
      by_cases hc : q.config.cacheDuration > 0
      · rw [if_pos hc, AMap.get?_set] at hj
        split at hj
        · rename_i heq
          subst heq
          simp only [Option.some.injEq] at hj
          subst hj
          refine ⟨⟨q, result, s.now, inputs, cut⟩, ?_, rfl, rfl, hc, fun hf => ?_⟩
          · show _ ∈ (if _ then _ else _)
            rw [if_pos hc]
            exact List.mem_append_right _ List.mem_cons_self
          · have hp : 0 < nanos q.config.cacheDuration := pos_nanos hf hc
            refine ⟨s.now + nanos q.config.cacheDuration, ?_, ?_⟩
            · simp only [newItem]
              rw [if_neg (show ¬ nanos q.config.cacheDuration = 0 by omega), if_pos hp]
            · show s.now + nanos q.config.cacheDuration ≤ s.now + nanos q.config.cacheDuration * _
              refine Int.add_le_add_left ?_ _
              have : ∀ n : Nat, nanos q.config.cacheDuration * 1 ≤ nanos q.config.cacheDuration * (1 + (n : Int)) :=
                fun n => Int.mul_le_mul_of_nonneg_left (by omega) (by omega)
              simp only [Int.mul_one] at this
              exact this _
        · exact (h.items k j hj).mono hsub ⟨[], by simp⟩
      · rw [if_neg hc] at hj
        exact (h.items k j hj).mono hsub ⟨[], by simp⟩
    · intro q' hq'
      refine h.running q' ?_
      rw [hr]
      rcases List.mem_append.1 hq' with hq' | hq'
      · exact List.mem_append_left _ hq'
      · exact List.mem_append_right _ (List.mem_cons_of_mem _ hq')
    · intro w hw
      by_cases hc : q.config.cacheDuration > 0
      · simp only [if_pos hc] at hw
        rcases List.mem_append.1 hw with hw | hw
        · exact h.stored w hw
        · rw [List.mem_singleton.1 hw]
          exact hq
      · simp only [if_neg hc] at hw
        exact h.stored w hw
    · intro w hw
      by_cases hc : q.config.cacheDuration > 0
      · simp only [if_pos hc] at hw
        rcases List.mem_append.1 hw with hw | hw
        · exact h.merged w hw
        · rw [List.mem_singleton.1 hw]
          cases cut with
          | false =>
            refine ⟨st.got, [], ?_, hmerge, fun _ => rfl⟩
            rw [List.append_nil]
            exact (C33_nothing_lost 100 inputs st hst).2 hcut
          | true =>
            obtain ⟨rest, hp⟩ := (C34_timeout_partial 100 inputs st hst).2
            exact ⟨st.got, rest, hp, hmerge, by intro h; cases h⟩
      · simp only [if_neg hc] at hw
        exact h.merged w hw
    · intro v hv
      obtain ⟨h1, w, hw, h2⟩ := h.served v hv
      exact ⟨h1, w, hsub w hw, h2⟩
  | clean k i hi hl =>
    refine ⟨?_, h.reqs, h.running, h.stored, h.merged, h.served⟩
    intro k' j hj
    rw [AMap.get?_erase] at hj
    split at hj
    · cases hj
    · exact (h.items k' j hj).mono (fun _ => id) ⟨[], by simp⟩

theorem inv_reach {E : CEnv} (hE : E.Ok) {start : Int} {s : QS} (h : Reach E start s) : Inv E s := by
  induction h with
  | init => constructor <;> simp
  | step _ hs ih => exact inv_step hE ih hs

end Veri.QCache

namespace Veri
open QCache Json

/-- C35, the cache key: two searches have the same cache key exactly if they are for the same datum key with the same
configuration up to the request id. -/
theorem C35_key_injective (J : JsonStr) (d d' : Datum) (c c' : SearchConfig) (hd : d.key ≠ none) (hd' : d'.key ≠ none) :
    getSearchKey J d c = getSearchKey J d' c' ↔ d.key = d'.key ∧ SameQuery c c' := by
  constructor
  · intro h
    cases hk : getSearchKey J d c with
    | none =>
      unfold getSearchKey getKeyAsBytes at hk
      cases hkey : d.key with
      | none => exact absurd hkey hd
      | some a => simp [hkey, (Gencoder.marshalKey_eq a).1] at hk
    | some k => exact searchKey_inj hk (h ▸ hk)
  · intro ⟨h1, h2⟩
    unfold SameQuery at h2
    unfold getSearchKey getKeyAsBytes encodeSearchConfig
    rw [h1]
    simp only [h2]

/-- C35, full statement: in every history, an answer given from the cache was computed for the same datum key and the
same configuration up to the request id.  FALSE of the code. -/
def C35_same_question_statement : Prop :=
  ∀ (E : CEnv), E.Ok → ∀ (start : Int) (s : QS), QCache.Reach E start s → ∀ v ∈ s.served,
    ∃ w ∈ s.stored, w.result = v.result ∧ w.datum.key = v.datum.key ∧ SameQuery w.received v.received

/-- C35, partial: the configuration may differ in the timeout as well.  Exactly: the configurations the two searches
found, after the changes made by other searches of the same request, are equal up to the request id. -/
theorem C35_same_question_partial (E : CEnv) (hE : E.Ok) (start : Int) (s : QS) (h : QCache.Reach E start s) (v : Served)
    (hv : v ∈ s.served) : ∃ w ∈ s.stored, w.result = v.result ∧ w.datum.key = v.datum.key ∧
      SameQuery w.config v.config ∧ SameButTimeout w.received v.received ∧
      (w.config = w.received → v.config = v.received → SameQuery w.received v.received) := by
  have hi := QCache.inv_reach hE h
  obtain ⟨h1, w, hw, h2, h3, _⟩ := hi.served v hv
  have hwok := hi.stored w hw
  have hk := hwok.1
  rw [h2] at hk
  obtain ⟨h4, h5⟩ := searchKey_inj hk h1.1
  exact ⟨w, hw, h3, h4, h5, hwok.2.symm.trans (h5.weaken.trans h1.2), fun a b => a ▸ b ▸ h5⟩

/-- C36, full statement: an answer served from the cache is at most the requested cache duration old.  FALSE of the
code. -/
def C36_bounded_age_statement : Prop :=
  ∀ (E : CEnv), E.Ok → ∀ (start : Int) (s : QS), QCache.Reach E start s → ∀ v ∈ s.served, Fits v.config →
    ∃ w ∈ s.stored, w.result = v.result ∧ w.datum.key = v.datum.key ∧
      v.time ≤ w.time + v.config.cacheDuration.toNat * 1000000000

/-- C36, partial: every hit buys the answer at most one more cache duration; an answer served under a key for the first
time is at most the requested cache duration old.  (What is missing: hits should not prolong.) -/
theorem C36_bounded_age_partial (E : CEnv) (hE : E.Ok) (start : Int) (s : QS) (h : QCache.Reach E start s) (v : Served)
    (hv : v ∈ s.served) (hf : Fits v.config) : ∃ w ∈ s.stored, w.result = v.result ∧ w.datum.key = v.datum.key ∧
      v.time ≤ w.time + v.config.cacheDuration.toNat * 1000000000 * (1 + v.earlier) := by
  have hi := QCache.inv_reach hE h
  obtain ⟨h1, w, hw, h2, h3, h6⟩ := hi.served v hv
  have hk := (hi.stored w hw).1
  rw [h2] at hk
  obtain ⟨h4, h5⟩ := searchKey_inj hk h1.1
  have hdur : w.config.cacheDuration = v.config.cacheDuration := h5.duration
  have hf' : Fits w.config := by unfold Fits; rw [hdur]; exact hf
  have := h6 hf'
  rw [nanos_fits hf', hdur] at this
  exact ⟨w, hw, h3, h4, this⟩

namespace QCache

def exDatum : Datum := ⟨some ⟨[], [], 0, 0, 0, 0⟩, none⟩
def exConfig : SearchConfig := { Search.defaultSearchConfig with cacheDuration := 1 }
def exQuery (E : CEnv) : Option Bytes := getSearchKey E.J exDatum exConfig

/-- `IncrementExpiration` read as `now + d`. -/
def exEnv : CEnv := ⟨Search.exEnv, exStr, fun t => t * 9 / 10, fun _ now d => some (now + d)⟩

theorem exEnv_ok : exEnv.Ok := by
  intro old now d h hd
  exact ⟨now + d, rfl, Int.le_refl _, by omega⟩

theorem exKey (E : CEnv) (c : SearchConfig) : ∃ k, getSearchKey E.J exDatum c = some k := by
  unfold getSearchKey getKeyAsBytes exDatum
  simp only [(Gencoder.marshalKey_eq _).1]
  exact ⟨_, rfl⟩

theorem nanos_one : nanos 1 = 1000000000 := by decide

/-- A search with no results. -/
theorem no_results : ∃ st : Stream.State ScoredDatum, Stream.Reach 100 [] st ∧ st.main = .finished false ∧ st.got = [] := by
  obtain ⟨s, hs, hm, hp⟩ := C33_completes 100 (by decide) ([] : List (List ScoredDatum)) _ .init (by simp [Stream.init])
  exact ⟨s, Stream.Reach.steps .init hs, hm, List.Perm.eq_nil (by simpa using hp)⟩

theorem merge_nil (A : Env) : mergeAll A exConfig [] = .ok [] := rfl

/-- One answer, asked for again every second. -/
theorem old_answers {E : CEnv} (hE : E.Ok) (n : Nat) : ∃ (s : QS) (e : Int) (k : Bytes), Reach E 0 s ∧
    getSearchKey E.J exDatum exConfig = some k ∧
    s.cache.get? k = some ⟨[], some e⟩ ∧ s.now + 1000000000 ≤ e ∧ s.now = 1000000000 * n ∧
    (∀ w ∈ s.stored, w.time = 0) ∧
    (0 < n → ∃ v ∈ s.served, v.time = 1000000000 * n ∧ v.config = exConfig) := by
  obtain ⟨k, hk⟩ := exKey E exConfig
  induction n with
  | zero =>
    let s1 : QS := ⟨0, [], [⟨exConfig, exConfig⟩], [], [], []⟩
    have h1 : Reach E 0 s1 := .step .init (.request _ exConfig)
    have hb : beginSearch E 0 [] exDatum exConfig =
        some ⟨k, { exConfig with timeout := E.shrink exConfig.timeout }, [], none⟩ := by
      unfold beginSearch
      simp only [hk]
      rfl
    have h2 := Reach.step h1 (.miss s1 [] [] ⟨exConfig, exConfig⟩ exDatum _ rfl hb rfl)
    obtain ⟨st, hst, hm, hg⟩ := no_results
    have h3 := Reach.step h2 (.finish _ [] [] ⟨k, exDatum, exConfig, exConfig⟩ [] [] st false rfl hst hm
      (by rw [hg]; rfl))
    refine ⟨_, 1000000000, k, h3, hk, ?_, ?_, rfl, ?_, by intro h; omega⟩
    · show AMap.get? (finishSearch 0 [] k exConfig []) k = _
      unfold finishSearch
      rw [if_pos (by decide), AMap.get?_set_self]
      rfl
    · show (0 : Int) + 1000000000 ≤ 1000000000
      omega
    · intro w hw
      simp only [if_pos (show exConfig.cacheDuration > 0 by decide)] at hw
      have : w = ⟨⟨k, exDatum, exConfig, exConfig⟩, [], 0, [], false⟩ := by simpa [s1] using hw
      rw [this]
  | succ n ih =>
    obtain ⟨s, e, k', hr, hk', hc, he, hn, hst, _⟩ := ih
    rw [hk] at hk'
    injection hk' with hk'
    subst hk'
    have h1 := Reach.step hr (.tick s 1000000000 (by decide))
    have h2 := Reach.step h1 (.request _ exConfig)
    obtain ⟨e', he', hle, _⟩ := hE e (s.now + 1000000000) (nanos exConfig.cacheDuration) (by omega)
      (by show 0 < nanos 1; rw [nanos_one]; decide)
    have hb : beginSearch E (s.now + 1000000000) s.cache exDatum exConfig =
        some ⟨k, { exConfig with timeout := E.shrink exConfig.timeout },
          s.cache.set k ⟨[], E.extend (some e) (s.now + 1000000000) (nanos exConfig.cacheDuration)⟩, some []⟩ := by
      unfold beginSearch lookup
      simp only [hk, hc]
      rw [if_pos (by decide), if_pos (by simp only [live, decide_eq_true_eq]; exact he)]
    have h3 := Reach.step h2 (.hit _ s.reqs [] ⟨exConfig, exConfig⟩ exDatum _ [] rfl hb rfl)
    refine ⟨_, e', k, h3, hk, ?_, ?_, ?_, hst, ?_⟩
    · show AMap.get? (s.cache.set k _) k = _
      rw [AMap.get?_set_self, he']
    · have : exConfig.cacheDuration = 1 := rfl
      rw [this, nanos_one] at hle
      exact hle
    · show s.now + 1000000000 = _
      omega
    · intro _
      refine ⟨_, List.mem_append_right _ List.mem_cons_self, ?_, rfl⟩
      show s.now + 1000000000 = _
      omega

def ex9 : SearchConfig := { exConfig with timeout := 900 }
def ex8 : SearchConfig := { exConfig with timeout := 810 }
theorem shrink9 : { exConfig with timeout := exEnv.shrink exConfig.timeout } = ex9 := by decide
theorem shrink8 : { ex9 with timeout := exEnv.shrink ex9.timeout } = ex8 := by decide

end QCache

/-- C36: there is no bound: an answer that is asked for every second with a cache duration of one second is still served
after any number of seconds. -/
theorem C36_unbounded_age (E : CEnv) (hE : E.Ok) (n : Nat) (hn : 0 < n) : ∃ (s : QS) (v : Served), QCache.Reach E 0 s ∧
    v ∈ s.served ∧ v.config.cacheDuration = 1 ∧ v.time = 1000000000 * n ∧ ∀ w ∈ s.stored, w.time = 0 := by
  obtain ⟨s, e, k, hr, _, _, _, _, hst, hv⟩ := old_answers hE n
  obtain ⟨v, hv, ht, hc⟩ := hv hn
  exact ⟨s, v, hr, hv, by rw [hc]; rfl, ht, hst⟩

theorem C36_bounded_age_fails : ¬ C36_bounded_age_statement := by
  intro h
  obtain ⟨s, v, hr, hv, hc, ht, hst⟩ := C36_unbounded_age QCache.exEnv QCache.exEnv_ok 2 (by decide)
  obtain ⟨w, hw, _, _, hle⟩ := h _ QCache.exEnv_ok 0 s hr v hv (by unfold Fits; rw [hc]; decide)
  rw [hc, hst w hw, ht] at hle
  exact absurd hle (by decide)

/-- C35, counterexample: the second datum of a request with timeout 1000 finds the timeout already lowered to 900, so
its answer is stored as one for timeout 900, and given to a request that asked with timeout 900. -/
theorem C35_same_question_fails : ¬ C35_same_question_statement := by
  intro h
  obtain ⟨k, hk⟩ := QCache.exKey QCache.exEnv QCache.exConfig
  obtain ⟨k9, hk9⟩ := QCache.exKey QCache.exEnv QCache.ex9
  have h1 : QCache.Reach QCache.exEnv 0 _ := .step .init (.request _ QCache.exConfig)
  have hb : beginSearch QCache.exEnv 0 [] exDatum QCache.exConfig = some ⟨k, ex9, [], none⟩ := by
    unfold beginSearch
    simp only [hk, shrink9]
    rfl
  have h2 := QCache.Reach.step h1 (.miss _ [] [] ⟨QCache.exConfig, QCache.exConfig⟩ exDatum _ rfl hb rfl)
  have hb2 : beginSearch QCache.exEnv 0 [] exDatum ex9 = some ⟨k9, ex8, [], none⟩ := by
    unfold beginSearch
    simp only [hk9, shrink8]
    rfl
  have h3 := QCache.Reach.step h2 (.miss _ [] [] ⟨QCache.exConfig, ex9⟩ exDatum _ rfl hb2 rfl)
  obtain ⟨st, hst, hm, hg⟩ := QCache.no_results
  have h4 := QCache.Reach.step h3 (.finish _ [⟨k, exDatum, QCache.exConfig, QCache.exConfig⟩] []
    ⟨k9, exDatum, QCache.exConfig, ex9⟩ [] [] st false rfl hst hm (by rw [hg]; rfl))
  have h5 := QCache.Reach.step h4 (.request _ ex9)
  have hcache : finishSearch 0 [] k9 ex9 [] = [(k9, ⟨[], some 1000000000⟩)] := rfl
  have hb3 : beginSearch QCache.exEnv 0 (finishSearch 0 [] k9 ex9 []) exDatum ex9 =
      some ⟨k9, ex8, AMap.set [(k9, ⟨[], some 1000000000⟩)] k9 ⟨[], QCache.exEnv.extend (some 1000000000) 0 (nanos 1)⟩, some []⟩ := by
    unfold beginSearch lookup
    rw [hcache]
    simp only [hk9, shrink8, AMap.get?, if_true]
    rw [if_pos (by decide)]
    rfl
  have h6 := QCache.Reach.step h5 (.hit _ [⟨QCache.exConfig, ex8⟩] [] ⟨ex9, ex9⟩ exDatum _ [] rfl hb3 rfl)
  obtain ⟨w, hw, _, _, hs⟩ := h QCache.exEnv QCache.exEnv_ok 0 _ h6 _ (List.mem_append_right _ List.mem_cons_self)
  have hw' : w = ⟨⟨k9, exDatum, QCache.exConfig, ex9⟩, [], 0, [], false⟩ := by
    simp only [if_pos (show ex9.cacheDuration > 0 by decide)] at hw
    simpa using hw
  rw [hw'] at hs
  have : (1000 : UInt64) = 900 := congrArg SearchConfig.timeout (show ({ QCache.exConfig with uuid := "" } : SearchConfig) = _ from hs)
  exact absurd this (by decide)

/-- C75, full statement: an answer served from the cache was complete: everything its sources sent had been merged.
FALSE of the code. -/
def C75_complete_answers_statement : Prop :=
  ∀ (E : CEnv), E.Ok → ∀ (start : Int) (s : QS), QCache.Reach E start s → ∀ v ∈ s.served,
    ∃ w ∈ s.stored, w.result = v.result ∧ w.datum.key = v.datum.key ∧
      ∃ got, got.Perm w.inputs.flatten ∧ mergeAll E.A w.config got = .ok v.result

/-- C75, partial: it is the merge of results that the sources sent, none twice, and of all of them if the search was not
cut short by its timeout. -/
theorem C75_complete_answers_partial (E : CEnv) (hE : E.Ok) (start : Int) (s : QS) (h : QCache.Reach E start s)
    (v : Served) (hv : v ∈ s.served) : ∃ w ∈ s.stored, w.result = v.result ∧ w.datum.key = v.datum.key ∧
      ∃ got rest, (got ++ rest).Perm w.inputs.flatten ∧ mergeAll E.A w.config got = .ok v.result ∧
        (w.cut = false → rest = []) := by
  have hi := QCache.inv_reach hE h
  obtain ⟨h1, w, hw, h2, h3, _⟩ := hi.served v hv
  have hk := (hi.stored w hw).1
  rw [h2] at hk
  obtain ⟨h4, _⟩ := searchKey_inj hk h1.1
  obtain ⟨got, rest, g1, g2, g3⟩ := hi.merged w hw
  exact ⟨w, hw, h3, h4, got, rest, g1, by rw [← h3]; exact g2, g3⟩

namespace QCache

def exResult : ScoredDatum := ⟨0, ⟨some ⟨[], [], 0, 0, 0, 0⟩, none⟩⟩

/-- A search cut short before its source sent its only result. -/
theorem cut_short : ∃ st : Stream.State ScoredDatum, Stream.Reach 100 [[exResult]] st ∧ st.main = .finished true ∧
    st.got = [] :=
  ⟨_, .step (.step (.step .init (.spawn (cap := 100) (Stream.init [[exResult]]) [exResult] [] rfl)) (.enter _ rfl))
    (.timeout _ rfl), rfl, rfl⟩

def isEmpty : Res (List ScoredDatum) → Bool
  | .ok l => l.isEmpty
  | _ => false

theorem merge_one : mergeAll exEnv.A exConfig [exResult] ≠ .ok [] := by
  intro h
  have : isEmpty (mergeAll exEnv.A exConfig [exResult]) = false := by decide +kernel
  rw [h] at this
  cases this

end QCache

/-- C75, counterexample: the empty answer of a search whose timeout fired before its source sent anything is cached and
served. -/
theorem C75_complete_answers_fails : ¬ C75_complete_answers_statement := by
  intro h
  obtain ⟨k, hk⟩ := QCache.exKey QCache.exEnv QCache.exConfig
  have h1 : QCache.Reach QCache.exEnv 0 _ := .step .init (.request _ QCache.exConfig)
  have hb : beginSearch QCache.exEnv 0 [] exDatum QCache.exConfig = some ⟨k, ex9, [], none⟩ := by
    unfold beginSearch
    simp only [hk, shrink9]
    rfl
  have h2 := QCache.Reach.step h1 (.miss _ [] [] ⟨QCache.exConfig, QCache.exConfig⟩ exDatum _ rfl hb rfl)
  obtain ⟨st, hst, hm, hg⟩ := QCache.cut_short
  have h3 := QCache.Reach.step h2 (.finish _ [] [] ⟨k, exDatum, QCache.exConfig, QCache.exConfig⟩ [] [[exResult]] st true
    rfl hst hm (by rw [hg]; rfl))
  have h4 := QCache.Reach.step h3 (.request _ QCache.exConfig)
  have hcache : finishSearch 0 [] k QCache.exConfig [] = [(k, ⟨[], some 1000000000⟩)] := rfl
  have hb2 : beginSearch QCache.exEnv 0 (finishSearch 0 [] k QCache.exConfig []) exDatum QCache.exConfig =
      some ⟨k, ex9, AMap.set [(k, ⟨[], some 1000000000⟩)] k ⟨[], QCache.exEnv.extend (some 1000000000) 0 (nanos 1)⟩,
        some []⟩ := by
    unfold beginSearch lookup
    rw [hcache]
    simp only [hk, shrink9, AMap.get?, if_true]
    rw [if_pos (by decide)]
    rfl
  have h5 := QCache.Reach.step h4 (.hit _ [⟨QCache.exConfig, ex9⟩] [] ⟨QCache.exConfig, QCache.exConfig⟩ exDatum _ [] rfl
    hb2 rfl)
  obtain ⟨w, hw, _, _, got, hp, hmerge⟩ := h QCache.exEnv QCache.exEnv_ok 0 _ h5 _
    (List.mem_append_right _ List.mem_cons_self)
  have hw' : w = ⟨⟨k, exDatum, QCache.exConfig, QCache.exConfig⟩, [], 0, [[exResult]], true⟩ := by
    simp only [if_pos (show QCache.exConfig.cacheDuration > 0 by decide)] at hw
    simpa using hw
  rw [hw'] at hp hmerge
  have : got = [exResult] := List.perm_singleton.1 (by simpa using hp)
  rw [this] at hmerge
  exact merge_one hmerge

end Veri
