import Verif.Search.Cache
/-
C126: is a repeated query answered from the cache (data/search.go:151-183, 227-241)?
-/
set_option autoImplicit false
namespace Veri.QCache
open Json

/-- The stored answers whose time has not run out are still in the cache, or newer ones under the same key. -/
structure Kept (E : CEnv) (s : QS) : Prop where
  past : ∀ w ∈ s.stored, w.time ≤ s.now ∧ w.config.cacheDuration > 0
  kept : ∀ w ∈ s.stored, Fits w.config → s.now ≤ w.time + nanos w.config.cacheDuration →
    ∃ i e, s.cache.get? w.queryKey = some i ∧ i.expires = some e ∧ w.time + nanos w.config.cacheDuration ≤ e ∧
      ∃ w' ∈ s.stored, w'.queryKey = w.queryKey ∧ w'.result = i.result ∧ w.time ≤ w'.time

theorem SameButTimeout.duration {a b : SearchConfig} (h : SameButTimeout a b) : a.cacheDuration = b.cacheDuration := by
  have := congrArg SearchConfig.cacheDuration (show ({ a with uuid := "", timeout := 0 } : SearchConfig) = _ from h)
  exact this

theorem same_key_duration {E : CEnv} {q q' : Query} (h : QOk E q) (h' : QOk E q') (hk : q.queryKey = q'.queryKey) :
    q.config.cacheDuration = q'.config.cacheDuration :=
  (searchKey_inj h.1 (hk ▸ h'.1)).2.duration

theorem kept_step {E : CEnv} (hE : E.Ok) {s s' : QS} (h : Inv E s) (g : Kept E s) (hs : Step E s s') : Kept E s' := by
  cases hs with
  | tick d hd =>
    refine ⟨fun w hw => ⟨by have := (g.past w hw).1; show _ ≤ s.now + d; omega, (g.past w hw).2⟩, ?_⟩
    intro w hw hf ht
    exact g.kept w hw hf (by simp only at ht; omega)
  | request c => exact ⟨g.past, g.kept⟩
  | hit l r q datum b res hr hb hh =>
    obtain ⟨hkey, hcfg⟩ := beginSearch_key hb
    obtain ⟨i, hi, hlive, hres, hcd, hcache⟩ := beginSearch_hit hb hh
    refine ⟨g.past, ?_⟩
    intro w hw hf ht
    obtain ⟨j, e, hj, he, hle, w', hw', hk', hr', ht'⟩ := g.kept w hw hf ht
    simp only
    rw [hcache, AMap.get?_set]
    split
    · rename_i heq
      rw [← heq, hi] at hj
      injection hj with hj
      subst hj
      have hdur : w.config.cacheDuration = q.current.cacheDuration :=
        (searchKey_inj (heq ▸ (h.stored w hw).1) hkey).2.duration
      have hnow : s.now ≤ e := by
        unfold live at hlive
        rw [he] at hlive
        simpa using hlive
      have hpos := pos_nanos hf (g.past w hw).2
      obtain ⟨e', he', h1, h2⟩ := hE e s.now (nanos q.current.cacheDuration) hnow (hdur ▸ hpos)
      refine ⟨_, e', rfl, by simp only; rw [he]; exact he', ?_, w', hw', hk', hr', ht'⟩
      have := (g.past w hw).1
      rw [hdur]
      omega
    · exact ⟨j, e, hj, he, hle, w', hw', hk', hr', ht'⟩
  | miss l r q datum b hr hb hh =>
    have hc := beginSearch_miss hb hh
    exact ⟨g.past, by simp only [hc]; exact g.kept⟩
  | finish l r q result inputs st cut hr hst hcut hmerge =>
    have hq := h.running q (by rw [hr]; simp)
    by_cases hc : q.config.cacheDuration > 0
    · simp only [finishSearch, if_pos hc]
      constructor
      · intro w hw
        rcases List.mem_append.1 hw with hw | hw
        · exact g.past w hw
        · rw [List.mem_singleton.1 hw]
          exact ⟨Int.le_refl _, hc⟩
      · intro w hw hf ht
        simp only at ht
        have hnew : ∀ (w : Stored), w.queryKey = q.queryKey → QOk E w.toQuery → w.time ≤ s.now → Fits w.config →
            ∃ i e, (s.cache.set q.queryKey (newItem s.now result (nanos q.config.cacheDuration))).get? w.queryKey = some i ∧
              i.expires = some e ∧ w.time + nanos w.config.cacheDuration ≤ e ∧
              ∃ w' ∈ s.stored ++ [⟨q, result, s.now, inputs, cut⟩], w'.queryKey = w.queryKey ∧ w'.result = i.result ∧
                w.time ≤ w'.time := by
          intro w hk hok hwt hf
          have hdur : w.config.cacheDuration = q.config.cacheDuration := same_key_duration hok hq hk
          have hfq : Fits q.config := by unfold Fits; rw [← hdur]; exact hf
          have hp : 0 < nanos q.config.cacheDuration := pos_nanos hfq hc
          refine ⟨_, s.now + nanos q.config.cacheDuration, by rw [hk, AMap.get?_set_self], ?_, ?_,
            ⟨q, result, s.now, inputs, cut⟩, List.mem_append_right _ List.mem_cons_self, hk.symm, rfl, hwt⟩
          · simp only [newItem]
            rw [if_neg (show ¬ nanos q.config.cacheDuration = 0 by omega), if_pos hp]
          · rw [hdur]
            omega
        rcases List.mem_append.1 hw with hw | hw
        · by_cases hk : q.queryKey = w.queryKey
          · exact hnew w hk.symm (h.stored w hw) (g.past w hw).1 hf
          · obtain ⟨j, e, hj, he, hle, w', hw', hk', hr', ht'⟩ := g.kept w hw hf ht
            rw [AMap.get?_set, if_neg hk]
            exact ⟨j, e, hj, he, hle, w', List.mem_append_left _ hw', hk', hr', ht'⟩
        · rw [List.mem_singleton.1 hw] at hf ⊢
          exact hnew _ rfl hq (Int.le_refl _) hf
    · simp only [finishSearch, if_neg hc]
      exact ⟨g.past, g.kept⟩
  | clean k i hi hl =>
    refine ⟨g.past, ?_⟩
    intro w hw hf ht
    obtain ⟨j, e, hj, he, hle, rest⟩ := g.kept w hw hf ht
    simp only
    rw [AMap.get?_erase]
    split
    · rename_i heq
      rw [← heq, hi] at hj
      injection hj with hj
      subst hj
      unfold live at hl
      rw [he] at hl
      simp only [decide_eq_false_iff_not] at hl
      simp only at ht
      omega
    · exact ⟨j, e, hj, he, hle, rest⟩

theorem kept_reach {E : CEnv} (hE : E.Ok) {start : Int} {s : QS} (h : Reach E start s) : Kept E s := by
  induction h with
  | init => constructor <;> simp
  | step hr hs ih => exact kept_step hE (inv_reach hE hr) ih hs

end Veri.QCache

namespace Veri
open QCache Json

/-- C126, full statement: while an answer is not older than the cache duration it was asked with, a request for the same
datum key with the same configuration (up to the request id) is answered from the cache.  FALSE of the code. -/
def C126_repeated_query_statement : Prop :=
  ∀ (E : CEnv), E.Ok → ∀ (start : Int) (s : QS), QCache.Reach E start s → ∀ w ∈ s.stored, Fits w.received →
    s.now ≤ w.time + w.received.cacheDuration.toNat * 1000000000 →
    ∀ q ∈ s.reqs, SameQuery q.received w.received → ∀ datum : Datum, datum.key = w.datum.key →
    ∃ b res, beginSearch E s.now s.cache datum q.current = some b ∧ b.hit = some res

/-- C126, partial: it is answered from the cache, with an answer not older than that one, if the two searches found
configurations that are equal up to the request id: so if each was the first search of its request, as the only datum of a
request is.  Without such a stored answer it is not.  (What is missing: the other datums of a request find a timeout
lowered by the searches that began before them.) -/
theorem C126_repeated_query_partial (E : CEnv) (hE : E.Ok) (start : Int) (s : QS) (h : QCache.Reach E start s) :
    (∀ w ∈ s.stored, Fits w.received → s.now ≤ w.time + w.received.cacheDuration.toNat * 1000000000 →
      ∀ q ∈ s.reqs, ∀ datum : Datum, datum.key = w.datum.key →
      SameQuery q.current w.config ∨ (SameQuery q.received w.received ∧ q.current = q.received ∧ w.config = w.received) →
      ∃ b res, beginSearch E s.now s.cache datum q.current = some b ∧ b.hit = some res ∧
        ∃ w' ∈ s.stored, w'.datum.key = datum.key ∧ w'.result = res ∧ w.time ≤ w'.time) ∧
    (∀ q ∈ s.reqs, ∀ (datum : Datum) (b : Begun) (res : List ScoredDatum),
      beginSearch E s.now s.cache datum q.current = some b → b.hit = some res →
      ∃ w ∈ s.stored, w.datum.key = datum.key ∧ SameQuery w.config q.current ∧ w.result = res) := by
  have hi := QCache.inv_reach hE h
  have hk := QCache.kept_reach hE h
  constructor
  · intro w hw hf ht q hq datum hd hsame
    have hsame : SameQuery q.current w.config := by
      rcases hsame with hsame | ⟨h1, h2, h3⟩
      · exact hsame
      · rw [h2, h3]; exact h1
    have hdurw : w.config.cacheDuration = w.received.cacheDuration :=
      SameButTimeout.duration (hi.stored w hw).2
    have hf' : Fits w.config := by unfold Fits; rw [hdurw]; exact hf
    obtain ⟨i, e, hg, he, hle, w', hw', hk', hr', ht'⟩ := hk.kept w hw hf' (by rw [nanos_fits hf', hdurw]; exact ht)
    have hwk := (hi.stored w hw).1
    have hne : datum.key ≠ none := by
      intro hn
      rw [hn] at hd
      unfold getSearchKey getKeyAsBytes at hwk
      rw [← hd] at hwk
      cases hwk
    have hkey : getSearchKey E.J datum q.current = some w.queryKey := by
      rw [← hwk]
      exact (C35_key_injective E.J datum w.datum q.current w.config hne (hd ▸ hne)).2 ⟨hd, hsame⟩
    have hlive : live s.now i = true := by
      unfold live
      rw [he]
      rw [nanos_fits hf', hdurw] at hle
      simp only [decide_eq_true_eq]
      omega
    have hcd : q.current.cacheDuration > 0 := by rw [hsame.duration]; exact (hk.past w hw).2
    refine ⟨⟨w.queryKey, { q.current with timeout := E.shrink q.current.timeout },
        s.cache.set w.queryKey { i with expires := E.extend i.expires s.now (nanos q.current.cacheDuration) }, some i.result⟩,
      i.result, ?_, rfl, w', hw', ?_, hr', ht'⟩
    · unfold beginSearch lookup
      simp only [hkey, hg]
      rw [if_pos hcd, if_pos hlive]
    · have h1 := (hi.stored w' hw').1
      rw [hk'] at h1
      exact (searchKey_inj h1 hkey).1
  · intro q hq datum b res hb hh
    obtain ⟨i, hg, _, hres, _, _⟩ := beginSearch_hit hb hh
    obtain ⟨w, hw, hwk, hwr, _, _⟩ := hi.items _ i hg
    have h1 := (hi.stored w hw).1
    rw [hwk] at h1
    obtain ⟨h2, h3⟩ := searchKey_inj h1 (beginSearch_key hb).1
    exact ⟨w, hw, h2, h3, hwr.trans hres⟩

namespace QCache

def exDatum2 : Datum := ⟨some ⟨[1], [], 0, 0, 0, 0⟩, none⟩

theorem exKey2 (E : CEnv) (c : SearchConfig) : ∃ k, getSearchKey E.J exDatum2 c = some k := by
  unfold getSearchKey getKeyAsBytes exDatum2
  simp only [(Gencoder.marshalKey_eq _).1]
  exact ⟨_, rfl⟩

/-- A request for two datums, both answered and stored (nothing was found); then the same request comes again. -/
theorem two_datums : ∃ (s : QS) (k k2 k9 : Bytes), Reach exEnv 0 s ∧
    getSearchKey exEnv.J exDatum exConfig = some k ∧ getSearchKey exEnv.J exDatum2 exConfig = some k2 ∧
    getSearchKey exEnv.J exDatum ex9 = some k9 ∧
    s.now = 0 ∧ s.cache = [(k9, ⟨[], some 1000000000⟩), (k2, ⟨[], some 1000000000⟩)] ∧ s.running = [] ∧
    s.stored = [⟨⟨k2, exDatum2, exConfig, exConfig⟩, [], 0, [], false⟩, ⟨⟨k9, exDatum, exConfig, ex9⟩, [], 0, [], false⟩] ∧
    s.reqs = [⟨exConfig, ex8⟩, ⟨exConfig, exConfig⟩] := by
  obtain ⟨k, hk⟩ := exKey exEnv exConfig
  obtain ⟨k9, hk9⟩ := exKey exEnv ex9
  obtain ⟨k2, hk2⟩ := exKey2 exEnv exConfig
  have hne : k2 ≠ k9 := by
    intro he
    have := (searchKey_inj hk2 (he ▸ hk9)).1
    exact absurd this (by decide)
  have h1 : Reach exEnv 0 _ := .step .init (.request _ exConfig)
  have hb : beginSearch exEnv 0 [] exDatum2 exConfig = some ⟨k2, ex9, [], none⟩ := by
    unfold beginSearch
    simp only [hk2, shrink9]
    rfl
  have h2 := Reach.step h1 (.miss _ [] [] ⟨exConfig, exConfig⟩ exDatum2 _ rfl hb rfl)
  have hb2 : beginSearch exEnv 0 [] exDatum ex9 = some ⟨k9, ex8, [], none⟩ := by
    unfold beginSearch
    simp only [hk9, shrink8]
    rfl
  have h3 := Reach.step h2 (.miss _ [] [] ⟨exConfig, ex9⟩ exDatum _ rfl hb2 rfl)
  obtain ⟨st, hst, hm, hg⟩ := no_results
  have h4 := Reach.step h3 (.finish _ [] [⟨k9, exDatum, exConfig, ex9⟩] ⟨k2, exDatum2, exConfig, exConfig⟩ [] [] st false rfl hst hm
    (by rw [hg]; rfl))
  have h5 := Reach.step h4 (.finish _ [] [] ⟨k9, exDatum, exConfig, ex9⟩ [] [] st false rfl hst hm (by rw [hg]; rfl))
  have h6 := Reach.step h5 (.request _ exConfig)
  refine ⟨_, k, k2, k9, h6, hk, hk2, hk9, rfl, ?_, rfl, ?_, rfl⟩
  · have e1 : newItem 0 [] (nanos exConfig.cacheDuration) = ⟨[], some 1000000000⟩ := rfl
    have e2 : newItem 0 [] (nanos ex9.cacheDuration) = ⟨[], some 1000000000⟩ := rfl
    show finishSearch 0 (finishSearch 0 [] k2 exConfig []) k9 ex9 [] = _
    unfold finishSearch
    rw [if_pos (by decide), if_pos (by decide), e1, e2]
    simp [AMap.set, AMap.erase, hne]
  · rfl

end QCache

/-- C126, counterexample: a request for two datums with a timeout of 1000 ms.  The search for the second datum finds the
timeout 900; its answer is stored under that.  The same request comes again at once and this time the search for that datum
is the first to begin: it finds the timeout 1000, and not the answer. -/
theorem C126_repeated_query_fails : ¬ C126_repeated_query_statement := by
  intro h
  obtain ⟨s, k, k2, k9, hr, hk, hk2, hk9, hn, hc, _, hst, hq⟩ := QCache.two_datums
  have hf : Fits QCache.exConfig := by unfold Fits; decide
  have hle : s.now ≤ (0 : Int) + QCache.exConfig.cacheDuration.toNat * 1000000000 := by rw [hn]; decide
  obtain ⟨b, res, hb, hh⟩ := h QCache.exEnv QCache.exEnv_ok 0 s hr ⟨⟨k9, exDatum, QCache.exConfig, ex9⟩, [], 0, [], false⟩
    (by rw [hst]; exact List.mem_cons_of_mem _ List.mem_cons_self) hf hle ⟨QCache.exConfig, QCache.exConfig⟩ (by rw [hq]; simp) rfl
    exDatum rfl
  obtain ⟨i, hg, _⟩ := beginSearch_hit hb hh
  have hbk := (beginSearch_key hb).1
  rw [hk] at hbk
  injection hbk with hbk
  rw [hc, ← hbk] at hg
  have h9 : k9 ≠ k := by
    intro he
    have := (searchKey_inj hk9 (he ▸ hk)).2
    have : (900 : UInt64) = 1000 := congrArg SearchConfig.timeout (show ({ ex9 with uuid := "" } : SearchConfig) = _ from this)
    exact absurd this (by decide)
  have h2 : k2 ≠ k := by
    intro he
    have := (searchKey_inj hk2 (he ▸ hk)).1
    exact absurd this (by decide)
  simp [AMap.get?, h9, h2] at hg

/-- C126: the hypotheses can be met: in the same history the other datum is answered from the cache. -/
theorem C126_example : ∃ s, QCache.Reach QCache.exEnv 0 s ∧ ∃ w ∈ s.stored, ∃ q ∈ s.reqs, Fits w.received ∧
    s.now ≤ w.time + w.received.cacheDuration.toNat * 1000000000 ∧ SameQuery q.received w.received ∧ q.current = q.received ∧
    w.config = w.received ∧ ∃ b res, beginSearch QCache.exEnv s.now s.cache exDatum2 q.current = some b ∧ b.hit = some res := by
  obtain ⟨s, k, k2, k9, hr, hk, hk2, hk9, hn, hc, _, hst, hq⟩ := QCache.two_datums
  have hw : (⟨⟨k2, exDatum2, QCache.exConfig, QCache.exConfig⟩, [], 0, [], false⟩ : Stored) ∈ s.stored := by
    rw [hst]; exact List.mem_cons_self
  have hqm : (⟨QCache.exConfig, QCache.exConfig⟩ : Req) ∈ s.reqs := by rw [hq]; simp
  have hle : s.now ≤ (0 : Int) + QCache.exConfig.cacheDuration.toNat * 1000000000 := by rw [hn]; decide
  have hf : Fits QCache.exConfig := by unfold Fits; decide
  obtain ⟨b, res, hb, hh, _⟩ := (C126_repeated_query_partial QCache.exEnv QCache.exEnv_ok 0 s hr).1 _ hw hf hle _ hqm exDatum2 rfl
    (.inr ⟨rfl, rfl, rfl⟩)
  exact ⟨s, hr, _, hw, _, hqm, hf, hle, rfl, rfl, rfl, b, res, hb, hh⟩

end Veri
