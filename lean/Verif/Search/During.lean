import Verif.Search.Props
import Verif.Store.During
/-
C123: a search (data/search.go:347-377) while other goroutines insert, delete and scan.
-/
set_option autoImplicit false
namespace Veri
open Gencoder Store

namespace Search

/-- What becomes of the data that a scan hands to the collector: the matching ones, with their scores. -/
theorem cands_of (E : Env) (q : DatumKey) (config : SearchConfig) (es : List Entry)
    (hk : ∀ e ∈ es, ∃ k v, e.datum = ⟨some k, some v⟩) (hnd : ((es.map (·.datum)).map (·.key)).Nodup) :
    (es.filterMap (candOf E (newCollector config) q)).Nodup ∧
    ∀ sd, sd ∈ es.filterMap (candOf E (newCollector config) q) ↔
      Ref.IsHit E config q (fun k v => ⟨some k, some v⟩ ∈ es.map (·.datum)) sd := by
  have hcand : ∀ e sd, candOf E (newCollector config) q e = some sd → sd.datum = e.datum := by
    intro e sd hs
    unfold candOf at hs
    split at hs
    · split at hs
      · injection hs with hs; subst hs; rfl
      · cases hs
    · cases hs
  constructor
  · rw [List.map_map] at hnd
    have hnd := List.pairwise_map.1 hnd
    refine List.Pairwise.filterMap (candOf E (newCollector config) q) ?_ hnd
    intro a b hab x hx y hy hxy
    apply hab
    simp only [Function.comp_def]
    rw [← hcand _ _ hx, ← hcand _ _ hy, hxy]
  · intro sd
    rw [List.mem_filterMap]
    constructor
    · rintro ⟨e, he, hs⟩
      obtain ⟨k, v, hd⟩ := hk e he
      have hsd := hcand _ _ hs
      unfold candOf at hs
      rw [hd] at hs hsd
      simp only at hs
      split at hs
      · rename_i hp
        injection hs with hs
        refine ⟨k, v, hsd, List.mem_map.2 ⟨e, he, hd⟩, ?_, ?_⟩
        · rw [hsd]; exact (passB_iff E config k v).1 hp
        · rw [← hs]; rfl
      · cases hs
    · rintro ⟨k, v, hsd, hsh, hp, hsc⟩
      obtain ⟨e, he, hd⟩ := List.mem_map.1 hsh
      refine ⟨e, he, ?_⟩
      rw [hsd] at hp
      unfold candOf
      rw [hd]
      simp only
      rw [show passB E (newCollector config).filters (newCollector config).groupFilters k v = true from
        (passB_iff E config k v).2 hp, if_pos rfl]
      obtain ⟨sc, dd⟩ := sd
      simp only at hsd hsc
      rw [hsd, hsc]
      rfl

theorem insertAll_same {E : Env} : ∀ {sds : List ScoredDatum} {c c' : Collector}, insertAll E c sds = .ok c' → c.Same c'
  | [], c, c', h => by cases h; exact .refl c
  | sd :: sds, c, c', h => by
    rw [insertAll] at h
    cases h1 : c.insert E sd with
    | panic => rw [h1] at h; cases h
    | err _ => rw [h1] at h; cases h
    | ok c1 => rw [h1] at h; exact (insert_same h1).trans (insertAll_same h)

theorem searchCb_no_err {E : Env} {q : Datum} {c c' : Collector} {e : Entry} {x : Err} :
    searchCb E q c e ≠ .ok (c', some x) := by
  intro h
  unfold searchCb at h
  cases h1 : c.passesFilters E e.datum with
  | panic => rw [h1] at h; cases h
  | err _ => rw [h1] at h; cases h
  | ok b =>
    rw [h1] at h
    cases b with
    | false => simp at h
    | true =>
      simp only [Res.bind_ok, if_true] at h
      cases h2 : e.datum.key with
      | none => rw [h2] at h; cases h
      | some k =>
        rw [h2] at h
        cases h3 : q.key with
        | none => rw [h3] at h; cases h
        | some qk =>
          rw [h3] at h
          simp only [Res.ofOption_some, Res.bind_ok] at h
          cases h4 : c.insert E ⟨c.scoreFunc.eval E.o k.feature qk.feature, e.datum⟩ with
          | panic => rw [h4] at h; cases h
          | err _ => rw [h4] at h; cases h
          | ok c1 => rw [h4] at h; simp at h

theorem during_no_err {E : Env} {q : Datum} {s0 s : During.SS Collector} (h0 : ∀ e, s0.pc ≠ .done (some e))
    (h : During.Reach (searchCb E q) s0 s) : ∀ err, s.pc ≠ .done (some err) := by
  induction h with
  | refl => exact h0
  | step _ hd hs ih =>
    intro err he
    cases hs with
    | other m _ => exact ih err he
    | clock t => exact ih err he
    | stop _ hc => exact searchCb_no_err hc
    | _ => cases he

end Search

open Search

/-- C123, full statement: a search answers with the best of the matching data of one moment during the search.  FALSE of the code. -/
def C123_one_moment_statement : Prop :=
  ∀ (E : Env) (q : DatumKey) (config : SearchConfig) (m : DBMap) (now : Int64) (s : During.SS Collector),
    E.Ok → 0 < config.limit → WF m → During.Reach (searchCb E ⟨some q, none⟩) (During.start m now (newCollector config)) s →
    (∀ sd, Ref.IsHit E config q (Ref.sometime (s.maps.map abs) s.clocks) sd → F64.isNaN sd.score = false) → s.pc = .done none →
    ∃ m ∈ s.maps, ∃ clock : DatumKey → Int64, ∃ cands,
      (∀ sd, sd ∈ cands ↔ Ref.IsHit E config q (Ref.shows (abs m) clock) sd) ∧
      IsTopK (Ref.better config.higherIsBetter) config.limit.toNat cands s.acc.list

/-- C123, partial: a search during which other goroutines write (whatever they do) does not fail, and answers with the best matching data
of a consistent selection: at most one datum per key, nothing that was not stored and alive at some moment, and nothing missing that
was there all the time (of a key that was overwritten one of the values is considered).  What is missing: that all these data were
stored together at one moment. -/
theorem C123_one_moment_partial (E : Env) (hE : E.Ok) (q : DatumKey) (qv : Option DatumValue) (config : SearchConfig)
    (hlim : 0 < config.limit) (m : DBMap) (hm : WF m) (now : Int64) (s : During.SS Collector)
    (h : During.Reach (searchCb E ⟨some q, qv⟩) (During.start m now (newCollector config)) s)
    (hnan : ∀ sd, Ref.IsHit E config q (Ref.sometime (s.maps.map abs) s.clocks) sd → F64.isNaN sd.score = false) :
    s.pc ≠ .panicked ∧ (∀ err, s.pc ≠ .done (some err)) ∧
    (s.pc = .done none → ∃ sel cands, Ref.Selection (s.maps.map abs) s.clocks sel ∧ cands.Nodup ∧
      (∀ sd, sd ∈ cands ↔ Ref.IsHit E config q (fun k v => ⟨some k, some v⟩ ∈ sel) sd) ∧
      (∀ sd, Ref.IsHit E config q (Ref.throughout (s.maps.map abs) s.clocks) sd → sd ∈ cands) ∧
      (∀ sd ∈ cands, Ref.IsHit E config q (Ref.sometime (s.maps.map abs) s.clocks) sd) ∧
      IsTopK (Ref.better config.higherIsBetter) config.limit.toNat cands s.acc.list) := by
  have hi := During.inv_reach hm h
  have herr := during_no_err (fun e he => by cases he) h
  have hfed := hi.fed herr
  have hkeyed : ∀ e ∈ liveEntries s.seen, ∃ k v, e.datum = ⟨some k, some v⟩ := by
    intro e he
    obtain ⟨v, hv, rfl⟩ := List.mem_map.1 he
    obtain ⟨_, x, hx, hg⟩ := hi.read v (List.mem_filter.1 hv).1
    obtain ⟨k, w, _, hw, _⟩ := During.key_of (hi.wf x hx) hg
    exact ⟨k, w, by rw [hw]⟩
  rw [feed_search E q qv _ _ hkeyed] at hfed
  have hacc : insertAll E (newCollector config) ((liveEntries s.seen).filterMap (candOf E (newCollector config) q)) = .ok s.acc := by
    obtain ⟨c', hc'⟩ := insertAll_ok hE.sort ((liveEntries s.seen).filterMap (candOf E (newCollector config) q)) (newCollector config)
      hlim (by simp [newCollector])
    rw [hc'] at hfed ⊢
    simp only [Res.bind_ok, Res.ok.injEq, Prod.mk.injEq, and_true] at hfed
    rw [hfed]
  refine ⟨?_, herr, ?_⟩
  · intro hp
    obtain ⟨v, ⟨x, hx, hg⟩, hb⟩ := hi.bad hp
    obtain ⟨k, w, _, hw, _⟩ := During.key_of (hi.wf x hx) hg
    obtain ⟨c1, g1, g2, out, g3⟩ := insertAll_spec hE.sort ((liveEntries s.seen).filterMap (candOf E (newCollector config) q))
      (newCollector config) hlim (by simp [newCollector])
    rw [hacc] at g1
    cases g1
    have hsame := insertAll_same hacc
    have hf := feed_search E q qv [v.entry] s.acc (by
      intro e he; rw [List.mem_singleton.1 he]; exact ⟨k, w, by rw [hw]⟩)
    obtain ⟨c2, hc2⟩ := insertAll_ok hE.sort ([v.entry].filterMap (candOf E s.acc q)) s.acc (by rw [hsame.2.1]; exact hlim)
      (by rw [g2, hsame.2.1]; omega)
    rw [hc2, feed, hb] at hf
    cases hf
  · intro hd
    have hsel := During.consistent hi hd
    obtain ⟨hnd, hmem⟩ := cands_of E q config (liveEntries s.seen) hkeyed hsel.nodup
    have hsome : ∀ sd ∈ (liveEntries s.seen).filterMap (candOf E (newCollector config) q),
        Ref.IsHit E config q (Ref.sometime (s.maps.map abs) s.clocks) sd := by
      intro sd hsd
      obtain ⟨k, v, h1, h2, h3, h4⟩ := (hmem sd).1 hsd
      obtain ⟨k', v', h5, h6⟩ := hsel.known _ h2
      cases h5
      exact ⟨k, v, h1, h6, h3, h4⟩
    have hw := better_weakOrder config.higherIsBetter _ (fun x hx => hnan x (hsome x hx))
    obtain ⟨c', h1, h2, h3⟩ := insertAll_topk hE _ (newCollector config) [] hlim IsTopK.nil hw
    rw [hacc] at h1
    cases h1
    refine ⟨_, _, hsel, hnd, hmem, ?_, hsome, h3⟩
    rintro sd ⟨k, v, e1, e2, e3, e4⟩
    exact (hmem sd).2 ⟨k, v, e1, hsel.stable (by simpa using hi.ne) k v e2, e3, e4⟩

namespace Search

/-- The collector after one more datum. -/
def exNext (c : Collector) (x : F32) : Collector :=
  match searchCb exEnv ⟨some (exPoint 0), none⟩ c (exStored x).2 with
  | .ok (c, _) => c
  | _ => c

def exGood (c : Collector) (x : F32) : Bool :=
  match searchCb exEnv ⟨some (exPoint 0), none⟩ c (exStored x).2 with
  | .ok (_, none) => true
  | _ => false

theorem exNext_eq {c : Collector} {x : F32} (h : exGood c x = true) :
    searchCb exEnv ⟨some (exPoint 0), none⟩ c (exStored x).2 = .ok (exNext c x, none) := by
  unfold exGood at h
  unfold exNext
  split at h
  · rename_i h1; rw [h1]
  · cases h

/-- An execution: a search on a data set with the datum 5; after it has been seen another goroutine deletes it and inserts 3, which is
seen too. -/
theorem exDuring : ∃ s : During.SS Collector,
    During.Reach (searchCb exEnv ⟨some (exPoint 0), none⟩) (During.start [exStored 0x40A00000] 1000 (newCollector defaultSearchConfig)) s ∧
    s.pc = .done none ∧ s.maps = [[exStored 0x40400000], [], [exStored 0x40A00000]] ∧ s.clocks = [1000] ∧
    s.acc.list.map (·.datum) = [⟨some (exPoint 0x40400000), some ⟨1, [7]⟩⟩, ⟨some (exPoint 0x40A00000), some ⟨1, [7]⟩⟩] := by
  have get : ∀ x, AMap.get? [exStored x] (exStored x).1 = some (exStored x).2 := fun x => get?_single _ _
  have ne : (exStored 0x40400000).1 ≠ (exStored 0x40A00000).1 := by
    intro h
    have := encKey_inj (h : encKey (exPoint _) = encKey (exPoint _))
    exact absurd this (by decide)
  have r0 := During.Reach.refl (cb := searchCb exEnv ⟨some (exPoint 0), none⟩)
    (s0 := During.start [exStored 0x40A00000] 1000 (newCollector defaultSearchConfig))
  have r1 := r0.step (by intro e he; cases he) (.visit (exStored 0x40A00000).1 (exStored 0x40A00000).2 _ (by simp) (by simp) (get _))
  have r2 := r1.step (by intro e he; cases he) (.live (by decide) (exNext_eq (by decide +kernel)))
  have r3 := r2.step (by intro e he; cases he) (.other [] wf_nil)
  have r4 := r3.step (by intro e he; cases he) (.other [exStored 0x40400000] (wf_points [0x40400000] (by decide)))
  have r5 := r4.step (by intro e he; cases he) (.visit (exStored 0x40400000).1 (exStored 0x40400000).2 [exStored 0x40400000]
    (by simpa using ne) (by simp) (get _))
  have r6 := r5.step (by intro e he; cases he) (.live (by decide) (exNext_eq (by decide +kernel)))
  have r7 := r6.step (by intro e he; cases he) (.finish (by
    intro key hk
    have := hk [] (by simp)
    cases this))
  exact ⟨_, r7, rfl, rfl, rfl, by decide +kernel⟩

theorem exDuring_nan {s : During.SS Collector} (hwf : ∀ m ∈ s.maps, WF m)
    (hm : s.maps = [[exStored 0x40400000], [], [exStored 0x40A00000]]) :
    ∀ sd, Ref.IsHit exEnv defaultSearchConfig (exPoint 0) (Ref.sometime (s.maps.map abs) s.clocks) sd →
      F64.isNaN sd.score = false := by
  rintro sd ⟨k, v, h1, ⟨r, hr, x, hx, hv, t, ht, ha⟩, h2, h3⟩
  obtain ⟨m, hm', rfl⟩ := List.mem_map.1 hr
  have hg := (abs_some_iff (hwf m hm') k x.value x.expireAt).1 hx
  have hmem := AMap.mem_of_get? hg
  rw [hm] at hm'
  simp only [List.mem_cons, List.not_mem_nil, or_false] at hm'
  rw [h3]
  rcases hm' with rfl | rfl | rfl
  · rw [List.mem_singleton] at hmem
    simp only [exStored, Prod.mk.injEq, Entry.mk.injEq, Datum.mk.injEq, Option.some.injEq] at hmem
    rw [hmem.2.2.1]; decide +kernel
  · cases hmem
  · rw [List.mem_singleton] at hmem
    simp only [exStored, Prod.mk.injEq, Entry.mk.injEq, Datum.mk.injEq, Option.some.injEq] at hmem
    rw [hmem.2.2.1]; decide +kernel

end Search

/-- C123, counterexample: the answer contains two data that were never stored together. -/
theorem C123_one_moment_fails : ¬ C123_one_moment_statement := by
  intro hst
  obtain ⟨s, hr, hd, hm, hc, hl⟩ := exDuring
  have hwf : ∀ m ∈ s.maps, WF m := (During.inv_reach (wf_points [0x40A00000] (by decide)) hr).wf
  have hnan := exDuring_nan hwf hm
  obtain ⟨m, hmm, clock, cands, h1, h2⟩ := hst exEnv (exPoint 0) defaultSearchConfig [exStored 0x40A00000] 1000 s exEnv_ok (by decide)
    (wf_points [0x40A00000] (by decide)) hr hnan hd
  have hboth : ∀ x : F32, (⟨some (exPoint x), some ⟨1, [7]⟩⟩ : Datum) ∈ s.acc.list.map (·.datum) → (AMap.get? m (encKey (exPoint x))).isSome := by
    intro x hx
    obtain ⟨sd, hsd, he⟩ := List.mem_map.1 hx
    obtain ⟨k, v, e1, ⟨y, hy, _⟩, _⟩ := (h1 sd).1 (h2.mem hsd)
    rw [he] at e1
    cases e1
    rw [(abs_some_iff (hwf m hmm) (exPoint x) y.value y.expireAt).1 hy]; rfl
  have b1 := hboth 0x40400000 (by rw [hl]; simp)
  have b2 := hboth 0x40A00000 (by rw [hl]; simp)
  have ne : encKey (exPoint 0x40400000) ≠ encKey (exPoint 0x40A00000) := by
    intro h
    exact absurd (encKey_inj h) (by decide)
  rw [hm] at hmm
  simp only [List.mem_cons, List.not_mem_nil, or_false] at hmm
  rcases hmm with rfl | rfl | rfl
  · rw [show AMap.get? [exStored 0x40400000] (encKey (exPoint 0x40A00000)) = none from by
      simp [exStored, AMap.get?, ne]] at b2
    cases b2
  · cases b1
  · rw [show AMap.get? [exStored 0x40A00000] (encKey (exPoint 0x40400000)) = none from by
      simp [exStored, AMap.get?, ne.symm]] at b1
    cases b1

/-- C123: the same execution meets the hypotheses of the partial theorem, and the answer has two data. -/
theorem C123_example : ∃ s : During.SS Collector, s.pc = .done none ∧ s.acc.list.length = 2 ∧
    ∃ sel cands, Ref.Selection (s.maps.map abs) s.clocks sel ∧
      (∀ sd, sd ∈ cands ↔ Ref.IsHit exEnv defaultSearchConfig (exPoint 0) (fun k v => ⟨some k, some v⟩ ∈ sel) sd) ∧
      IsTopK (Ref.better false) 10 cands s.acc.list := by
  obtain ⟨s, hr, hd, hm, hc, hl⟩ := exDuring
  have hwf : ∀ m ∈ s.maps, WF m := (During.inv_reach (wf_points [0x40A00000] (by decide)) hr).wf
  obtain ⟨sel, cands, h1, h2, h3, h4, h5, h6⟩ := (C123_one_moment_partial exEnv exEnv_ok (exPoint 0) none defaultSearchConfig (by decide)
    [exStored 0x40A00000] (wf_points [0x40A00000] (by decide)) 1000 s hr (exDuring_nan hwf hm)).2.2 hd
  refine ⟨s, hd, ?_, sel, cands, h1, h3, h6⟩
  have := congrArg List.length hl
  simpa using this

/-- C124: while 5 is streamed another goroutine inserts 3, which is not sent; 5 is. -/
theorem C124_example : ∃ s : During.SS (List Datum),
    During.Reach streamAllCb (During.start [exStored 0x40A00000] 1000 []) s ∧ s.pc = .done none ∧
    s.maps = [[exStored 0x40A00000, exStored 0x40400000], [exStored 0x40A00000]] ∧
    Ref.throughout (s.maps.map abs) s.clocks (exPoint 0x40A00000) ⟨1, [7]⟩ ∧
    s.acc = [⟨some (exPoint 0x40A00000), some ⟨1, [7]⟩⟩] := by
  have hg : AMap.get? [exStored 0x40A00000] (exStored 0x40A00000).1 = some (exStored 0x40A00000).2 := get?_single _ _
  have r0 := During.Reach.refl (cb := streamAllCb) (s0 := During.start [exStored 0x40A00000] 1000 [])
  have r1 := r0.step (by intro e he; cases he) (.visit (exStored 0x40A00000).1 (exStored 0x40A00000).2 _ (by simp) (by simp) hg)
  have r2 := r1.step (by intro e he; cases he) (.live (by decide) rfl)
  have hw2 : WF [exStored 0x40A00000, exStored 0x40400000] := wf_points [0x40A00000, 0x40400000] (by decide)
  have r3 := r2.step (by intro e he; cases he) (.other [exStored 0x40A00000, exStored 0x40400000] hw2)
  have r4 := r3.step (by intro e he; cases he) (.finish (by
    intro key hk
    have h1 := hk [exStored 0x40A00000] (by simp)
    simp only [AMap.get?, exStored] at h1
    by_cases h : encKey (exPoint 0x40A00000) = key
    · simp [exStored, h]
    · simp [h] at h1))
  refine ⟨_, r4, rfl, rfl, ⟨⟨⟨1, [7]⟩, 0⟩, rfl, ?_, by simp [Ref.Rec.alive]⟩, rfl⟩
  intro r hr
  simp only [List.map_cons, List.map_nil, List.mem_cons, List.not_mem_nil, or_false] at hr
  rcases hr with rfl | rfl
  · rw [abs_some_iff hw2]; exact AMap.get?_of_mem hw2.nodup (by simp [exStored])
  · have hw1 : WF [exStored 0x40A00000] := wf_points [0x40A00000] (by decide)
    rw [abs_some_iff hw1]; exact hg

end Veri
