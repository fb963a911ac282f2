import Verif.Cluster.Cut
/-
C192: searches that go on at the same time.
-/
set_option autoImplicit false
namespace Veri
namespace Clu
open Search Agg Ref Store

/-- What a client asks for, where, and whether the id came with the request. -/
structure Query where
  datum : Datum
  config : SearchConfig
  node : Nat
  anon : Bool

/-- The requests of all searches by their ids, and the ids that each node remembers (node/node.go:34, one cache for all searches). -/
structure MState where
  tasks : String → List WTask
  cache : List (Nat × String)

def MState.put (s : MState) (u : String) (l : List WTask) : String → List WTask := fun u' => if u' = u then l else s.tasks u'

/-- The steps of all searches: as in `LStep`, but with the caches of the nodes. -/
inductive MStep (E : Env) (Q : String → Query) (C : Cluster) : MState → MState → Prop
  /-- A client sends a request, with an id that is not in use. -/
  | client {s : MState} (u : String) : s.tasks u = [] → MStep E Q C s { s with tasks := s.put u [⟨(Q u).node, (Q u).config, .begun⟩] }
  /-- node/nodeservice.go:118-143, data/search.go:161-200 -/
  | serve {s : MState} (u : String) (j : Nat) (t : WTask) (site : Site) (dt' : Data) (own : List ScoredDatum) (dsts : List Nat) (timeout : UInt64) :
      (s.tasks u)[j]? = some t → t.phase = .begun → (t.node, u) ∉ s.cache → C.holds t.node site →
      streamSearch E site.vs site.answer site.dt (Q u).datum (some t.config) = .ok (dt', own) → Picks (C.next t.node) dsts →
      MStep E Q C s
        ⟨s.put u ((s.tasks u).set j { t with phase := .asked site own (List.range' (s.tasks u).length dsts.length) } ++
          dsts.map (fun d => ⟨d, { t.config with timeout := timeout }, .begun⟩)),
         if (Q u).anon ∧ j = 0 then s.cache else (t.node, u) :: s.cache⟩
  /-- node/nodeservice.go:128-132 -/
  | refuse {s : MState} (u : String) (j : Nat) (t : WTask) : (s.tasks u)[j]? = some t → t.phase = .begun → (t.node, u) ∈ s.cache →
      MStep E Q C s { s with tasks := s.put u ((s.tasks u).set j { t with phase := .over [] [] [] [] }) }
  /-- node/nodeservice.go:136-139, node/datasourceclient.go:45-58 -/
  | fail {s : MState} (u : String) (j : Nat) (t : WTask) (notes : Bool) : (s.tasks u)[j]? = some t → t.phase = .begun → C.faulty t.node →
      MStep E Q C s ⟨s.put u ((s.tasks u).set j { t with phase := .over [] [] [] [] }), if notes then (t.node, u) :: s.cache else s.cache⟩
  /-- data/search.go:205-241 and 254-298, node/nodeservice.go:143-155 -/
  | reply {s : MState} (u : String) (j : Nat) (t : WTask) (site : Site) (own : List ScoredDatum) (kids : List Nat) (as : List WAns)
      (got found sent : List ScoredDatum) :
      (s.tasks u)[j]? = some t → t.phase = .asked site own kids → as.map some = kids.map (WState.ans ⟨s.tasks u, []⟩) →
      Collects (own :: as.map (·.sent)) got → flatMerge E t.config none got = .ok found → MultiOut E t.config none [found] sent →
      MStep E Q C s
        { s with tasks := s.put u ((s.tasks u).set j { t with phase := .over kids ((t.node, site) :: as.flatMap (·.parts)) found sent }) }

inductive MReach (E : Env) (Q : String → Query) (C : Cluster) : MState → Prop
  | start : MReach E Q C ⟨fun _ => [], []⟩
  | step {s s' : MState} : MReach E Q C s → MStep E Q C s s' → MReach E Q C s'

/-- The nodes that remember the id. -/
def MState.noted (s : MState) (u : String) : List Nat := s.cache.filterMap fun p => if p.2 = u then some p.1 else none

/-- One of the searches. -/
def MState.one (s : MState) (u : String) : WState := ⟨s.tasks u, s.noted u⟩

theorem mem_noted {s : MState} {u : String} {v : Nat} : v ∈ s.noted u ↔ (v, u) ∈ s.cache := by
  unfold MState.noted
  rw [List.mem_filterMap]
  constructor
  · rintro ⟨⟨w, u'⟩, h1, h2⟩
    split at h2
    · rename_i h3
      simp only [Option.some.injEq] at h2
      simp only at h3
      rw [← h2, ← h3]; exact h1
    · cases h2
  · intro h
    exact ⟨(v, u), h, by simp⟩

theorem noted_cons_self {ts : String → List WTask} {c : List (Nat × String)} {u : String} {v : Nat} :
    MState.noted ⟨ts, (v, u) :: c⟩ u = v :: MState.noted ⟨ts, c⟩ u := by simp [MState.noted]

theorem noted_cons_other {ts : String → List WTask} {c : List (Nat × String)} {u u' : String} {v : Nat} (h : u' ≠ u) :
    MState.noted ⟨ts, (v, u') :: c⟩ u = MState.noted ⟨ts, c⟩ u := by simp [MState.noted, h]

theorem put_self {s : MState} {u : String} {l : List WTask} : s.put u l u = l := by simp [MState.put]

theorem put_other {s : MState} {u u' : String} {l : List WTask} (h : u' ≠ u) : s.put u l u' = s.tasks u' := by simp [MState.put, h]

/-- A step of all is a step of one search, or none. -/
theorem one_step {E : Env} {Q : String → Query} {C : Cluster} {s s' : MState} (h : MStep E Q C s s') (u : String) :
    s'.one u = s.one u ∨ WStep E (Q u).datum C (Q u).anon (s.one u) (s'.one u) ∨
      (s.tasks u = [] ∧ s'.one u = ⟨[⟨(Q u).node, (Q u).config, .begun⟩], s.noted u⟩) := by
  cases h with
  | client w h1 =>
    by_cases hu : u = w
    · subst hu
      exact .inr (.inr ⟨h1, by simp only [MState.one, put_self]; rfl⟩)
    · exact .inl (by simp only [MState.one, put_other hu]; rfl)
  | serve w j t site dt' own dsts timeout h1 h2 h3 h4 h5 h6 =>
    by_cases hu : u = w
    · subst hu
      refine .inr (.inl ?_)
      have := WStep.serve (E := E) (q := (Q u).datum) (C := C) (anon := (Q u).anon) (s := s.one u) j t site dt' own dsts timeout h1 h2
        (fun h => h3 (mem_noted.1 h)) h4 h5 h6
      simp only [MState.one, put_self] at this ⊢
      by_cases hc : (Q u).anon = true ∧ j = 0
      · rw [if_pos hc] at this ⊢; exact this
      · rw [if_neg hc] at this ⊢; rw [noted_cons_self]; exact this
    · refine .inl ?_
      simp only [MState.one, put_other hu]
      by_cases hc : (Q w).anon = true ∧ j = 0
      · rw [if_pos hc]; rfl
      · rw [if_neg hc, noted_cons_other (Ne.symm hu)]; rfl
  | refuse w j t h1 h2 h3 =>
    by_cases hu : u = w
    · subst hu
      refine .inr (.inl ?_)
      have := WStep.refuse (E := E) (q := (Q u).datum) (C := C) (anon := (Q u).anon) (s := s.one u) j t h1 h2 (mem_noted.2 h3)
      simp only [MState.one, put_self] at this ⊢
      exact this
    · exact .inl (by simp only [MState.one, put_other hu]; rfl)
  | fail w j t notes h1 h2 h3 =>
    by_cases hu : u = w
    · subst hu
      refine .inr (.inl ?_)
      have := WStep.fail (E := E) (q := (Q u).datum) (C := C) (anon := (Q u).anon) (s := s.one u) j t notes h1 h2 h3
      simp only [MState.one, put_self] at this ⊢
      cases notes with
      | true => simp only [if_true] at this ⊢; rw [noted_cons_self]; exact this
      | false => exact this
    · refine .inl ?_
      simp only [MState.one, put_other hu]
      cases notes with
      | true => simp only [if_true]; rw [noted_cons_other (Ne.symm hu)]; rfl
      | false => rfl
  | reply w j t site own kids as got found sent h1 h2 h3 h4 h5 h6 =>
    by_cases hu : u = w
    · subst hu
      refine .inr (.inl ?_)
      have := WStep.reply (E := E) (q := (Q u).datum) (C := C) (anon := (Q u).anon) (s := s.one u) j t site own kids as got found sent h1 h2 h3 h4 h5 h6
      simp only [MState.one, put_self] at this ⊢
      exact this
    · exact .inl (by simp only [MState.one, put_other hu]; rfl)

/-- ... and each step of one search can be made. -/
theorem step_one {E : Env} {Q : String → Query} {C : Cluster} {s : MState} {u : String} {w : WState}
    (h : WStep E (Q u).datum C (Q u).anon (s.one u) w) : ∃ s', MStep E Q C s s' ∧ s'.one u = w ∧ ∀ u', u' ≠ u → s'.one u' = s.one u' := by
  cases h with
  | serve j t site dt' own dsts timeout h1 h2 h3 h4 h5 h6 =>
    refine ⟨_, .serve u j t site dt' own dsts timeout h1 h2 (fun h => h3 (mem_noted.2 h)) h4 h5 h6, ?_, fun u' hu => ?_⟩
    · simp only [MState.one, put_self]
      by_cases hc : (Q u).anon = true ∧ j = 0
      · rw [if_pos hc, if_pos hc]; rfl
      · rw [if_neg hc, if_neg hc, noted_cons_self]; rfl
    · simp only [MState.one, put_other hu]
      by_cases hc : (Q u).anon = true ∧ j = 0
      · rw [if_pos hc]; rfl
      · rw [if_neg hc, noted_cons_other (Ne.symm hu)]; rfl
  | refuse j t h1 h2 h3 =>
    refine ⟨_, .refuse u j t h1 h2 (mem_noted.1 h3), ?_, fun u' hu => ?_⟩
    · simp only [MState.one, put_self]; rfl
    · simp only [MState.one, put_other hu]; rfl
  | fail j t notes h1 h2 h3 =>
    refine ⟨_, .fail u j t notes h1 h2 h3, ?_, fun u' hu => ?_⟩
    · simp only [MState.one, put_self]
      cases notes with
      | true => simp only [if_true]; rw [noted_cons_self]; rfl
      | false => rfl
    · simp only [MState.one, put_other hu]
      cases notes with
      | true => simp only [if_true]; rw [noted_cons_other (Ne.symm hu)]; rfl
      | false => rfl
  | reply j t site own kids as got found sent h1 h2 h3 h4 h5 h6 =>
    refine ⟨_, .reply u j t site own kids as got found sent h1 h2 h3 h4 h5 h6, ?_, fun u' hu => ?_⟩
    · simp only [MState.one, put_self]; rfl
    · simp only [MState.one, put_other hu]; rfl

theorem nonempty_step {E : Env} {q : Datum} {C : Cluster} {anon : Bool} {s s' : WState} (h : WStep E q C anon s s') : s'.tasks ≠ [] := by
  cases h with
  | serve j t site dt' own dsts timeout h1 => intro h; simp at h; simp [h.1] at h1
  | refuse j t h1 => intro h; simp at h; simp [h] at h1
  | fail j t notes h1 => intro h; simp at h; simp [h] at h1
  | reply j t site own kids as got found sent h1 => intro h; simp at h; simp [h] at h1

theorem begun_step {E : Env} {q : Datum} {C : Cluster} {anon : Bool} {s s' : WState} (h : WStep E q C anon s s') : s.tasks ≠ [] := by
  cases h with
  | serve j t site dt' own dsts timeout h1 => intro h; simp [h] at h1
  | refuse j t h1 => intro h; simp [h] at h1
  | fail j t notes h1 => intro h; simp [h] at h1
  | reply j t site own kids as got found sent h1 => intro h; simp [h] at h1

theorem reach_nonempty {E : Env} {q : Datum} {C : Cluster} {anon : Bool} {config : SearchConfig} {i : Nat} {s : WState}
    (h : WReach E q C anon config i s) : s.tasks ≠ [] := by
  cases h with
  | start => simp [WState.start]
  | step _ h => exact nonempty_step h

theorem run_loop {E : Env} {q : Datum} {C : Cluster} {anon : Bool} {config : SearchConfig} {i n : Nat} {s : WState}
    (h : WRun E q C anon config i n s) (hs : WStep E q C anon s s) : ∀ k, WRun E q C anon config i (n + k) s
  | 0 => h
  | k + 1 => .step (run_loop h hs k) hs

theorem run_of_reach {E : Env} {q : Datum} {C : Cluster} {anon : Bool} {config : SearchConfig} {i : Nat} {s : WState}
    (h : WReach E q C anon config i s) : ∃ n, WRun E q C anon config i n s := by
  induction h with
  | start => exact ⟨0, .start⟩
  | step _ h ih =>
    obtain ⟨n, ih⟩ := ih
    exact ⟨n + 1, .step ih h⟩

end Clu
open Clu Search Store

/-- C192: in an execution of any number of searches at the same time, each search that has begun has gone through the steps of a search that is
alone. -/
theorem C192_alone (E : Env) (Q : String → Query) (C : Cluster) (s : MState) (hs : MReach E Q C s) (u : String) :
    (s.tasks u = [] ∧ ∀ v, (v, u) ∉ s.cache) ∨ WReach E (Q u).datum C (Q u).anon (Q u).config (Q u).node (s.one u) := by
  induction hs with
  | start => exact .inl ⟨rfl, fun v h => by cases h⟩
  | @step s s' _ h ih =>
    rcases one_step h u with h1 | h1 | ⟨h1, h2⟩
    · have ht : s'.tasks u = s.tasks u := congrArg WState.tasks h1
      have hn : s'.noted u = s.noted u := congrArg WState.noted h1
      rcases ih with ⟨i1, i2⟩ | ih
      · refine .inl ⟨ht.trans i1, fun v hv => ?_⟩
        have := mem_noted.2 hv
        rw [hn] at this
        exact i2 v (mem_noted.1 this)
      · rw [h1]; exact .inr ih
    · rcases ih with ⟨i1, -⟩ | ih
      · exfalso
        exact begun_step h1 i1
      · exact .inr (.step ih h1)
    · rcases ih with ⟨-, i2⟩ | ih
      · rw [h2]
        have : s.noted u = [] := by
          cases hn : s.noted u with
          | nil => rfl
          | cons v l => exact absurd (mem_noted.1 (show v ∈ s.noted u by rw [hn]; simp)) (i2 v)
        rw [this]
        exact .inr .start
      · exfalso
        exact reach_nonempty ih h1

/-- **C192.**  Any number of searches with different ids at the same time, in any interleaving: each gets what C187 says it gets. -/
theorem C192_each (E : Env) (hE : E.Ok) (Q : String → Query) (C : Cluster) (s : MState) (hs : MReach E Q C s) (u : String)
    (context : Option SearchContext) (q : DatumKey) (qv : Option DatumValue) (a : WAns) (out : List ScoredDatum)
    (hq : (Q u).datum = ⟨some q, qv⟩) (h6 : ∀ v, (C.next v).length ≤ 6) (h0 : ¬ C.faulty (Q u).node)
    (hl : 0 < (Q u).config.limit) (hr : (Q u).config.resultLimit.toNat < 2^63) (hg : (Q u).config.groupLimit = 0)
    (hname : ¬ "Annoy".toList <+: (Q u).config.scoreFuncName.toList) (hok : ∀ v site, C.holds v site → site.Ok)
    (keys : List (Option DatumKey)) (hroom : keys.length ≤ Ref.asked (Q u).config)
    (hk : ∀ v site, C.holds v site → ∀ x, Ref.IsHit E (Q u).config q (Ref.shows (abs site.dt.dbMap) site.clock) x → x.datum.key ∈ keys)
    (ha : (s.one u).ans 0 = some a) (ho : MultiOut E (Q u).config context [a.found] out) :
    (∀ v, Intact C (Q u).node v → ∀ x, (∀ site, C.holds v site → Ref.IsHit E (Q u).config q (Ref.shows (abs site.dt.dbMap) site.clock) x) →
      ∃ y ∈ out, y.datum.key = x.datum.key) ∧
    (∀ y ∈ out, ∃ v site x, C.holds v site ∧ Ref.IsHit E (Q u).config q (Ref.shows (abs site.dt.dbMap) site.clock) x ∧ y.datum = x.datum) ∧
    (out.map (·.datum.key)).Nodup := by
  rcases C192_alone E Q C s hs u with ⟨h, -⟩ | h
  · unfold WState.ans at ha
    rw [show (s.one u).tasks = [] from h] at ha
    cases ha
  · rw [hq] at h
    exact C187_whole_cluster E hE C (Q u).anon (Q u).config context (Q u).node q qv (s.one u) a out h6 h0 hl hr hg hname hok keys hroom hk h ha ho

/-- C192: and as long as a search has no answer it can go on, whatever the others do or wait for. -/
theorem C192_goes_on (E : Env) (hE : E.Ok) (Q : String → Query) (C : Cluster) (s : MState) (hs : MReach E Q C s) (u : String) (N : Nat)
    (q : DatumKey) (qv : Option DatumValue) (hq : (Q u).datum = ⟨some q, qv⟩) (hN : (Q u).node < N) (hnext : ∀ v, ∀ w ∈ C.next v, w < N)
    (hl : 0 < (Q u).config.limit) (hr : (Q u).config.resultLimit.toNat < 2^63) (hg : (Q u).config.groupLimit = 0)
    (hname : ¬ "Annoy".toList <+: (Q u).config.scoreFuncName.toList) (hok : ∀ v site, C.holds v site → site.Ok)
    (hdata : ∀ v, v < N → ¬ C.faulty v → ∃ site, C.holds v site) (hbegun : s.tasks u ≠ []) :
    (∃ s', MStep E Q C s s' ∧ s'.one u ≠ s.one u ∧ ∀ u', u' ≠ u → s'.one u' = s.one u') ∨
      ∃ a out, (s.one u).ans 0 = some a ∧ MultiOut E (Q u).config none [a.found] out := by
  rcases C192_alone E Q C s hs u with ⟨h, -⟩ | h
  · exact absurd h hbegun
  · rw [hq] at h
    obtain ⟨n, h⟩ := run_of_reach h
    obtain ⟨hend, hgo⟩ := C188_cluster_search_ends E hE C (Q u).anon (Q u).config (Q u).node N q qv hN hnext hl hr hg hname hok hdata
    rcases hgo n _ h with ⟨w, hw⟩ | hw
    · have hne : w ≠ s.one u := by
        rintro rfl
        have := hend _ _ (run_loop h hw (12 * N + 15))
        omega
      rw [← hq] at hw
      obtain ⟨s', g1, g2, g3⟩ := step_one hw
      exact .inl ⟨s', g1, by rw [g2]; exact hne, g3⟩
    · exact .inr hw

namespace Clu

theorem go {E : Env} {Q : String → Query} {C : Cluster} {s : MState} {u : String} {w : WState} (hs : MReach E Q C s)
    (h : WReach E (Q u).datum C (Q u).anon (Q u).config (Q u).node w) (h0 : s.one u = .start (Q u).config (Q u).node) :
    ∃ s', MReach E Q C s' ∧ s'.one u = w ∧ ∀ u', u' ≠ u → s'.one u' = s.one u' := by
  induction h with
  | start => exact ⟨s, hs, h0, fun _ _ => rfl⟩
  | step _ h ih =>
    obtain ⟨s1, i1, i2, i3⟩ := ih
    rw [← i2] at h
    obtain ⟨s2, g1, g2, g3⟩ := step_one h
    exact ⟨s2, .step i1 g1, g2, fun u' hu => (g3 u' hu).trans (i3 u' hu)⟩

/-- Two clients, at the first and the third node of the ring of C187. -/
def exAsk (u : String) : Query := ⟨⟨some (exPoint 0), none⟩, exBoth, if u = "a" then 0 else 2, false⟩

end Clu

/-- Two searches that have both begun before either of them goes on: both end with the points of both nodes. -/
theorem C192_example : ∃ s, MReach exEnv exAsk exRing s ∧ ∀ u ∈ ["a", "b"], ∃ a out, (s.one u).ans 0 = some a ∧
    MultiOut exEnv exBoth none [a.found] out ∧
    (∃ y ∈ out, y.datum.key = some (exPoint 0x3F800000)) ∧ (∃ y ∈ out, y.datum.key = some (exPoint 0x40000000)) := by
  have r1 := MReach.step (MReach.step (E := exEnv) (Q := exAsk) (C := exRing) .start (.client "a" rfl)) (.client "b" (by simp [MState.put]))
  obtain ⟨w1, a1, o1, h1, h2, h3⟩ := C188_answer exEnv exEnv_ok exRing false exBoth 0 3 (exPoint 0) none (by decide) exRing_next (by decide)
    (by decide) rfl (by decide) exRing_ok exRing_data
  obtain ⟨w2, a2, o2, g1, g2, g3⟩ := C188_answer exEnv exEnv_ok exRing false exBoth 2 3 (exPoint 0) none (by decide) exRing_next (by decide)
    (by decide) rfl (by decide) exRing_ok exRing_data
  obtain ⟨s1, p1, p2, p3⟩ := go (u := "a") r1 h1 (by simp [MState.one, MState.put, MState.noted, exAsk, WState.start])
  obtain ⟨s2, q1, q2, q3⟩ := go (u := "b") p1 g1 (by
    rw [p3 "b" (by decide)]
    simp [MState.one, MState.put, MState.noted, exAsk, WState.start])
  have hit : ∀ (xs : List F32), xs.Nodup → ∀ x, Ref.IsHit exEnv exBoth (exPoint 0) (Ref.shows (abs (exSite xs).dt.dbMap) (exSite xs).clock) x ↔
      ∃ y ∈ xs, x = exFound ((Vec.getVectorComparisonFunction exBoth.scoreFuncName).eval exEnv.o [y] [0]) y := by
    intro xs hxs x
    have := exHits (config := exBoth) rfl rfl (xss := [xs]) (by simpa using hxs) x
    simpa [Ref.IsHitIn, shelves] using this
  have hn1 : [(0x3F800000 : F32)].Nodup := by decide
  have hn2 : [(0x40000000 : F32)].Nodup := by decide
  have h6 : ∀ v, (exRing.next v).length ≤ 6 := by
    intro v; simp only [exRing]; split <;> (try split) <;> (try split) <;> simp
  have hk : ∀ v site, exRing.holds v site → ∀ x, Ref.IsHit exEnv exBoth (exPoint 0) (Ref.shows (abs site.dt.dbMap) site.clock) x →
      x.datum.key ∈ [some (exPoint 0x3F800000), some (exPoint 0x40000000)] := by
    rintro v site (⟨-, rfl⟩ | ⟨-, rfl⟩ | ⟨-, rfl⟩) x hx
    · obtain ⟨y, hy, -⟩ := (hit [] (by decide) x).1 hx
      cases hy
    · obtain ⟨y, hy, rfl⟩ := (hit _ hn1 x).1 hx
      simp only [List.mem_singleton] at hy
      subst hy
      exact List.mem_cons_self
    · obtain ⟨y, hy, rfl⟩ := (hit _ hn2 x).1 hx
      simp only [List.mem_singleton] at hy
      subst hy
      exact List.mem_cons_of_mem _ List.mem_cons_self
  have m1 : 1 ∈ exRing.next 0 := by simp [exRing]
  have m2 : 2 ∈ exRing.next 1 := by simp [exRing]
  have m0 : 0 ∈ exRing.next 2 := by simp [exRing]
  have hf : ∀ v, ¬ exRing.faulty v := fun _ h => h
  have hboth : ∀ u, ∀ a out, (s2.one u).ans 0 = some a → MultiOut exEnv exBoth none [a.found] out →
      Intact exRing (exAsk u).node 1 → Intact exRing (exAsk u).node 2 →
      (∃ y ∈ out, y.datum.key = some (exPoint 0x3F800000)) ∧ (∃ y ∈ out, y.datum.key = some (exPoint 0x40000000)) := by
    intro u a out ha ho hi1 hi2
    obtain ⟨r, -, -⟩ := C192_each exEnv exEnv_ok exAsk exRing s2 q1 u none (exPoint 0) none a out rfl h6 (hf _)
      (show 0 < exBoth.limit by decide) (show exBoth.resultLimit.toNat < 2^63 by decide) rfl
      (show ¬ "Annoy".toList <+: exBoth.scoreFuncName.toList by decide) exRing_ok [some (exPoint 0x3F800000), some (exPoint 0x40000000)]
      (show 2 ≤ Ref.asked exBoth by decide) hk ha ho
    refine ⟨r 1 hi1 (exFound ((Vec.getVectorComparisonFunction exBoth.scoreFuncName).eval exEnv.o [0x3F800000] [0]) 0x3F800000) ?_,
      r 2 hi2 (exFound ((Vec.getVectorComparisonFunction exBoth.scoreFuncName).eval exEnv.o [0x40000000] [0]) 0x40000000) ?_⟩
    · rintro site (⟨h, -⟩ | ⟨-, rfl⟩ | ⟨h, -⟩)
      · cases h
      · exact (hit _ hn1 _).2 ⟨_, List.mem_singleton.2 rfl, rfl⟩
      · cases h
    · rintro site (⟨h, -⟩ | ⟨h, -⟩ | ⟨-, rfl⟩)
      · cases h
      · cases h
      · exact (hit _ hn2 _).2 ⟨_, List.mem_singleton.2 rfl, rfl⟩
  refine ⟨s2, q1, fun u hu => ?_⟩
  simp only [List.mem_cons, List.not_mem_nil, or_false] at hu
  rcases hu with rfl | rfl
  · refine ⟨a1, o1, by rw [q3 "a" (by decide), p2]; exact h2, h3, ?_⟩
    exact hboth "a" a1 o1 (by rw [q3 "a" (by decide), p2]; exact h2) h3 (.step .refl m1 (hf _)) (.step (.step .refl m1 (hf _)) m2 (hf _))
  · refine ⟨a2, o2, by rw [q2]; exact g2, g3, ?_⟩
    exact hboth "b" a2 o2 (by rw [q2]; exact g2) g3 (.step (.step .refl m0 (hf _)) m1 (hf _)) .refl

end Veri
