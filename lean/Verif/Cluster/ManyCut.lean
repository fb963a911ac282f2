import Verif.Cluster.Many
/-
C198: searches that go on at the same time, with time limits.
-/
set_option autoImplicit false
namespace Veri
namespace Clu
open Search Agg Ref Store

/-- The steps of all searches (`MStep`), with time limits. -/
inductive MLStep (E : Env) (Q : String → Query) (C : Cluster) : MState → MState → Prop
  | whole {s s' : MState} : MStep E Q C s s' → MLStep E Q C s s'
  /-- data/search.go:220-223 and 286-289: the time is up at a node for one of its requests, as in `LStep.cut`. -/
  | cut {s : MState} (u : String) (j : Nat) (t : WTask) (site : Site) (own : List ScoredDatum) (kids : List Nat)
      (got found late sent : List ScoredDatum) :
      (s.tasks u)[j]? = some t → t.phase = .asked site own kids →
      (∀ x ∈ got, x ∈ own ∨ ∃ k ∈ kids, ∃ a, WState.ans ⟨s.tasks u, []⟩ k = some a ∧ x ∈ a.sent) → flatMerge E t.config none got = .ok found →
      (∀ x ∈ late, x ∈ found) → flatMerge E t.config none late = .ok sent →
      MLStep E Q C s { s with tasks := s.put u ((s.tasks u).set j { t with phase := .over kids [] found sent }) }

inductive MLReach (E : Env) (Q : String → Query) (C : Cluster) : MState → Prop
  | start : MLReach E Q C ⟨fun _ => [], []⟩
  | step {s s' : MState} : MLReach E Q C s → MLStep E Q C s s' → MLReach E Q C s'

/-- The states reached after `n` steps. -/
inductive MLRun (E : Env) (Q : String → Query) (C : Cluster) : Nat → MState → Prop
  | start : MLRun E Q C 0 ⟨fun _ => [], []⟩
  | step {n : Nat} {s s' : MState} : MLRun E Q C n s → MLStep E Q C s s' → MLRun E Q C (n + 1) s'

theorem ml_run_of_reach {E : Env} {Q : String → Query} {C : Cluster} {s : MState} (h : MLReach E Q C s) : ∃ n, MLRun E Q C n s := by
  induction h with
  | start => exact ⟨0, .start⟩
  | step _ h ih =>
    obtain ⟨n, ih⟩ := ih
    exact ⟨n + 1, .step ih h⟩

/-- Each step is one of one search, and leaves the others as they are. -/
theorem ml_step {E : Env} {Q : String → Query} {C : Cluster} {s s' : MState} (h : MLStep E Q C s s') :
    ∃ u, (∀ u', u' ≠ u → s'.one u' = s.one u') ∧ (LStep E (Q u).datum C (Q u).anon (s.one u) (s'.one u) ∨
      (s.tasks u = [] ∧ s'.one u = ⟨[⟨(Q u).node, (Q u).config, .begun⟩], s.noted u⟩)) := by
  cases h with
  | whole h =>
    cases h with
    | client u h1 =>
      refine ⟨u, fun u' hu => ?_, .inr ⟨h1, by simp only [MState.one, put_self]; rfl⟩⟩
      simp only [MState.one, put_other hu]; rfl
    | serve u j t site dt' own dsts timeout h1 h2 h3 h4 h5 h6 =>
      refine ⟨u, fun u' hu => ?_, .inl (.whole ?_)⟩
      · simp only [MState.one, put_other hu]
        by_cases hc : (Q u).anon = true ∧ j = 0
        · rw [if_pos hc]; rfl
        · rw [if_neg hc, noted_cons_other (Ne.symm hu)]; rfl
      · have := WStep.serve (E := E) (q := (Q u).datum) (C := C) (anon := (Q u).anon) (s := s.one u) j t site dt' own dsts timeout h1 h2
          (fun h => h3 (mem_noted.1 h)) h4 h5 h6
        simp only [MState.one, put_self] at this ⊢
        by_cases hc : (Q u).anon = true ∧ j = 0
        · rw [if_pos hc] at this ⊢; exact this
        · rw [if_neg hc] at this ⊢; rw [noted_cons_self]; exact this
    | refuse u j t h1 h2 h3 =>
      refine ⟨u, fun u' hu => ?_, .inl (.whole ?_)⟩
      · simp only [MState.one, put_other hu]; rfl
      · have := WStep.refuse (E := E) (q := (Q u).datum) (C := C) (anon := (Q u).anon) (s := s.one u) j t h1 h2 (mem_noted.2 h3)
        simp only [MState.one, put_self] at this ⊢
        exact this
    | fail u j t notes h1 h2 h3 =>
      refine ⟨u, fun u' hu => ?_, .inl (.whole ?_)⟩
      · simp only [MState.one, put_other hu]
        cases notes with
        | true => simp only [if_true]; rw [noted_cons_other (Ne.symm hu)]; rfl
        | false => rfl
      · have := WStep.fail (E := E) (q := (Q u).datum) (C := C) (anon := (Q u).anon) (s := s.one u) j t notes h1 h2 h3
        simp only [MState.one, put_self] at this ⊢
        cases notes with
        | true => simp only [if_true] at this ⊢; rw [noted_cons_self]; exact this
        | false => exact this
    | reply u j t site own kids as got found sent h1 h2 h3 h4 h5 h6 =>
      refine ⟨u, fun u' hu => ?_, .inl (.whole ?_)⟩
      · simp only [MState.one, put_other hu]; rfl
      · have := WStep.reply (E := E) (q := (Q u).datum) (C := C) (anon := (Q u).anon) (s := s.one u) j t site own kids as got found sent
          h1 h2 h3 h4 h5 h6
        simp only [MState.one, put_self] at this ⊢
        exact this
  | cut u j t site own kids got found late sent h1 h2 h3 h4 h5 h6 =>
    refine ⟨u, fun u' hu => ?_, .inl ?_⟩
    · simp only [MState.one, put_other hu]; rfl
    · have := LStep.cut (E := E) (q := (Q u).datum) (C := C) (anon := (Q u).anon) (s := s.one u) j t site own kids got found late sent
        h1 h2 h3 h4 h5 h6
      simp only [MState.one, put_self] at this ⊢
      exact this

/-- ... and each step of one search can be made. -/
theorem ml_step_one {E : Env} {Q : String → Query} {C : Cluster} {s : MState} {u : String} {w : WState}
    (h : LStep E (Q u).datum C (Q u).anon (s.one u) w) : ∃ s', MLStep E Q C s s' ∧ s'.one u = w ∧ ∀ u', u' ≠ u → s'.one u' = s.one u' := by
  cases h with
  | whole h =>
    obtain ⟨s', h1, h2⟩ := step_one h
    exact ⟨s', .whole h1, h2⟩
  | cut j t site own kids got found late sent h1 h2 h3 h4 h5 h6 =>
    refine ⟨_, .cut u j t site own kids got found late sent h1 h2 h3 h4 h5 h6, ?_, fun u' hu => ?_⟩
    · simp only [MState.one, put_self]; rfl
    · simp only [MState.one, put_other hu]; rfl

theorem l_begun {E : Env} {q : Datum} {C : Cluster} {anon : Bool} {s s' : WState} (h : LStep E q C anon s s') : s.tasks ≠ [] := by
  cases h with
  | whole h => exact begun_step h
  | cut j t site own kids got found late sent h1 => intro h; simp [h] at h1

theorem l_nonempty {E : Env} {q : Datum} {C : Cluster} {anon : Bool} {config : SearchConfig} {i n : Nat} {s : WState}
    (h : LRun E q C anon config i n s) : s.tasks ≠ [] := by
  cases h with
  | start => simp [WState.start]
  | step _ h =>
    cases h with
    | whole h => exact nonempty_step h
    | cut j t site own kids got found late sent h1 => intro h; simp at h; simp [h] at h1

theorem LRun.reach {E : Env} {q : Datum} {C : Cluster} {anon : Bool} {config : SearchConfig} {i n : Nat} {s : WState}
    (h : LRun E q C anon config i n s) : LReach E q C anon config i s := by
  induction h with
  | start => exact .start
  | step _ h ih => exact .step ih h

theorem l_root {E : Env} {q : Datum} {C : Cluster} {anon : Bool} {config : SearchConfig} {i : Nat} {s : WState}
    (h : LReach E q C anon config i s) : ∃ t, s.tasks[0]? = some t ∧ t.node = i ∧ t.config = config := by
  have upd : ∀ (l new : List WTask) (j : Nat) (t : WTask) (p : WPhase), l[j]? = some t → (∃ r, l[0]? = some r ∧ r.node = i ∧ r.config = config) →
      ∃ r, (l.set j { t with phase := p } ++ new)[0]? = some r ∧ r.node = i ∧ r.config = config := by
    rintro l new j t p h ⟨r, h1, h2, h3⟩
    have hl : 0 < (l.set j { t with phase := p }).length := by
      rw [List.length_set]; exact (List.getElem?_eq_some_iff.1 h1).1
    rw [List.getElem?_append_left hl, List.getElem?_set]
    by_cases e : j = 0
    · subst e
      rw [List.length_set] at hl
      rw [if_pos rfl, if_pos hl]
      rw [h1] at h
      cases h
      exact ⟨_, rfl, h2, h3⟩
    · rw [if_neg e]
      exact ⟨r, h1, h2, h3⟩
  have upd0 : ∀ (l : List WTask) (j : Nat) (t : WTask) (p : WPhase), l[j]? = some t → (∃ r, l[0]? = some r ∧ r.node = i ∧ r.config = config) →
      ∃ r, (l.set j { t with phase := p })[0]? = some r ∧ r.node = i ∧ r.config = config := by
    intro l j t p h1 h2
    have := upd l [] j t p h1 h2
    rwa [List.append_nil] at this
  induction h with
  | start => exact ⟨_, rfl, rfl, rfl⟩
  | step _ h ih =>
    cases h with
    | whole h =>
      cases h with
      | serve j t site dt' own dsts timeout h1 => exact upd _ _ j t _ h1 ih
      | refuse j t h1 => exact upd0 _ j t _ h1 ih
      | fail j t notes h1 => exact upd0 _ j t _ h1 ih
      | reply j t site own kids as got found sent h1 => exact upd0 _ j t _ h1 ih
    | cut j t site own kids got found late sent h1 => exact upd0 _ j t _ h1 ih

theorem l_moved {s w : WState} {t : WTask} {new : List WTask} {p : WPhase} (h0 : s.tasks[0]? = some t) (hp : p ≠ t.phase)
    (hw : w.tasks = s.tasks.set 0 { t with phase := p } ++ new) : w ≠ s := by
  rintro rfl
  have hl : 0 < w.tasks.length := (List.getElem?_eq_some_iff.1 h0).1
  have h1 : w.tasks[0]? = some { t with phase := p } := by
    conv => lhs; rw [hw]
    rw [List.getElem?_append_left (by rw [List.length_set]; exact hl), List.getElem?_set, if_pos rfl, if_pos hl]
  rw [h0] at h1
  exact hp (congrArg WTask.phase (Option.some.inj h1)).symm

theorem sum_bump {f g : String → Nat} {u : String} (hu : g u = f u + 1) (ho : ∀ u', u' ≠ u → g u' = f u') : ∀ (us : List String), us.Nodup →
    (us.map g).sum = (us.map f).sum + if u ∈ us then 1 else 0
  | [], _ => by simp
  | v :: us, h => by
    have hn := List.nodup_cons.1 h
    have ih := sum_bump hu ho us hn.2
    by_cases hv : v = u
    · subst hv
      rw [if_neg hn.1] at ih
      simp only [List.map_cons, List.sum_cons, List.mem_cons_self, if_true]
      omega
    · have : (u ∈ v :: us) ↔ u ∈ us := by simp [Ne.symm hv]
      simp only [List.map_cons, List.sum_cons, this, ho v hv]
      omega

theorem sum_bound {f : String → Nat} {b : Nat} (h : ∀ u, f u ≤ b) : ∀ (us : List String), (us.map f).sum ≤ us.length * b
  | [] => by simp
  | v :: us => by
    have ih := sum_bound h us
    have := h v
    simp only [List.map_cons, List.sum_cons, List.length_cons, Nat.add_mul]
    omega

/-- What the searches have done: `f u` counts the steps of `u`, with the one of its client. -/
theorem ml_split {E : Env} {Q : String → Query} {C : Cluster} {n : Nat} {s : MState} (h : MLRun E Q C n s) :
    ∃ f : String → Nat, (∀ u, (f u = 0 ∧ s.tasks u = [] ∧ ∀ v, (v, u) ∉ s.cache) ∨
        ∃ m, f u = m + 1 ∧ LRun E (Q u).datum C (Q u).anon (Q u).config (Q u).node m (s.one u)) ∧
      ∀ us : List String, us.Nodup → (∀ u, s.tasks u ≠ [] → u ∈ us) → n = (us.map f).sum := by
  induction h with
  | start =>
    refine ⟨fun _ => 0, fun u => .inl ⟨rfl, rfl, fun v h => by cases h⟩, fun us _ _ => ?_⟩
    induction us with
    | nil => rfl
    | cons u us ih => simp
  | @step n s s' _ h ih =>
    obtain ⟨f, hf, hsum⟩ := ih
    obtain ⟨u, ho, hu⟩ := ml_step h
    have key : ∃ m, f u = m ∧ LRun E (Q u).datum C (Q u).anon (Q u).config (Q u).node m (s'.one u) := by
      rcases hu with hu | ⟨h1, h2⟩
      · rcases hf u with ⟨-, g2, -⟩ | ⟨m, g1, g2⟩
        · exact absurd g2 (l_begun hu)
        · exact ⟨_, g1, .step g2 hu⟩
      · rcases hf u with ⟨g1, -, g3⟩ | ⟨m, g1, g2⟩
        · rw [h2]
          have : s.noted u = [] := by
            cases hn : s.noted u with
            | nil => rfl
            | cons v l => exact absurd (mem_noted.1 (show v ∈ s.noted u by rw [hn]; simp)) (g3 v)
          rw [this]
          exact ⟨0, g1, .start⟩
        · exact absurd h1 (l_nonempty g2)
    obtain ⟨m, km, kr⟩ := key
    refine ⟨fun u' => if u' = u then f u + 1 else f u', fun u' => ?_, fun us hnd hus => ?_⟩
    · by_cases e : u' = u
      · subst e
        exact .inr ⟨m, by simp [km], kr⟩
      · have h1 := ho u' e
        have ht : s'.tasks u' = s.tasks u' := congrArg WState.tasks h1
        have hnn : s'.noted u' = s.noted u' := congrArg WState.noted h1
        simp only [if_neg e]
        rcases hf u' with ⟨g1, g2, g3⟩ | ⟨m, g1, g2⟩
        · refine .inl ⟨g1, ht.trans g2, fun v hv => ?_⟩
          have := mem_noted.2 hv
          rw [hnn] at this
          exact g3 v (mem_noted.1 this)
        · rw [h1]; exact .inr ⟨m, g1, g2⟩
    · have hin : u ∈ us := hus u (l_nonempty kr)
      have hold : ∀ u', s.tasks u' ≠ [] → u' ∈ us := by
        intro u' hu'
        by_cases e : u' = u
        · rw [e]; exact hin
        · apply hus
          have ht : s'.tasks u' = s.tasks u' := congrArg WState.tasks (ho u' e)
          rw [ht]; exact hu'
      have h1 := hsum us hnd hold
      have h2 := sum_bump (f := f) (g := fun u' => if u' = u then f u + 1 else f u') (u := u) (by simp) (fun u' e => by simp [e]) us hnd
      rw [if_pos hin] at h2
      omega

end Clu
open Clu Search Store

/-- C198: each of the searches has gone through the steps of a search that is alone, with time limits. -/
theorem C198_alone (E : Env) (Q : String → Query) (C : Cluster) (s : MState) (hs : MLReach E Q C s) (u : String) :
    (s.tasks u = [] ∧ ∀ v, (v, u) ∉ s.cache) ∨ LReach E (Q u).datum C (Q u).anon (Q u).config (Q u).node (s.one u) := by
  obtain ⟨n, h⟩ := ml_run_of_reach hs
  obtain ⟨f, hf, -⟩ := ml_split h
  rcases hf u with ⟨-, h⟩ | ⟨m, -, h⟩
  · exact .inl h
  · exact .inr h.reach

/-- **C198.**  Any number of searches at the same time, whatever time limits come at whatever moment at whichever nodes for whichever of them: all
that a client gets are live matches of its own request. -/
theorem C198_genuine (E : Env) (hE : E.Ok) (Q : String → Query) (C : Cluster) (s : MState) (hs : MLReach E Q C s) (u : String)
    (q : DatumKey) (qv : Option DatumValue) (out : List ScoredDatum) (hq : (Q u).datum = ⟨some q, qv⟩) (hl : 0 < (Q u).config.limit)
    (hg : (Q u).config.groupLimit = 0) (hname : ¬ "Annoy".toList <+: (Q u).config.scoreFuncName.toList)
    (hok : ∀ v site, C.holds v site → site.Ok) (hbegun : s.tasks u ≠ []) (ho : LAnswer E (Q u).config (s.one u) out) :
    (∀ y ∈ out, ∃ v site, Linked C.next (Q u).node v ∧ C.holds v site ∧
      Ref.IsHit E (Q u).config q (Ref.shows (abs site.dt.dbMap) site.clock) y) ∧
    (out.map (·.datum.key)).Nodup ∧ out.length ≤ Ref.asked (Q u).config := by
  rcases C198_alone E Q C s hs u with ⟨h, -⟩ | h
  · exact absurd h hbegun
  · rw [hq] at h
    exact C189_genuine E hE C (Q u).anon (Q u).config (Q u).node q qv (s.one u) out hl hg hname hok h ho

/-- C198: all that they set going in the cluster ends, after a number of steps that grows with the number of searches and not faster. -/
theorem C198_ends (E : Env) (Q : String → Query) (C : Cluster) (N n : Nat) (s : MState) (hs : MLRun E Q C n s) (us : List String)
    (hus : us.Nodup) (hall : ∀ u, s.tasks u ≠ [] → u ∈ us) (hN : ∀ u, (Q u).node < N) (hnext : ∀ v, ∀ w ∈ C.next v, w < N) :
    n ≤ us.length * (12 * N + 15) := by
  obtain ⟨f, hf, hsum⟩ := ml_split hs
  rw [hsum us hus hall]
  refine sum_bound (fun u => ?_) us
  rcases hf u with ⟨h, -⟩ | ⟨m, h1, h2⟩
  · omega
  · have := C188_limited E C (Q u).anon (Q u).config (Q u).node N (Q u).datum (hN u) hnext m _ h2
    omega

/-- C198: and at any moment a search which has begun has its answer or can go on, whatever the others do or wait for; its node itself can always go
on or end with what it has. -/
theorem C198_goes_on (E : Env) (hE : E.Ok) (Q : String → Query) (C : Cluster) (s : MState) (hs : MLReach E Q C s) (u : String)
    (q : DatumKey) (qv : Option DatumValue) (hq : (Q u).datum = ⟨some q, qv⟩)
    (hl : 0 < (Q u).config.limit) (hr : (Q u).config.resultLimit.toNat < 2^63)
    (hname : ¬ "Annoy".toList <+: (Q u).config.scoreFuncName.toList) (hok : ∀ v site, C.holds v site → site.Ok)
    (hdata : ¬ C.faulty (Q u).node → ∃ site, C.holds (Q u).node site) (hbegun : s.tasks u ≠ []) :
    (∃ s', MLStep E Q C s s' ∧ s'.one u ≠ s.one u ∧ ∀ u', u' ≠ u → s'.one u' = s.one u') ∨ ∃ a, (s.one u).ans 0 = some a := by
  have hn : Vec.isAnnoyName (Q u).config.scoreFuncName = false := by
    cases h : Vec.isAnnoyName (Q u).config.scoreFuncName with
    | false => rfl
    | true => exact absurd (List.isPrefixOf_iff_prefix.mp h) hname
  rcases C198_alone E Q C s hs u with ⟨h, -⟩ | h
  · exact absurd h hbegun
  have move : ∀ w, LStep E (Q u).datum C (Q u).anon (s.one u) w → w ≠ s.one u →
      ∃ s', MLStep E Q C s s' ∧ s'.one u ≠ s.one u ∧ ∀ u', u' ≠ u → s'.one u' = s.one u' := by
    intro w hw hne
    obtain ⟨s', g1, g2, g3⟩ := ml_step_one hw
    exact ⟨s', g1, by rw [g2]; exact hne, g3⟩
  obtain ⟨t, h1, h2, h3⟩ := l_root h
  cases hph : t.phase with
  | begun =>
    left
    by_cases g1 : t.node ∈ s.noted u
    · exact move _ (.whole (.refuse 0 t h1 hph g1)) (l_moved (new := []) h1 (by rw [hph]; simp) (List.append_nil _).symm)
    · by_cases g2 : C.faulty t.node
      · exact move _ (.whole (.fail 0 t false h1 hph g2)) (l_moved (new := []) h1 (by rw [hph]; simp) (List.append_nil _).symm)
      · obtain ⟨site, g3⟩ := hdata (by rw [← h2]; exact g2)
        rw [← h2] at g3
        obtain ⟨dt', own, g4, -⟩ := keyed_own_ok hE (config := t.config) (by rw [h3]; exact hl) (by rw [h3]; exact hn) (hok _ _ g3) q qv
        rw [← hq] at g4
        exact move _ (.whole (.serve 0 t site dt' own ((C.next t.node).take 6) 0 h1 hph g1 g3 g4 ⟨_, .refl _, rfl⟩))
          (l_moved h1 (by rw [hph]; simp) rfl)
  | asked site own kids =>
    left
    have hm : flatMerge E t.config none [] = .ok [] := silent_flat E (by rw [h3]; exact hr)
    exact move _ (.cut 0 t site own kids [] [] [] [] h1 hph (fun x hx => by cases hx) hm (fun x hx => by cases hx) hm)
      (l_moved (new := []) h1 (by rw [hph]; simp) (List.append_nil _).symm)
  | over ks ps f o =>
    right
    obtain ⟨nd, c, ph⟩ := t
    simp only at hph
    subst hph
    exact ⟨_, by unfold WState.ans; rw [h1]⟩

namespace Clu

theorem ml_go {E : Env} {Q : String → Query} {C : Cluster} {s : MState} {u : String} {w : WState} (hs : MLReach E Q C s)
    (h : LReach E (Q u).datum C (Q u).anon (Q u).config (Q u).node w) (h0 : s.one u = .start (Q u).config (Q u).node) :
    ∃ s', MLReach E Q C s' ∧ s'.one u = w ∧ ∀ u', u' ≠ u → s'.one u' = s.one u' := by
  induction h with
  | start => exact ⟨s, hs, h0, fun _ _ => rfl⟩
  | step _ h ih =>
    obtain ⟨s1, i1, i2, i3⟩ := ih
    rw [← i2] at h
    obtain ⟨s2, g1, g2, g3⟩ := ml_step_one h
    exact ⟨s2, .step i1 g1, g2, fun u' hu => (g3 u' hu).trans (i3 u' hu)⟩

theorem l_of_w {E : Env} {q : Datum} {C : Cluster} {anon : Bool} {config : SearchConfig} {i : Nat} {s : WState}
    (h : WReach E q C anon config i s) : LReach E q C anon config i s := by
  induction h with
  | start => exact .start
  | step _ h ih => exact .step ih (.whole h)

/-- Two clients, at the second and the third node of the ring of C187. -/
def exAskLimit (u : String) : Query := ⟨⟨some (exPoint 0), none⟩, exBoth, if u = "a" then 1 else 2, false⟩

end Clu

/-- Two searches that have both begun before either of them goes on.  For the first the time is up when its node has found its own point, and a
request of it is still open; the second ends as if it were alone. -/
theorem C198_example : ∃ s, MLReach exEnv exAskLimit exRing s ∧ LAnswer exEnv exBoth (s.one "a") [exFound F64.one 0x3F800000] ∧
    (∃ t ∈ s.tasks "a", t.phase = .begun) ∧ ∃ a out, (s.one "b").ans 0 = some a ∧ MultiOut exEnv exBoth none [a.found] out := by
  have r1 := MLReach.step (MLReach.step (E := exEnv) (Q := exAskLimit) (C := exRing) .start (.whole (.client "a" rfl)))
    (.whole (.client "b" (by simp [MState.put])))
  obtain ⟨w1, h1, h2, ⟨t, h3, -, h4⟩, -⟩ := C189_example
  obtain ⟨w2, a2, o2, g1, g2, g3⟩ := C188_answer exEnv exEnv_ok exRing false exBoth 2 3 (exPoint 0) none (by decide) exRing_next (by decide)
    (by decide) rfl (by decide) exRing_ok exRing_data
  obtain ⟨s1, p1, p2, p3⟩ := ml_go (u := "a") r1 h1 (by simp [MState.one, MState.put, MState.noted, exAskLimit, WState.start])
  obtain ⟨s2, q1, q2, q3⟩ := ml_go (u := "b") p1 (l_of_w g1) (by
    rw [p3 "b" (by decide)]
    simp [MState.one, MState.put, MState.noted, exAskLimit, WState.start])
  have e : s2.one "a" = w1 := (q3 "a" (by decide)).trans p2
  refine ⟨s2, q1, by rw [e]; exact h2, ⟨t, ?_, h4⟩, a2, o2, by rw [q2]; exact g2, g3⟩
  have : s2.tasks "a" = w1.tasks := congrArg WState.tasks e
  rw [this]; exact h3

end Veri
