import Verif.Search.AggProps
/-
C33, C34: collecting results from concurrent sources.  One machine for both collecting loops, the one of
`AggregatedSearch` (sources: the local search and up to six peers) and the one of `MultiAggregatedSearch` (sources: one
`AggregatedSearch` per datum): data/search.go:185-224 and 258-294.
-/
set_option autoImplicit false
namespace Veri.Stream

variable {α : Type}

/-- The collecting goroutine. -/
inductive Main (α : Type) where
  /-- data/search.go:189-199 and 262-265: `Add(1)` and start of the sources still to come, each with the results it
  is going to send. -/
  | spawning (pending : List (List α))
  /-- data/search.go:208-210 and 278-280: in the `select`. -/
  | merging
  /-- data/search.go:213-216 and 283-286: the channel is closed, receiving what is left. -/
  | draining
  /-- after the loop; `timedOut` if it was left by data/search.go:219-222 or 289-292. -/
  | finished (timedOut : Bool)
  deriving DecidableEq

/-- The goroutine of data/search.go:200-203 and 266-269. -/
inductive Waiter where
  | notStarted
  | waiting
  /-- `waitChannel` is closed -/
  | done
  deriving DecidableEq

structure State (α : Type) where
  main : Main α
  waiter : Waiter
  /-- the sources: what each has still to send, `none` after its `Done()`
  (data/search.go:143-148, 229-234 and node/datasourceclient.go:46-55) -/
  prods : List (Option (List α))
  /-- the counter of `queryWaitGroup` -/
  wg : Nat
  /-- the buffer of `scoredDatumStream` -/
  buf : List α
  closed : Bool
  /-- handed to `temp.Insert`, in this order -/
  got : List α
  /-- send on a closed channel, close of a closed channel, or negative WaitGroup counter -/
  panicked : Bool
  deriving DecidableEq

def init (inputs : List (List α)) : State α := ⟨.spawning inputs, .notStarted, [], 0, [], false, [], false⟩

/-- One atomic step of some goroutine; `cap` is the capacity of the channel (100 in the code).  A hand-over to a waiting
receiver is a send followed by a receive. -/
inductive Step (cap : Nat) : State α → State α → Prop
  /-- `queryWaitGroup.Add(1); go source.StreamSearch(...)` -/
  | spawn (s : State α) (p : List α) (ps : List (List α)) : s.main = .spawning (p :: ps) →
      Step cap s { s with main := .spawning ps, prods := s.prods ++ [some p], wg := s.wg + 1 }
  /-- start the waiter and enter the loop -/
  | enter (s : State α) : s.main = .spawning [] → Step cap s { s with main := .merging, waiter := .waiting }
  /-- a source sends -/
  | send (s : State α) (l r : List (Option (List α))) (x : α) (xs : List α) : s.prods = l ++ some (x :: xs) :: r →
      s.closed = false → s.buf.length < cap → Step cap s { s with prods := l ++ some xs :: r, buf := s.buf ++ [x] }
  /-- a source sends on the closed channel -/
  | sendClosed (s : State α) (l r : List (Option (List α))) (x : α) (xs : List α) : s.prods = l ++ some (x :: xs) :: r →
      s.closed = true → Step cap s { s with panicked := true }
  /-- `queryWaitGroup.Done()` -/
  | done (s : State α) (l r : List (Option (List α))) : s.prods = l ++ some [] :: r →
      Step cap s { s with prods := l ++ none :: r, wg := s.wg - 1, panicked := s.panicked || s.wg == 0 }
  /-- `queryWaitGroup.Wait()` returns, `close(waitChannel)` -/
  | wait (s : State α) : s.waiter = .waiting → s.wg = 0 → Step cap s { s with waiter := .done }
  /-- `case scoredDatum := <-scoredDatumStream` -/
  | recv (s : State α) (x : α) (xs : List α) : s.main = .merging → s.buf = x :: xs →
      Step cap s { s with buf := xs, got := s.got ++ [x] }
  /-- `case <-waitChannel`, `close(scoredDatumStream)` -/
  | allDone (s : State α) : s.main = .merging → s.waiter = .done →
      Step cap s { s with main := .draining, closed := true, panicked := s.panicked || s.closed }
  /-- `for scoredDatum := range scoredDatumStream` -/
  | drain (s : State α) (x : α) (xs : List α) : s.main = .draining → s.buf = x :: xs →
      Step cap s { s with buf := xs, got := s.got ++ [x] }
  | drained (s : State α) : s.main = .draining → s.buf = [] → s.closed = true →
      Step cap s { s with main := .finished false }
  /-- `case <-timeLimit` -/
  | timeout (s : State α) : s.main = .merging → Step cap s { s with main := .finished true }

inductive Reach (cap : Nat) (inputs : List (List α)) : State α → Prop
  | init : Reach cap inputs (init inputs)
  | step {s s' : State α} : Reach cap inputs s → Step cap s s' → Reach cap inputs s'

/-- Executions from a state. -/
inductive Steps (cap : Nat) : State α → State α → Prop
  | refl (s : State α) : Steps cap s s
  | tail {s s' s'' : State α} : Steps cap s s' → Step cap s' s'' → Steps cap s s''

def pendingOf : Main α → List (List α)
  | .spawning ps => ps
  | _ => []

/-- What the sources have not sent yet. -/
def unsent (s : State α) : List α := (pendingOf s.main).flatten ++ s.prods.flatMap (·.getD [])

def running (s : State α) : Nat := (s.prods.filter (·.isSome)).length

/-- The invariant. -/
structure Inv (cap : Nat) (inputs : List (List α)) (s : State α) : Prop where
  perm : (unsent s ++ s.buf ++ s.got).Perm inputs.flatten
  wg : s.wg = running s
  room : s.buf.length ≤ cap
  ok : s.panicked = false
  started : s.waiter = .notStarted ↔ ∃ ps, s.main = .spawning ps
  waited : s.waiter = .done → ∀ p ∈ s.prods, p = none
  closed : s.closed = true ↔ s.main = .draining ∨ s.main = .finished false
  drained : s.closed = true → s.waiter = .done
  emptied : s.main = .finished false → s.buf = []

theorem inv_init (cap : Nat) (inputs : List (List α)) : Inv cap inputs (init inputs) := by
  constructor <;> simp [init, unsent, pendingOf, running]

theorem running_split (l r : List (Option (List α))) (p : Option (List α)) :
    ((l ++ p :: r).filter (·.isSome)).length =
      (l.filter (·.isSome)).length + (if p.isSome then 1 else 0) + (r.filter (·.isSome)).length := by
  rw [List.filter_append, List.filter_cons, List.length_append]
  split <;> simp <;> omega

theorem inv_step {cap : Nat} {inputs : List (List α)} {s s' : State α} (h : Inv cap inputs s) (hs : Step cap s s') :
    Inv cap inputs s' := by
  cases hs with
  | spawn p ps hm =>
    refine ⟨?_, ?_, h.room, h.ok, ?_, ?_, ?_, h.drained, ?_⟩
    · have := h.perm
      simp only [unsent, pendingOf, hm, List.flatten_cons, List.flatMap_append, List.flatMap_cons, Option.getD_some,
        List.flatMap_nil, List.append_nil] at this ⊢
      refine List.Perm.trans ?_ this
      refine List.Perm.append_right _ (List.Perm.append_right _ ?_)
      rw [← List.append_assoc]
      refine List.perm_append_comm.trans ?_
      rw [List.append_assoc]
    · simp only [running, List.filter_append, List.length_append, h.wg]
      rfl
    · have := h.started.2 ⟨_, hm⟩
      simp [this]
    · intro hw
      rw [h.started.2 ⟨_, hm⟩] at hw; cases hw
    · have := h.closed
      rw [hm] at this
      simpa using this
    · simp
  | enter hm =>
    refine ⟨?_, h.wg, h.room, h.ok, by simp, by simp, ?_, ?_, by simp⟩
    · have := h.perm
      simpa [unsent, pendingOf, hm] using this
    · have := h.closed
      rw [hm] at this
      simpa using this
    · intro hc
      have := h.closed
      rw [hm] at this
      simp at this
      simp [this] at hc
  | send l r x xs hp hc hb =>
    refine ⟨?_, ?_, ?_, h.ok, h.started, ?_, h.closed, h.drained, ?_⟩
    · have := h.perm
      simp only [unsent, hp, List.flatMap_append, List.flatMap_cons, Option.getD_some] at this ⊢
      refine List.Perm.trans ?_ this
      refine List.Perm.append_right _ ?_
      generalize (pendingOf s.main).flatten = A
      generalize List.flatMap (fun x => x.getD []) l = B
      generalize List.flatMap (fun x => x.getD []) r = C
      have h1 : (A ++ (B ++ (xs ++ C)) ++ (s.buf ++ [x])).Perm (x :: (A ++ (B ++ (xs ++ C)) ++ s.buf)) := by
        rw [← List.append_assoc]
        exact List.perm_append_comm
      have h2 : (A ++ (B ++ (x :: xs ++ C)) ++ s.buf).Perm (x :: (A ++ (B ++ (xs ++ C)) ++ s.buf)) := by
        simp only [← List.append_assoc, List.cons_append]
        have : A ++ B ++ x :: (xs ++ C) ++ s.buf = A ++ B ++ x :: (xs ++ C ++ s.buf) := by simp
        rw [this]
        refine List.perm_middle.trans ?_
        simp
      exact h1.trans h2.symm
    · have := h.wg
      simp only [running, hp, running_split] at this ⊢
      simpa using this
    · simp only [List.length_append, List.length_cons, List.length_nil]; omega
    · intro hw
      have := h.waited hw (some (x :: xs)) (by rw [hp]; simp)
      cases this
    · intro hm
      have := h.closed.2 (Or.inr hm)
      rw [hc] at this; cases this
  | sendClosed l r x xs hp hc =>
    have := h.waited (h.drained hc) (some (x :: xs)) (by rw [hp]; simp)
    cases this
  | done l r hp =>
    have hw := h.wg
    simp only [running, hp, running_split] at hw
    refine ⟨?_, ?_, h.room, ?_, h.started, ?_, h.closed, h.drained, h.emptied⟩
    · have := h.perm
      simpa only [unsent, hp, List.flatMap_append, List.flatMap_cons, Option.getD_some, Option.getD_none] using this
    · simp only [running, running_split]
      simp at hw ⊢
      omega
    · simp only [h.ok, Bool.false_or, beq_eq_false_iff_ne, ne_eq]
      simp at hw
      omega
    · intro hh
      have := h.waited hh (some []) (by rw [hp]; simp)
      cases this
  | wait hw hz =>
    refine ⟨h.perm, h.wg, h.room, h.ok, ?_, ?_, h.closed, ?_, h.emptied⟩
    · have := h.started
      rw [hw] at this
      simpa using this
    · intro _ p hp
      have hr := h.wg
      rw [hz] at hr
      have hnil : s.prods.filter (·.isSome) = [] := List.length_eq_zero_iff.1 hr.symm
      have := List.filter_eq_nil_iff.1 hnil p hp
      simpa using this
    · intro hc; rfl
  | recv x xs hm hb =>
    refine ⟨?_, h.wg, ?_, h.ok, h.started, h.waited, h.closed, h.drained, ?_⟩
    · have := h.perm
      rw [hb] at this
      simp only [unsent, hm, pendingOf] at this ⊢
      refine List.Perm.trans ?_ this
      simp only [List.append_assoc]
      refine List.Perm.append_left _ (List.Perm.append_left _ ?_)
      rw [List.cons_append, ← List.append_assoc]
      exact List.perm_append_comm
    · have := h.room
      rw [hb] at this
      simp at this ⊢
      omega
    · rw [hm]; simp
  | allDone hm hw =>
    have hcl : s.closed = false := by
      cases hc : s.closed with
      | false => rfl
      | true =>
        have := h.closed.1 hc
        rw [hm] at this
        simp at this
    refine ⟨?_, h.wg, h.room, ?_, ?_, h.waited, by simp, fun _ => hw, by simp⟩
    · have := h.perm
      simpa [unsent, pendingOf, hm] using this
    · simp [h.ok, hcl]
    · rw [hw]; simp
  | drain x xs hm hb =>
    refine ⟨?_, h.wg, ?_, h.ok, h.started, h.waited, h.closed, h.drained, ?_⟩
    · have := h.perm
      rw [hb] at this
      simp only [unsent, hm, pendingOf] at this ⊢
      refine List.Perm.trans ?_ this
      simp only [List.append_assoc]
      refine List.Perm.append_left _ (List.Perm.append_left _ ?_)
      rw [List.cons_append, ← List.append_assoc]
      exact List.perm_append_comm
    · have := h.room
      rw [hb] at this
      simp at this ⊢
      omega
    · rw [hm]; simp
  | drained hm hb hc =>
    refine ⟨?_, h.wg, h.room, h.ok, ?_, h.waited, ?_, h.drained, fun _ => hb⟩
    · have := h.perm
      simpa [unsent, pendingOf, hm] using this
    · have := h.started
      rw [hm] at this
      simpa using this
    · simp [hc]
  | timeout hm =>
    refine ⟨?_, h.wg, h.room, h.ok, ?_, h.waited, ?_, h.drained, by simp⟩
    · have := h.perm
      simpa [unsent, pendingOf, hm] using this
    · have := h.started
      rw [hm] at this
      simpa using this
    · have := h.closed
      rw [hm] at this
      simpa using this

theorem inv_reach {cap : Nat} {inputs : List (List α)} {s : State α} (h : Reach cap inputs s) : Inv cap inputs s := by
  induction h with
  | init => exact inv_init cap inputs
  | step _ hs ih => exact inv_step ih hs

/-- Work left: every step reduces it. -/
def work (s : State α) : Nat :=
  2 * (unsent s).length + s.buf.length + 2 * (pendingOf s.main).length + running s +
    (match s.waiter with | .done => 0 | _ => 1) +
    (match s.main with | .spawning _ => 3 | .merging => 2 | .draining => 1 | .finished _ => 0)

theorem work_step {cap : Nat} {inputs : List (List α)} {s s' : State α} (h : Inv cap inputs s) (hs : Step cap s s') :
    work s' < work s := by
  cases hs with
  | spawn p ps hm =>
    simp only [work, unsent, running, hm, pendingOf, List.flatten_cons, List.length_append, List.length_cons,
      List.flatMap_append, List.flatMap_cons, Option.getD_some, List.flatMap_nil, List.append_nil, List.filter_append,
      List.filter_cons, Option.isSome_some, if_true, List.filter_nil, List.length_nil]
    omega
  | enter hm =>
    have := h.started.2 ⟨_, hm⟩
    simp only [work, unsent, running, hm, pendingOf, this]
    simp
  | send l r x xs hp hc hb =>
    simp only [work, unsent, running, hp, running_split, List.length_append, List.flatMap_append, List.flatMap_cons,
      Option.getD_some, List.length_cons, List.length_nil, Option.isSome_some, if_true]
    omega
  | sendClosed l r x xs hp hc =>
    have := h.waited (h.drained hc) (some (x :: xs)) (by rw [hp]; simp)
    cases this
  | done l r hp =>
    simp only [work, unsent, running, hp, running_split, List.length_append, List.flatMap_append, List.flatMap_cons,
      Option.getD_some, Option.getD_none, List.length_nil, Option.isSome_some, Option.isSome_none, if_true,
      Bool.false_eq_true, if_false]
    omega
  | wait hw hz =>
    simp only [work, unsent, running, hw]
    omega
  | recv x xs hm hb => simp only [work, unsent, running, hm, hb, List.length_cons]; omega
  | allDone hm hw => simp only [work, unsent, running, hm, pendingOf]; omega
  | drain x xs hm hb => simp only [work, unsent, running, hm, hb, List.length_cons]; omega
  | drained hm hb hc => simp only [work, unsent, running, hm, pendingOf]; omega
  | timeout hm => simp only [work, unsent, running, hm, pendingOf]; omega

/-- A step other than the timeout. -/
def StepNT (cap : Nat) (s s' : State α) : Prop := Step cap s s' ∧ s'.main ≠ .finished true

/-- Unless the loop has been left, something other than the timeout can happen. -/
theorem progress {cap : Nat} (hcap : 0 < cap) {inputs : List (List α)} {s : State α} (h : Inv cap inputs s)
    (hm : ∀ b, s.main ≠ .finished b) : ∃ s', StepNT cap s s' := by
  cases hmain : s.main with
  | spawning ps =>
    cases ps with
    | nil => exact ⟨_, .enter s hmain, by simp⟩
    | cons p ps => exact ⟨_, .spawn s p ps hmain, by simp⟩
  | draining =>
    cases hb : s.buf with
    | nil => exact ⟨_, .drained s hmain hb (h.closed.2 (Or.inl hmain)), by simp⟩
    | cons x xs => exact ⟨_, .drain s x xs hmain hb, by simp [hmain]⟩
  | finished b => exact absurd hmain (hm b)
  | merging =>
    cases hb : s.buf with
    | cons x xs => exact ⟨_, .recv s x xs hmain hb, by simp [hmain]⟩
    | nil =>
      cases hw : s.waiter with
      | notStarted =>
        obtain ⟨ps, hp⟩ := h.started.1 hw
        rw [hmain] at hp; cases hp
      | done => exact ⟨_, .allDone s hmain hw, by simp⟩
      | waiting =>
        by_cases hz : s.wg = 0
        · exact ⟨_, .wait s hw hz, by simp [hmain]⟩
        · have hr := h.wg
          have : ∃ p ∈ s.prods, p.isSome = true := by
            cases hf : s.prods.filter (·.isSome) with
            | nil => simp [running, hf] at hr; exact absurd hr hz
            | cons p ps =>
              have : p ∈ s.prods.filter (·.isSome) := by rw [hf]; exact List.mem_cons_self
              have := List.mem_filter.1 this
              exact ⟨p, this.1, this.2⟩
          obtain ⟨p, hp, hs⟩ := this
          obtain ⟨l, r, hlr⟩ := List.append_of_mem hp
          cases p with
          | none => cases hs
          | some xs =>
            have hc : s.closed = false := by
              cases hcl : s.closed with
              | false => rfl
              | true =>
                have := h.closed.1 hcl
                rw [hmain] at this
                simp at this
            cases xs with
            | nil => exact ⟨_, .done s l r hlr, by simp [hmain]⟩
            | cons x xs => exact ⟨_, .send s l r x xs hlr hc (by rw [hb]; simpa using hcap), by simp [hmain]⟩

end Veri.Stream

namespace Veri
open Veri.Stream
variable {α : Type}

/-- C33.  In every interleaving, whatever the sources send: no send on or close of a closed channel, no negative wait
group; and if the loop ends without timeout, the merger was handed exactly what the sources sent, each result once. -/
theorem C33_nothing_lost (cap : Nat) (inputs : List (List α)) (s : State α) (h : Reach cap inputs s) :
    s.panicked = false ∧ (s.main = .finished false → s.got.Perm inputs.flatten) := by
  have hi := inv_reach h
  refine ⟨hi.ok, fun hm => ?_⟩
  have hp := hi.perm
  have hc := hi.closed.2 (Or.inr hm)
  have hall := hi.waited (hi.drained hc)
  have hun : unsent s = [] := by
    simp only [unsent, hm, pendingOf, List.flatten_nil, List.nil_append, List.flatMap_eq_nil_iff]
    intro p hp
    rw [hall p hp]; rfl
  rw [hun, hi.emptied hm] at hp
  simpa using hp

/-- C33, no deadlock and termination: as long as the loop is running some step other than the timeout is possible, and
every step reduces `work`, so every run that the timeout does not cut short ends with `finished false`. -/
theorem C33_no_deadlock (cap : Nat) (hcap : 0 < cap) (inputs : List (List α)) (s : State α) (h : Reach cap inputs s) :
    ((∀ b, s.main ≠ .finished b) → ∃ s', StepNT cap s s') ∧ ∀ s', Step cap s s' → work s' < work s :=
  ⟨progress hcap (inv_reach h), fun _ hs => work_step (inv_reach h) hs⟩

/-- C33: from every state the loop has not left, it can be completed with every result. -/
theorem C33_completes (cap : Nat) (hcap : 0 < cap) (inputs : List (List α)) (s : State α) (h : Reach cap inputs s)
    (hm : ∀ b, s.main ≠ .finished b) :
    ∃ s', Steps cap s s' ∧ s'.main = .finished false ∧ s'.got.Perm inputs.flatten := by
  have aux : ∀ n (t : State α), work t ≤ n → Steps cap s t → Reach cap inputs t → t.main ≠ .finished true →
      ∃ s', Steps cap s s' ∧ s'.main = .finished false ∧ s'.got.Perm inputs.flatten := by
    intro n
    induction n with
    | zero =>
      intro t hw hst hr ht
      by_cases hf : t.main = .finished false
      · exact ⟨t, hst, hf, (C33_nothing_lost cap inputs t hr).2 hf⟩
      · obtain ⟨t', h1, h2⟩ := progress hcap (inv_reach hr) (by intro b; cases b <;> assumption)
        have := work_step (inv_reach hr) h1
        omega
    | succ n ih =>
      intro t hw hst hr ht
      by_cases hf : t.main = .finished false
      · exact ⟨t, hst, hf, (C33_nothing_lost cap inputs t hr).2 hf⟩
      · obtain ⟨t', h1, h2⟩ := progress hcap (inv_reach hr) (by intro b; cases b <;> assumption)
        have := work_step (inv_reach hr) h1
        exact ih t' (by omega) (.tail hst h1) (.step hr h1) h2
  exact aux _ s (Nat.le_refl _) (.refl s) h (hm true)

/-- C33 together with C27: a search that is not cut short returns, for a higher-is-better query, the best of the
distinct results of all its sources, in every interleaving. -/
theorem C33_search_result (cap : Nat) (E : Env) (hE : E.Ok) (config : SearchConfig) (inputs : List (List ScoredDatum))
    (s : State ScoredDatum) (h : Reach cap inputs s) (hm : s.main = .finished false)
    (hdir : config.higherIsBetter = true) (hl : 0 < config.limit) (hk : Ref.Keyed inputs.flatten)
    (hc : Ref.Consistent inputs.flatten) (hn : Ref.NoNaN inputs.flatten) :
    ∃ a cands, (Agg.newFlat config none).insertAll E s.got = .ok a ∧ Ref.Distinct inputs.flatten cands ∧
      IsTopK (Ref.better true) config.limit.toNat cands a.list := by
  have hp := (C33_nothing_lost cap inputs s h).2 hm
  have hmem : ∀ x, x ∈ s.got ↔ x ∈ inputs.flatten := fun x => hp.mem_iff
  obtain ⟨a, cands, h1, h2, h3⟩ := C27_merge_higher_top_k E hE config s.got hdir hl
    (fun x hx => hk x ((hmem x).1 hx)) (Agg.consistent_mono hc fun x hx => (hmem x).1 hx)
    (fun x hx => hn x ((hmem x).1 hx))
  exact ⟨a, cands, h1, Agg.distinct_perm h2 hmem, h3⟩

/-- C34: from every state in the loop the timeout ends it, and whenever the loop has ended, what was merged are results
sent by the sources, none twice. -/
theorem C34_timeout_partial (cap : Nat) (inputs : List (List α)) (s : State α) (h : Reach cap inputs s) :
    (s.main = .merging → ∃ s', Step cap s s' ∧ s'.main = .finished true ∧ s'.got = s.got) ∧
    ∃ rest, (s.got ++ rest).Perm inputs.flatten := by
  refine ⟨fun hm => ⟨_, .timeout s hm, rfl, rfl⟩, unsent s ++ s.buf, ?_⟩
  exact List.perm_append_comm.trans (inv_reach h).perm

/-- C34, full statement about the sources: after a timeout every source can still finish.  FALSE of the code. -/
def C34_sources_finish_statement : Prop :=
  ∀ (inputs : List (List ScoredDatum)) (s : State ScoredDatum), Reach 100 inputs s → s.main = .finished true →
    ∃ s', Steps 100 s s' ∧ ∀ p ∈ s'.prods, p = none

namespace Stream

/-- After a timeout nothing is received any more. -/
theorem frozen {cap : Nat} {s t : State α} (h : Steps cap s t) (hm : s.main = .finished true) :
    t.main = .finished true ∧ t.got = s.got := by
  induction h with
  | refl => exact ⟨hm, rfl⟩
  | tail _ hs ih =>
    obtain ⟨h1, h2⟩ := ih
    cases hs with
    | spawn p ps h => rw [h1] at h; cases h
    | enter h => rw [h1] at h; cases h
    | send => exact ⟨h1, h2⟩
    | sendClosed => exact ⟨h1, h2⟩
    | done => exact ⟨h1, h2⟩
    | wait => exact ⟨h1, h2⟩
    | recv x xs h => rw [h1] at h; cases h
    | allDone h => rw [h1] at h; cases h
    | drain x xs h => rw [h1] at h; cases h
    | drained h => rw [h1] at h; cases h
    | timeout h => rw [h1] at h; cases h

theorem Reach.steps {cap : Nat} {inputs : List (List α)} {s t : State α} (h : Reach cap inputs s) (hs : Steps cap s t) :
    Reach cap inputs t := by
  induction hs with
  | refl => exact h
  | tail _ hs ih => exact .step ih hs

/-- A source with more results than the channel holds is stuck for ever if the timeout fires before anything was
received. -/
theorem stuck {cap : Nat} {inputs : List (List α)} {s t : State α} (h : Reach cap inputs s)
    (hm : s.main = .finished true) (hg : s.got = []) (hbig : cap < inputs.flatten.length) (ht : Steps cap s t) :
    ¬ ∀ p ∈ t.prods, p = none := by
  intro hall
  obtain ⟨h1, h2⟩ := frozen ht hm
  have hi := inv_reach (h.steps ht)
  have hun : unsent t = [] := by
    simp only [unsent, h1, pendingOf, List.flatten_nil, List.nil_append, List.flatMap_eq_nil_iff]
    intro p hp
    rw [hall p hp]; rfl
  have := hi.perm.length_eq
  rw [hun, h2, hg] at this
  have hr := hi.room
  simp at this
  simp at hbig
  omega

end Stream

/-- C34, counterexample: one source with 101 results, and a timeout before the first of them is received: the source
never finishes. -/
theorem C34_sources_finish_fails : ¬ C34_sources_finish_statement := by
  intro h
  let x : ScoredDatum := ⟨0, ⟨none, none⟩⟩
  let input : List ScoredDatum := List.replicate 101 x
  have h1 : Reach 100 [input] _ := .step .init (.spawn (cap := 100) (Stream.init [input]) input [] rfl)
  have h2 := Reach.step h1 (.enter _ rfl)
  have h3 := Reach.step h2 (.timeout _ rfl)
  obtain ⟨t, ht, hall⟩ := h _ _ h3 rfl
  refine stuck h3 rfl rfl ?_ ht hall
  simp only [List.flatten_cons, List.flatten_nil, List.append_nil, input, List.length_replicate]
  omega

namespace Stream

/-- Sending is possible as long as everything outstanding fits. -/
theorem can_finish {cap : Nat} {inputs : List (List α)} (hfit : inputs.flatten.length ≤ cap) : ∀ (n : Nat) (s t : State α),
    Reach cap inputs t → t.main = .finished true → Steps cap s t → work t ≤ n →
    ∃ s', Steps cap s s' ∧ ∀ p ∈ s'.prods, p = none := by
  intro n
  induction n with
  | zero =>
    intro s t hr hm hst hw
    refine ⟨t, hst, ?_⟩
    have : running t = 0 := by simp only [work] at hw; omega
    have hnil : t.prods.filter (·.isSome) = [] := List.length_eq_zero_iff.1 this
    intro p hp
    have := List.filter_eq_nil_iff.1 hnil p hp
    simpa using this
  | succ n ih =>
    intro s t hr hm hst hw
    have hi := inv_reach hr
    by_cases hall : ∀ p ∈ t.prods, p = none
    · exact ⟨t, hst, hall⟩
    · obtain ⟨p, hp, hne⟩ : ∃ p ∈ t.prods, p ≠ none := Classical.byContradiction fun hn =>
        hall fun p hp => Classical.byContradiction fun h => hn ⟨p, hp, h⟩
      obtain ⟨l, r, hlr⟩ := List.append_of_mem hp
      have hc : t.closed = false := by
        cases hcl : t.closed with
        | false => rfl
        | true =>
          have := hi.closed.1 hcl
          rw [hm] at this
          simp at this
      cases p with
      | none => exact absurd rfl hne
      | some xs =>
        cases xs with
        | nil =>
          have hstep : Step cap t _ := .done t l r hlr
          have := work_step hi hstep
          exact ih s _ (.step hr hstep) hm (.tail hst hstep) (by omega)
        | cons x xs =>
          have hlen := hi.perm.length_eq
          have hroom : t.buf.length < cap := by
            simp only [unsent, hlr, List.length_append, List.flatMap_append, List.flatMap_cons, Option.getD_some,
              List.length_cons] at hlen
            omega
          have hstep : Step cap t _ := .send t l r x xs hlr hc hroom
          have := work_step hi hstep
          exact ih s _ (.step hr hstep) hm (.tail hst hstep) (by omega)

end Stream

/-- C34, partial: if all the results fit into the channel, every source can still finish after a timeout. -/
theorem C34_sources_finish_partial (cap : Nat) (inputs : List (List α)) (s : State α) (h : Reach cap inputs s)
    (hm : s.main = .finished true) (hfit : inputs.flatten.length ≤ cap) :
    ∃ s', Steps cap s s' ∧ ∀ p ∈ s'.prods, p = none :=
  can_finish hfit _ s s h hm (.refl s) (Nat.le_refl _)

/-- C33 and C34 are about runs that exist: two sources, interleaved, complete. -/
theorem C33_example : ∃ s : State Nat, Reach 100 [[1, 2], [3]] s ∧ s.main = .finished false := by
  obtain ⟨s, hs, hm, _⟩ := C33_completes 100 (by decide) [[1, 2], [3]] _ .init (by simp [Stream.init])
  exact ⟨s, Reach.steps .init hs, hm⟩

end Veri
