import Verif.Search.Calls
/-
C185: what a search leaves running.  The machine of C160 (Search/Calls.lean), with the goroutines counted: the sources
(data/search.go:189-199, 264-267) and the one that waits for them (200-203, 268-271).  The loop of `MultiAggregatedSearch`
(254-299) is the same one, with a source for each datum of the request in the place of a local search.
-/
set_option autoImplicit false
namespace Veri.Calls

variable {α : Type}

/-- The goroutines of a search, without the one that collects. -/
def running (s : State α) : Nat := s.srcs.countP (fun x => decide (x.stage ≠ .over)) + (if s.waiter = .waiting then 1 else 0)

/-- The sources that stand before the channel. -/
def standing (s : State α) : Nat := s.srcs.countP fun x => decide (x.stage = .passing)

theorem total_live (l : List (Src α)) : total live l = l.countP (fun x => decide (x.stage ≠ .over)) := by
  induction l with
  | nil => rfl
  | cons a l ih =>
    rw [total_cons, List.countP_cons, ih, live]
    by_cases h : a.stage = .over <;> simp [h]
    omega

/-- In a settled search the sources that have not returned stand before the channel, and then the waiter waits for them. -/
theorem settled_running {cap : Nat} {inputs : List (Bool × List α)} {s : State α} (h : Inv cap inputs s) (hq : Settled cap s) :
    running s = if standing s = 0 then 0 else standing s + 1 := by
  obtain ⟨b, hb, hx⟩ := settled h hq
  have hc : s.srcs.countP (fun x => decide (x.stage ≠ .over)) = standing s := by
    refine List.countP_congr fun x hxs => ?_
    rcases hx x hxs with ho | ⟨hp, _⟩
    · simp [ho]
    · simp [hp]
  have hw : s.waiter = .waiting ∨ s.waiter = .done := by
    cases hw : s.waiter with
    | notStarted => obtain ⟨ps, hps⟩ := h.started.1 hw; rw [hb] at hps; cases hps
    | waiting => exact Or.inl rfl
    | done => exact Or.inr rfl
  unfold running
  rw [hc]
  by_cases h0 : standing s = 0
  · rw [if_pos h0]
    rw [h0]
    rcases hw with hw | hw
    · exfalso
      refine hq _ (.wait s hw ?_)
      rw [h.wg, total_live, hc, h0]
    · simp [hw]
  · rw [if_neg h0]
    rcases hw with hw | hw
    · simp [hw]
    · exfalso
      apply h0
      unfold standing
      rw [List.countP_eq_zero]
      intro x hx'
      rw [h.waited hw x hx']
      simp

/-- After the sources `pre` the last one finds the channel full. -/
theorem reach_standing {cap : Nat} (pre : List (Bool × List α)) (b : Bool) (ans : List α) (k : Nat)
    (hk : (pre.flatMap (·.2)).length + k = cap) (hl : k < ans.length) :
    ∃ s : State α, Reach cap (pre ++ [(b, ans)]) s ∧ Settled cap s ∧ standing s = 1 := by
  have h0 : Reach cap (pre ++ [(b, ans)]) _ := reach_spawn (cap := cap) (pre ++ [(b, ans)]) [] rfl .init
  have h1 := reach_complete [fresh (b, ans)] pre [] _ h0 rfl (by simp) (by simp only [List.length_nil]; omega)
  have h2 := Reach.step h1 (.get _ (pre.map complete) [] (fresh (b, ans)) (by simp) rfl)
  have h3 := reach_pass (pre.map complete) [] { fresh (b, ans) with stage := .ready } k _ h2 rfl rfl rfl
    (by simp [fresh]; omega) (by simp only [List.nil_append]; omega)
  have h4 := Reach.step h3 (.take _ (pre.map complete) [] _ rfl rfl (by simpa [fresh] using hl))
  refine ⟨_, h4, ?_, by simp [standing, fresh, List.countP_append, List.countP_map, complete, Function.comp_def]⟩
  have hsrc : ∀ (l r : List (Src α)) (x : Src α), pre.map complete ++ [⟨b, ans, .passing, 0 + k, false⟩] = l ++ x :: r →
      x.stage = .over ∨ x.stage = .passing := by
    intro l r x he
    have : x ∈ pre.map complete ++ [⟨b, ans, .passing, 0 + k, false⟩] := by rw [he]; simp
    simp only [List.mem_append, List.mem_map, List.mem_singleton] at this
    rcases this with ⟨p, _, rfl⟩ | rfl
    · exact Or.inl rfl
    · exact Or.inr rfl
  intro s' hs'
  generalize hs : (State.mk _ _ _ _ _ _ _ _ : State α) = s at hs'
  have hsr : s.srcs = pre.map complete ++ [⟨b, ans, .passing, 0 + k, false⟩] := by rw [← hs]; simp [fresh]
  have hm : s.main = .finished true := by rw [← hs]
  have hg : s.wg = 1 := by rw [← hs]; simp
  have hb : s.buf.length = cap := by
    rw [← hs]; simp [fresh]
    have : min k ans.length = k := by omega
    simp at hk
    omega
  cases hs' with
  | spawn p ps h => rw [hm] at h; cases h
  | enter h => rw [hm] at h; cases h
  | get l r x h hx => rcases hsrc l r x (hsr ▸ h) with h' | h' <;> rw [hx] at h' <;> cases h'
  | refuse l r x h hx _ => rcases hsrc l r x (hsr ▸ h) with h' | h' <;> rw [hx] at h' <;> cases h'
  | take l r x h hx _ => rcases hsrc l r x (hsr ▸ h) with h' | h' <;> rw [hx] at h' <;> cases h'
  | pass l r x a h hx _ _ h' => omega
  | cut l r x h hx _ => rcases hsrc l r x (hsr ▸ h) with h' | h' <;> rw [hx] at h' <;> cases h'
  | finish l r x h hx _ => rcases hsrc l r x (hsr ▸ h) with h' | h' <;> rw [hx] at h' <;> cases h'
  | wait _ h => omega
  | recv x xs h _ => rw [hm] at h; cases h
  | allDone h _ => rw [hm] at h; cases h
  | drain x xs h _ => rw [hm] at h; cases h
  | drained h _ => rw [hm] at h; cases h
  | timeout h => rw [hm] at h; cases h

end Veri.Calls

namespace Veri
open Veri.Calls
variable {α : Type}

/-- C185, full statement: when nothing more happens in a search, none of the goroutines that it started is left.  FALSE of the code. -/
def C185_statement : Prop :=
  ∀ (inputs : List (Bool × List Nat)) (s : Calls.State Nat), Calls.Reach 100 inputs s → Settled 100 s → running s = 0

/-- C185, exactly: what is left are the sources that stand before the channel and one that waits for them; then the search was ended by its
time limit and the channel is full. -/
theorem C185_exact (cap : Nat) (inputs : List (Bool × List α)) (s : Calls.State α) (h : Calls.Reach cap inputs s) (hq : Settled cap s) :
    running s = (if standing s = 0 then 0 else standing s + 1) ∧ (running s ≠ 0 → s.main = .finished true ∧ s.buf.length = cap) ∧
      running s ≤ inputs.length + 1 := by
  have hi := Calls.inv_reach h
  obtain ⟨b, hb, hx⟩ := Calls.settled hi hq
  have he := settled_running hi hq
  have hlen : s.srcs.length = inputs.length := by
    have := hi.inputs
    rw [hb] at this
    simp only [pendingOf, List.append_nil] at this
    rw [← this, List.length_map]
  refine ⟨he, fun hne => ?_, ?_⟩
  · have hs : standing s ≠ 0 := by intro h0; rw [he, if_pos h0] at hne; exact hne rfl
    obtain ⟨x, hxs, hp⟩ := List.countP_pos_iff.1 (Nat.pos_of_ne_zero hs)
    have hp : x.stage = .passing := by simpa using hp
    rcases hx x hxs with ho | ⟨_, hbt, hfull⟩
    · rw [hp] at ho; cases ho
    · exact ⟨by rw [hb, hbt], Nat.le_antisymm hi.room hfull⟩
  · have : standing s ≤ s.srcs.length := List.countP_le_length
    rw [he]
    split <;> omega

/-- C185, the part that holds: nothing is left of a search that was not ended by its time limit, nor of one whose sources have together not
more results than the channel has room for. -/
theorem C185_partial (cap : Nat) (inputs : List (Bool × List α)) (s : Calls.State α) (h : Calls.Reach cap inputs s) (hq : Settled cap s)
    (hs : s.main = .finished false ∨ (inputs.flatMap (·.2)).length ≤ cap) : running s = 0 := by
  refine Classical.byContradiction fun hne => ?_
  have hi := Calls.inv_reach h
  obtain ⟨he, hh, _⟩ := C185_exact cap inputs s h hq
  obtain ⟨hm, hb⟩ := hh hne
  rcases hs with hs | hs
  · rw [hm] at hs; cases hs
  · have hpos : 0 < standing s := by
      refine Nat.pos_of_ne_zero fun h0 => hne ?_
      rw [he, if_pos h0]
    obtain ⟨x, hx, hp⟩ := List.countP_pos_iff.1 hpos
    have hp : x.stage = .passing := by simpa using hp
    have h1 := Calls.length_flatMap_lt hi.good hx hp
    have h2 := hi.perm.length_eq
    have h3 := hi.inputs
    rw [hm] at h3
    simp only [Calls.pendingOf, List.append_nil] at h3
    rw [Calls.total_inputs, h3] at h1
    simp only [List.length_append] at h2
    omega

/-- C185: a node without peers, more results than the channel has room for, and a time limit that comes before they are collected: two
goroutines are left for ever. -/
theorem C185_two (ans : List α) (hl : 100 < ans.length) : ∃ s : Calls.State α, Calls.Reach 100 [(false, ans)] s ∧ Settled 100 s ∧
    s.main = .finished true ∧ running s = 2 := by
  obtain ⟨s, h1, h2, h3⟩ := reach_standing (cap := 100) [] false ans 100 rfl hl
  obtain ⟨he, hh, _⟩ := C185_exact 100 _ s h1 h2
  rw [h3] at he
  simp only [List.nil_append] at h1
  exact ⟨s, h1, h2, (hh (by rw [he]; simp)).1, by rw [he]; rfl⟩

/-- C185: so what is left grows with the number of searches. -/
theorem C185_unbounded (n : Nat) : ∃ ss : List (Calls.State Nat), ss.length = n ∧
    (∀ s ∈ ss, Calls.Reach 100 [(false, List.range 101)] s ∧ Settled 100 s) ∧ (ss.map running).sum = 2 * n := by
  obtain ⟨s, h1, h2, _, h4⟩ := C185_two (List.range 101) (by simp)
  refine ⟨List.replicate n s, by simp, fun x hx => by rw [List.eq_of_mem_replicate hx]; exact ⟨h1, h2⟩, ?_⟩
  rw [List.map_replicate, h4]
  induction n with
  | zero => rfl
  | succ n ih => rw [List.replicate_succ, List.sum_cons, ih]; omega

/-- C185 fails. -/
theorem C185_fails : ¬ C185_statement := by
  intro h
  obtain ⟨s, h1, h2, _, h4⟩ := C185_two (List.range 101) (by simp)
  rw [h _ s h1 h2] at h4
  cases h4

/-- The search of C160_example is ended by its time limit and leaves nothing. -/
theorem C185_example : ∃ s : Calls.State Nat, Calls.Reach 100 [(false, [1, 2]), (true, [3, 4])] s ∧ Settled 100 s ∧
    s.main = .finished true ∧ running s = 0 := by
  obtain ⟨s, h1, h2, h3, _⟩ := C160_example
  exact ⟨s, h1, h2, h3, C185_partial 100 _ s h1 h2 (Or.inr (by decide))⟩

end Veri
