import Verif.Data.Props
/-
`Data.Run`: the maintenance loops of one data set.  data/data.go:145-168.  C48.
-/
set_option autoImplicit false
namespace Veri
namespace Loops

/-- A goroutine that has called `Run`. -/
inductive Th where
  /-- before data/data.go:146 -/
  | called
  /-- past the guard, before data/data.go:150 -/
  | checked
  /-- in the loop -/
  | looping
  /-- returned -/
  | left
  deriving DecidableEq, Repr

/-- The counter `dt.Runs`, `dt.Alive` and the goroutines.  Simplification: `Runs` is an `int32`, here an integer: it would
take 2^31 goroutines in the loop to tell them apart. -/
structure RS where
  runs : Int
  alive : Bool
  threads : List Th
  deriving DecidableEq, Repr

inductive Label where
  /-- `go dt.Run()` (data/data.go:91, data/dataset.go:196) -/
  | call
  /-- data/data.go:146-149 -/
  | check (i : Nat)
  /-- data/data.go:150 -/
  | add (i : Nat)
  /-- data/data.go:155-157 and the deferred line 151 -/
  | leave (i : Nat)
  /-- data/data.go:109 -/
  | close
  deriving DecidableEq, Repr

def step (s : RS) : Label → Option RS
  | .call => some { s with threads := s.threads ++ [.called] }
  | .check i =>
    if s.threads[i]? = some .called then
      some { s with threads := s.threads.set i (if s.runs ≥ 1 then .left else .checked) }
    else none
  | .add i =>
    if s.threads[i]? = some .checked then
      some { s with runs := s.runs + 1, threads := s.threads.set i .looping }
    else none
  | .leave i =>
    if s.threads[i]? = some .looping ∧ s.alive = false then
      some { s with runs := s.runs - 1, threads := s.threads.set i .left }
    else none
  | .close => some { s with alive := false }

def start : RS := ⟨0, true, []⟩

inductive Reach : RS → Prop
  | start : Reach start
  | step {s s' : RS} (l : Label) : Reach s → step s l = some s' → Reach s'

/-- Executions in which no goroutine reads the counter while another one is between its read and its increment. -/
inductive Serial : RS → Prop
  | start : Serial start
  | step {s s' : RS} (l : Label) : Serial s → step s l = some s' → (∀ i, l = .check i → Th.checked ∉ s.threads) → Serial s'

def exec (s : RS) : List Label → Option RS
  | [] => some s
  | l :: ls => (step s l).bind fun s => exec s ls

theorem reach_exec (ls : List Label) : ∀ {s s' : RS}, Reach s → exec s ls = some s' → Reach s' := by
  induction ls with
  | nil => intro s s' h he; cases he; exact h
  | cons l ls ih =>
    intro s s' h he
    simp only [exec] at he
    cases hs : step s l with
    | none => rw [hs] at he; cases he
    | some s1 => rw [hs] at he; exact ih (.step l h hs) he

theorem count_set {l : List Th} {i : Nat} {a : Th} (h : l[i]? = some a) (b x : Th) :
    (l.set i b).count x + (if a = x then 1 else 0) = l.count x + (if b = x then 1 else 0) := by
  induction l generalizing i with
  | nil => cases h
  | cons y l ih =>
    cases i with
    | zero =>
      simp only [List.getElem?_cons_zero, Option.some.injEq] at h
      subst h
      simp only [List.set_cons_zero, List.count_cons]
      by_cases h1 : y = x <;> by_cases h2 : b = x <;> simp [h1, h2]
    | succ i =>
      simp only [List.getElem?_cons_succ] at h
      simp only [List.set_cons_succ, List.count_cons]
      have := ih h
      omega

/-- The counter is the number of goroutines in the loop. -/
theorem runs_eq {s : RS} (h : Reach s) : s.runs = s.threads.count .looping := by
  induction h with
  | start => rfl
  | @step s s' l _ hs ih =>
    cases l with
    | call =>
      cases hs
      simp only [List.count_append]
      rw [ih]; simp
    | check i =>
      simp only [step] at hs
      split at hs
      · rename_i hi
        cases hs
        by_cases hr : s.runs ≥ 1
        · have := count_set hi .left .looping
          simp only [if_pos hr]
          simp at this
          omega
        · have := count_set hi .checked .looping
          simp only [if_neg hr]
          simp at this
          omega
      · cases hs
    | add i =>
      simp only [step] at hs
      split at hs
      · rename_i hi
        cases hs
        have := count_set hi .looping .looping
        simp at this
        simp only
        omega
      · cases hs
    | leave i =>
      simp only [step] at hs
      split at hs
      · rename_i hi
        cases hs
        have := count_set hi.1 .left .looping
        simp at this
        simp only
        omega
      · cases hs
    | close => cases hs; exact ih

theorem serial_reach {s : RS} (h : Serial s) : Reach s := by
  induction h with
  | start => exact .start
  | step l _ hs _ ih => exact .step l ih hs

end Loops

open Loops

/-- C48, full statement.  FALSE of the code: the counter is read and incremented in two steps. -/
def C48_one_loop_statement : Prop := ∀ s : RS, Reach s → s.threads.count .looping ≤ 1

theorem C48_one_loop_fails : ¬ C48_one_loop_statement := by
  intro h
  have := h ⟨2, true, [.looping, .looping]⟩
    (reach_exec [.call, .call, .check 0, .check 1, .add 0, .add 1] .start (by decide))
  exact absurd this (by decide)

/-- C48, what holds (1): if starts do not overlap, at most one loop runs. -/
theorem C48_one_loop_partial (s : RS) (h : Serial s) : s.threads.count .looping ≤ 1 := by
  suffices s.threads.count .looping + s.threads.count .checked ≤ 1 by omega
  induction h with
  | start => decide
  | @step s s' l hr hs hser ih =>
    have hrun := runs_eq (serial_reach hr)
    cases l with
    | call => cases hs; simp only [List.count_append]; simp; omega
    | check i =>
      have hnc := List.count_eq_zero.2 (hser i rfl)
      simp only [step] at hs
      split at hs
      · rename_i hi
        cases hs
        by_cases hr1 : s.runs ≥ 1
        · have h1 := count_set hi .left .looping
          have h2 := count_set hi .left .checked
          simp only [if_pos hr1]
          simp at h1 h2
          omega
        · have h1 := count_set hi .checked .looping
          have h2 := count_set hi .checked .checked
          simp only [if_neg hr1]
          simp at h1 h2
          omega
      · cases hs
    | add i =>
      simp only [step] at hs
      split at hs
      · rename_i hi
        cases hs
        have h1 := count_set hi .looping .looping
        have h2 := count_set hi .looping .checked
        simp at h1 h2
        simp only
        omega
      · cases hs
    | leave i =>
      simp only [step] at hs
      split at hs
      · rename_i hi
        cases hs
        have h1 := count_set hi.1 .left .looping
        have h2 := count_set hi.1 .left .checked
        simp at h1 h2
        simp only
        omega
      · cases hs
    | close => cases hs; exact ih

/-- C48, what holds (2), for every interleaving: a goroutine that calls `Run` while a loop is running is turned away. -/
theorem C48_second_refused_partial (s s' : RS) (i : Nat) (h : Reach s) (hl : Th.looping ∈ s.threads)
    (hs : step s (.check i) = some s') : s'.threads[i]? = some .left ∧ s'.threads.count .looping = s.threads.count .looping := by
  have hr := runs_eq h
  have hpos := List.count_pos_iff.2 hl
  simp only [step] at hs
  split at hs
  · rename_i hi
    cases hs
    have hr1 : s.runs ≥ 1 := by omega
    simp only [if_pos hr1]
    obtain ⟨hlt, _⟩ := List.getElem?_eq_some_iff.1 hi
    have := count_set hi .left .looping
    simp at this
    exact ⟨by simp [hlt], by omega⟩
  · cases hs

/-- C48 is not empty: a serial execution with a running loop. -/
theorem C48_example : Serial ⟨1, true, [.looping, .left]⟩ := by
  refine .step (.check 1) (s := ⟨1, true, [.looping, .called]⟩) ?_ (by decide) (fun i _ => by decide)
  refine .step .call (s := ⟨1, true, [.looping]⟩) ?_ (by decide) (fun i h => by cases h)
  refine .step (.add 0) (s := ⟨0, true, [.checked]⟩) ?_ (by decide) (fun i h => by cases h)
  refine .step (.check 0) (s := ⟨0, true, [.called]⟩) ?_ (by decide) (fun i _ => by decide)
  exact .step .call .start (by decide) (fun i h => by cases h)

end Veri
