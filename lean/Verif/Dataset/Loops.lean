import Verif.Dataset.Run

/-!
# How many maintenance loops a data set can have (C48)

`C48_one_loop_partial` is for starts that do not overlap.  Here is exactly which of a number of starts of an open data set can
end up in the loop.
-/

set_option autoImplicit false

namespace Veri

namespace Loops

/-- A goroutine that is in the loop in the end, before line 150, all others before line 146. -/
def early : Th → Th
  | .looping => .checked
  | _ => .called

/-- A goroutine that is in the loop in the end, all others before line 146. -/
def middle : Th → Th
  | .looping => .looping
  | _ => .called

theorem at_mid (xs ys : List Th) (a : Th) : (xs ++ a :: ys)[xs.length]? = some a := by simp

theorem set_mid (xs ys : List Th) (a b : Th) : (xs ++ a :: ys).set xs.length b = xs ++ b :: ys := by simp

/-- First the goroutines that are to loop pass the guard. -/
theorem reach_early : ∀ (ts xs : List Th), Reach ⟨0, true, xs⟩ → Reach ⟨0, true, xs ++ ts.map early⟩
  | [], xs, h => by simpa using h
  | t :: ts, xs, h => by
    have h1 : Reach ⟨0, true, xs ++ [.called]⟩ := .step .call h rfl
    have h2 : Reach ⟨0, true, xs ++ [early t]⟩ := by
      have hc : Reach ⟨0, true, xs ++ [.checked]⟩ := by
        refine .step (.check xs.length) h1 ?_
        simp only [step]
        rw [if_pos (at_mid xs [] .called), set_mid]
        rfl
      cases t
      · exact h1
      · exact h1
      · exact hc
      · exact h1
    simpa using reach_early ts (xs ++ [early t]) h2

/-- Then they count themselves. -/
theorem reach_middle : ∀ (ts xs : List Th) (n : Int), Reach ⟨n, true, xs ++ ts.map early⟩ →
    Reach ⟨n + ts.count .looping, true, xs ++ ts.map middle⟩
  | [], xs, n, h => by simpa using h
  | t :: ts, xs, n, h => by
    have hsame : early t = middle t → t ≠ .looping → Reach ⟨n + (t :: ts).count .looping, true, xs ++ (t :: ts).map middle⟩ := by
      intro he hne
      have h' : Reach ⟨n, true, (xs ++ [middle t]) ++ ts.map early⟩ := by simpa [he] using h
      have := reach_middle ts (xs ++ [middle t]) n h'
      simpa [List.count_cons, hne] using this
    cases t with
    | called => exact hsame rfl (by decide)
    | checked => exact hsame rfl (by decide)
    | left => exact hsame rfl (by decide)
    | looping =>
      have h1 : Reach ⟨n + 1, true, xs ++ .looping :: ts.map early⟩ := by
        refine .step (.add xs.length) h ?_
        simp only [step, List.map_cons, early]
        rw [if_pos (at_mid xs _ .checked), set_mid]
      have := reach_middle ts (xs ++ [.looping]) (n + 1) (by simpa using h1)
      have e : n + 1 + (ts.count .looping : Int) = n + ((Th.looping :: ts).count .looping : Nat) := by
        simp; omega
      rw [e] at this
      simpa [middle] using this

/-- Then the others are turned away. -/
theorem reach_late {n : Int} (hn : 1 ≤ n) : ∀ (ts xs : List Th), (∀ t ∈ ts, t = .looping ∨ t = .left) →
    Reach ⟨n, true, xs ++ ts.map middle⟩ → Reach ⟨n, true, xs ++ ts⟩
  | [], xs, _, h => by simpa using h
  | t :: ts, xs, ht, h => by
    have h1 : Reach ⟨n, true, xs ++ t :: ts.map middle⟩ := by
      rcases ht t List.mem_cons_self with rfl | rfl
      · exact h
      · refine .step (.check xs.length) h ?_
        simp only [step, List.map_cons, middle]
        rw [if_pos (at_mid xs _ .called), set_mid, if_pos hn]
    have := reach_late hn ts (xs ++ [t]) (fun y hy => ht y (List.mem_cons_of_mem _ hy)) (by simpa using h1)
    simpa using this

/-- As long as the data set is open nobody is turned away without a loop. -/
theorem left_runs {s : RS} (h : Reach s) : s.alive = true → Th.left ∈ s.threads → 1 ≤ s.runs := by
  induction h with
  | start => intro _ h; simp [start] at h
  | @step s s' l _ hs ih =>
    intro ha hl
    cases l with
    | call =>
      cases hs
      exact ih ha (by simpa using hl)
    | check i =>
      simp only [step] at hs
      split at hs
      · cases hs
        simp only at ha hl ⊢
        by_cases hr : s.runs ≥ 1
        · exact hr
        · rw [if_neg hr] at hl
          rcases List.mem_or_eq_of_mem_set hl with h | h
          · exact ih ha h
          · cases h
      · cases hs
    | add i =>
      simp only [step] at hs
      split at hs
      · cases hs
        simp only at ha hl ⊢
        rcases List.mem_or_eq_of_mem_set hl with h | h
        · have := ih ha h
          omega
        · cases h
      · cases hs
    | leave i =>
      simp only [step] at hs
      split at hs
      · rename_i hi
        cases hs
        simp only at ha
        rw [hi.2] at ha
        cases ha
      · cases hs
    | close => cases hs; cases ha

end Loops

open Loops

/-- C48, exactly: of the goroutines that have called `Run` on a data set that is open, all with an answer, any may be in the
loop, so long as it is at least one: so up to as many loops as there were starts. -/
theorem C48_loops_exact (ts : List Th) (hover : ∀ t ∈ ts, t = .looping ∨ t = .left) :
    (∃ n : Int, Reach ⟨n, true, ts⟩) ↔ ts = [] ∨ Th.looping ∈ ts := by
  constructor
  · rintro ⟨n, h⟩
    cases ts with
    | nil => exact Or.inl rfl
    | cons t ts =>
      refine Or.inr ?_
      rcases hover t List.mem_cons_self with rfl | rfl
      · exact List.mem_cons_self
      · have h1 := left_runs h rfl List.mem_cons_self
        have h2 := runs_eq h
        simp only at h1 h2
        exact List.count_pos_iff.1 (by omega)
  · rintro (rfl | h)
    · exact ⟨0, .start⟩
    · have h1 := reach_early ts [] .start
      have h2 := reach_middle ts [] 0 h1
      have hp := List.count_pos_iff.2 h
      exact ⟨_, reach_late (by omega) ts [] hover h2⟩

/-- Non-vacuity of `C48_loops_exact`: with any number of starts all may be in the loop. -/
theorem C48_loops_example (n : Nat) : ∃ r : Int, Reach ⟨r, true, List.replicate (n + 1) .looping⟩ :=
  (C48_loops_exact _ (fun t ht => Or.inl (List.eq_of_mem_replicate ht))).2 (Or.inr (by simp))

/-- C48: the executions of C48 begin with a data set as `NewData` makes it, and its first goroutine gets into the loop. -/
theorem C48_first_start (c : DataConfig) :
    (⟨(Data.newData c).runs, (Data.newData c).alive, []⟩ : RS) = Loops.start ∧
    ((step ⟨(Data.newData c).runs, (Data.newData c).alive, []⟩ .call).bind fun s =>
      (step s (.check 0)).bind fun s => step s (.add 0)) = some ⟨1, true, [.looping]⟩ :=
  ⟨rfl, rfl⟩

end Veri
