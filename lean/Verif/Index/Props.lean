import Verif.Index.Files
/-
C101, C102: life and files of the native index.
-/
set_option autoImplicit false
namespace Veri
open Idx

/-! ### C101 -/

/-- C101.  While a search is in the native index, that index has not been released; and the slice in which it looks up the
numbers belongs to the same index. -/
theorem C101_never_released (s : St) (h : Reach s) (j d p : Nat)
    (hj : s.searches[j]? = some (.calling d p) ∨ s.searches[j]? = some (.looking d p)) : p ∉ s.released ∧ d = p := by
  have hi := inv_reach h
  have hdp : s.data = some d ∧ s.index = some p := by
    rcases hj with hj | hj
    · exact hi.call j d p hj
    · exact hi.look j d p hj
  have hmem : j ∈ s.readers := by
    rcases hj with hj | hj <;> exact (hi.rd j).2 ⟨_, hj, rfl⟩
  have hw : s.writer = none := by
    cases hw : s.writer with
    | none => rfl
    | some q =>
      have := hi.ex (by rw [hw]; simp)
      rw [this] at hmem; cases hmem
  constructor
  · intro hr
    obtain ⟨q, ph, h1, h2⟩ := hi.relcur p hr hdp.2
    have : s.writer = some q := (hi.wr q).2 ⟨ph, h1, by cases ph <;> first | rfl | cases h2⟩
    rw [hw] at this; cases this
  · have := hi.quiet hw
    rw [hdp.1, hdp.2] at this
    exact (Option.some.inj this).symm

/-- C101.  No index is released twice, and neither searches nor runs meet a nil index or slice. -/
theorem C101_released_once (s : St) (h : Reach s) :
    s.released.Nodup ∧ (∀ j : Nat, s.searches[j]? ≠ some .crashed) ∧ ∀ p : Nat, s.runs[p]? ≠ some .crashed :=
  ⟨(inv_reach h).reln, (inv_reach h).scr, (inv_reach h).rcr⟩

/-- C101.  What is released has been replaced: between runs, the current index is not released. -/
theorem C101_current_kept (s : St) (h : Reach s) (hw : s.writer = none) (p : Nat) (hp : s.index = some p) : p ∉ s.released := by
  intro hr
  obtain ⟨q, ph, h1, h2⟩ := (inv_reach h).relcur p hr hp
  have : s.writer = some q := ((inv_reach h).wr q).2 ⟨ph, h1, by cases ph <;> first | rfl | cases h2⟩
  rw [hw] at this; cases this

/-- C101.  A search and a swap do not block each other for ever: a search holding the lock can always go on until it gives it
back, and so can a run. -/
theorem C101_progress (s : St) (h : Reach s) :
    (∀ (j : Nat) (ph : SPhase), s.searches[j]? = some ph → ph.holds = true → ∃ s', step s (.s j) = some s') ∧
    (∀ (p : Nat) (ph : RPhase) (f : Bool), s.runs[p]? = some ph → ph.holds = true → ∃ s', step s (.r p f) = some s') ∧
    (s.readers = [] → s.writer = none → ∀ (j p : Nat) (f f' : Bool),
      (s.searches[j]? = some .sawData → ∃ s', step s (.s j) = some s') ∧
      (s.runs[p]? = some (.building f) → ∃ s', step s (.r p f') = some s')) := by
  refine ⟨?_, ?_, ?_⟩
  · intro j ph hj hh
    simp only [step, hj]
    cases ph <;> simp only [SPhase.holds, Bool.false_eq_true] at hh <;> simp only [sstep] <;>
      first | exact ⟨_, rfl⟩ | (split <;> exact ⟨_, rfl⟩)
  · intro p ph f hp hh
    simp only [step, hp]
    cases ph <;> simp only [RPhase.holds, Bool.false_eq_true] at hh <;> simp only [rstep] <;>
      first | exact ⟨_, rfl⟩ | (split <;> exact ⟨_, rfl⟩)
  · intro hr hw j p f f'
    constructor
    · intro hj
      simp only [step, hj, sstep, hw, if_true]; exact ⟨_, rfl⟩
    · intro hp
      simp only [step, hp, rstep, hw, hr, and_self, if_true]; exact ⟨_, rfl⟩

/-- Two runs and a search that is in the index of the first while the second waits. -/
def Idx.exBusy : List Label :=
  [.run, .r 0 true, .r 0 true, .r 0 true, .r 0 true, .r 0 true, .r 0 true, .r 0 true, .r 0 true, .r 0 true,
   .run, .r 1 true, .search, .s 0, .s 0, .s 0, .s 0, .s 0]

/-- C101 is not empty: a search is in an index while the next index waits to replace it; afterwards the first is released. -/
theorem C101_example :
    (∃ s, Reach s ∧ s.searches[0]? = some (.calling 0 0) ∧ s.runs[1]? = some (.building true) ∧ s.released = [] ∧
      step s (.r 1 true) = none) ∧
    ∃ s, Reach s ∧ s.released = [0] ∧ s.index = some 1 ∧ s.files = [1] := by
  constructor
  · have ht : ((exec init exBusy).map fun s =>
        (s.searches[0]?, s.runs[1]?, s.released, step s (.r 1 true))) =
        some (some (.calling 0 0), some (.building true), [], none) := by decide
    cases he : exec init exBusy with
    | none => rw [he] at ht; cases ht
    | some s =>
      rw [he] at ht
      simp only [Option.map_some, Option.some.injEq, Prod.mk.injEq] at ht
      exact ⟨s, reach_exec _ .init he, ht⟩
  · have ht : ((exec init (exBusy ++ [.s 0, .s 0, .r 1 true, .r 1 true, .r 1 true, .r 1 true, .r 1 true, .r 1 true, .r 1 true, .r 1 true])).map fun s =>
        (s.released, s.index, s.files)) = some ([0], some 1, [1]) := by decide
    cases he : exec init (exBusy ++ [.s 0, .s 0, .r 1 true, .r 1 true, .r 1 true, .r 1 true, .r 1 true, .r 1 true, .r 1 true, .r 1 true]) with
    | none => rw [he] at ht; cases ht
    | some s =>
      rw [he] at ht
      simp only [Option.map_some, Option.some.injEq, Prod.mk.injEq] at ht
      exact ⟨s, reach_exec _ .init he, ht⟩

/-! ### C102 -/

/-- C102, full statement: when the data set has been closed and all its runs are over, no temporary file of its index is left.
FALSE of the code. -/
def C102_files_statement : Prop :=
  ∀ s, Reach s → s.alive = false → (∀ (p : Nat) (ph : RPhase), s.runs[p]? = some ph → ph = .done) → s.files = []

/-- C102.  One run, then `Close`: the file stays. -/
theorem C102_files_fails : ¬ C102_files_statement := by
  intro h
  have ht : ((exec init [.run, .r 0 true, .r 0 true, .r 0 true, .r 0 true, .r 0 true, .r 0 true, .r 0 true, .r 0 true, .r 0 true,
      .close]).map fun s => (s.alive, s.runs, s.files)) = some (false, [.done], [0]) := by decide
  cases he : exec init [.run, .r 0 true, .r 0 true, .r 0 true, .r 0 true, .r 0 true, .r 0 true, .r 0 true, .r 0 true, .r 0 true,
      .close] with
  | none => rw [he] at ht; cases ht
  | some s =>
    rw [he] at ht
    simp only [Option.map_some, Option.some.injEq, Prod.mk.injEq] at ht
    obtain ⟨h1, h2, h3⟩ := ht
    have := h s (reach_exec _ .init he) h1 (by
      intro p ph hp
      rw [h2] at hp
      cases p with
      | zero => simpa using hp.symm
      | succ p => simp at hp)
    rw [h3] at this; cases this

/-- C102.  Exactly: when all runs are over, the only file left is that of the current index. -/
theorem C102_files_exact (s : St) (h : Reach s) (hd : ∀ (p : Nat) (ph : RPhase), s.runs[p]? = some ph → ph = .done) :
    s.files = s.file.toList := by
  have g := finv_reach h
  have hsub : ∀ q ∈ s.files, s.file = some q := by
    intro q hq
    rcases g.acc q hq with hq | ⟨ph, h1, h2⟩ | ⟨p, ph, h1, h2⟩
    · exact hq
    · rw [hd _ _ h1] at h2; cases h2
    · rw [hd _ _ h1] at h2; cases h2
  cases hf : s.file with
  | none =>
    cases hl : s.files with
    | nil => rfl
    | cons q l => have := hsub q (by rw [hl]; exact List.mem_cons_self); rw [hf] at this; cases this
  | some q =>
    have hn := g.fn
    have hq := g.here q hf
    cases hl : s.files with
    | nil => rw [hl] at hq; cases hq
    | cons a l =>
      rw [hl] at hn hsub
      have ha := hsub a List.mem_cons_self
      rw [hf] at ha
      cases ha
      cases l with
      | nil => rfl
      | cons b l =>
        have hb := hsub b (by simp)
        rw [hf] at hb
        cases hb
        simp at hn

/-- C102.  The file of the current index is never removed, and at any time there are no other files than that one, those of runs
under way, and those that runs under way are about to remove. -/
theorem C102_files_partial (s : St) (h : Reach s) :
    (∀ q, s.file = some q → q ∈ s.files) ∧ s.files.Nodup ∧
    ∀ q ∈ s.files, s.file = some q ∨ (∃ ph, s.runs[q]? = some ph ∧ ph ≠ .done) ∨
      ∃ (p : Nat) (ph : RPhase), s.runs[p]? = some ph ∧ ph ≠ .done ∧ ph.old = some q := by
  have g := finv_reach h
  refine ⟨g.here, g.fn, fun q hq => ?_⟩
  rcases g.acc q hq with h1 | ⟨ph, h1, h2⟩ | ⟨p, ph, h1, h2⟩
  · exact .inl h1
  · exact .inr (.inl ⟨ph, h1, by intro he; rw [he] at h2; cases h2⟩)
  · refine .inr (.inr ⟨p, ph, h1, ?_, h2⟩)
    intro he; rw [he] at h2; cases h2

end Veri
