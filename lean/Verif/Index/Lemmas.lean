import Verif.Index.Model
/-
The invariant of the index machine.
-/
set_option autoImplicit false
namespace Veri
namespace Idx

/-- The search holds the read lock. -/
def SPhase.holds : SPhase → Bool
  | .locked | .gotData _ | .calling _ _ | .looking _ _ => true
  | _ => false

/-- The run holds the write lock. -/
def RPhase.holds : RPhase → Bool
  | .locked _ | .dropped _ | .named _ _ | .filed _ | .indexed _ | .stored _ => true
  | _ => false

/-- The run has released the old index and not yet stored its own. -/
def RPhase.swapping : RPhase → Bool
  | .dropped _ | .named _ _ | .filed _ => true
  | _ => false

/-- The run has stored its index. -/
def RPhase.installed : RPhase → Bool
  | .indexed _ | .stored _ | .unlocked _ | .done => true
  | _ => false

def RPhase.past : RPhase → Bool
  | .unlocked _ | .done => true
  | _ => false

structure Inv (s : St) : Prop where
  rd : ∀ (j : Nat), j ∈ s.readers ↔ ∃ ph, s.searches[j]? = some ph ∧ ph.holds = true
  rdn : s.readers.Nodup
  wr : ∀ (p : Nat), s.writer = some p ↔ ∃ ph, s.runs[p]? = some ph ∧ ph.holds = true
  ex : s.writer ≠ none → s.readers = []
  quiet : s.writer = none → s.index = s.data
  wlocked : ∀ (p : Nat) (ph : RPhase), s.runs[p]? = some ph → ph.holds = true → (∀ o : Option Nat, ph ≠ .indexed o) → s.index = s.data
  windexed : ∀ (p : Nat) (o : Option Nat), s.runs[p]? = some (.indexed o) → s.index = some p
  swap : ∀ (p : Nat) (ph : RPhase) (q : Nat), s.runs[p]? = some ph → ph.swapping = true → s.index = some q → q ∈ s.released
  cur : ∀ (q : Nat), s.index = some q → ∃ ph, s.runs[q]? = some ph ∧ ph.installed = true
  rel : ∀ (q : Nat), q ∈ s.released → ∃ ph, s.runs[q]? = some ph ∧ ph.past = true
  relcur : ∀ (q : Nat), q ∈ s.released → s.index = some q → ∃ (p : Nat) (ph : RPhase), s.runs[p]? = some ph ∧ ph.swapping = true
  reln : s.released.Nodup
  saw : ∀ (j : Nat), s.searches[j]? = some .sawIndex → s.index.isSome = true
  sawd : ∀ (j : Nat) (ph : SPhase), s.searches[j]? = some ph → ph.holds = true ∨ ph = .sawData → s.index.isSome = true ∧ s.data.isSome = true
  got : ∀ (j : Nat) (d : Nat), s.searches[j]? = some (.gotData d) → s.data = some d
  call : ∀ (j : Nat) (d : Nat) (p : Nat), s.searches[j]? = some (.calling d p) → s.data = some d ∧ s.index = some p
  look : ∀ (j : Nat) (d : Nat) (p : Nat), s.searches[j]? = some (.looking d p) → s.data = some d ∧ s.index = some p
  scr : ∀ (j : Nat), s.searches[j]? ≠ some .crashed
  rcr : ∀ (p : Nat), s.runs[p]? ≠ some .crashed

theorem inv_init : Inv init := by
  constructor <;> simp [init]

theorem holds_lt {s : St} {p : Nat} {ph : RPhase} (h : s.runs[p]? = some ph) : p < s.runs.length := by
  rw [List.getElem?_eq_some_iff] at h; exact h.1

theorem inv_s {s s' : St} {j : Nat} {ph : SPhase} (h : Inv s) (hp : s.searches[j]? = some ph) (hs : sstep s j ph = some s') :
    Inv s' := by
  have hlt : j < s.searches.length := by rw [List.getElem?_eq_some_iff] at hp; exact hp.1
  have hq : s.writer = none → s.index = s.data := h.quiet
  cases ph with
  | start =>
    simp only [sstep, Option.some.injEq] at hs
    subst hs
    obtain ⟨h1, h2, h3, h4, h5, h6, h7, h8, h9, h10, h11, h12, h13, h14, h15, h16, h17, h18, h19⟩ := h
    constructor <;> first | assumption | (simp only [List.getElem?_set]; grind [SPhase.holds])
  | sawIndex =>
    simp only [sstep, Option.some.injEq] at hs
    subst hs
    obtain ⟨h1, h2, h3, h4, h5, h6, h7, h8, h9, h10, h11, h12, h13, h14, h15, h16, h17, h18, h19⟩ := h
    constructor <;> first | assumption | (simp only [List.getElem?_set]; grind [SPhase.holds])
  | sawData =>
    simp only [sstep] at hs
    split at hs
    · simp only [Option.some.injEq] at hs
      subst hs
      obtain ⟨h1, h2, h3, h4, h5, h6, h7, h8, h9, h10, h11, h12, h13, h14, h15, h16, h17, h18, h19⟩ := h
      constructor <;> first | assumption | (simp only [List.getElem?_set]; grind [SPhase.holds])
    · cases hs
  | locked =>
    have hd := (h.sawd j .locked hp (Or.inl rfl)).2
    simp only [sstep] at hs
    split at hs
    · simp only [Option.some.injEq] at hs
      subst hs
      obtain ⟨h1, h2, h3, h4, h5, h6, h7, h8, h9, h10, h11, h12, h13, h14, h15, h16, h17, h18, h19⟩ := h
      constructor <;> first | assumption | (simp only [List.getElem?_set]; grind [SPhase.holds])
    · rename_i hn; rw [hn] at hd; cases hd
  | gotData d =>
    have hd := (h.sawd j (.gotData d) hp (Or.inl rfl)).1
    simp only [sstep] at hs
    split at hs
    · simp only [Option.some.injEq] at hs
      subst hs
      obtain ⟨h1, h2, h3, h4, h5, h6, h7, h8, h9, h10, h11, h12, h13, h14, h15, h16, h17, h18, h19⟩ := h
      constructor <;> first | assumption | (simp only [List.getElem?_set]; grind [SPhase.holds])
    · rename_i hn; rw [hn] at hd; cases hd
  | calling d p =>
    simp only [sstep, Option.some.injEq] at hs
    subst hs
    obtain ⟨h1, h2, h3, h4, h5, h6, h7, h8, h9, h10, h11, h12, h13, h14, h15, h16, h17, h18, h19⟩ := h
    constructor <;> first | assumption | (simp only [List.getElem?_set]; grind [SPhase.holds])
  | looking d p =>
    simp only [sstep, Option.some.injEq] at hs
    subst hs
    obtain ⟨h1, h2, h3, h4, h5, h6, h7, h8, h9, h10, h11, h12, h13, h14, h15, h16, h17, h18, h19⟩ := h
    constructor <;> first | assumption | (simp only [List.getElem?_set]; grind [SPhase.holds, List.Nodup.mem_erase_iff, List.Nodup.erase])
  | done => cases hs
  | crashed => cases hs

/-- What the proofs about a step of a run use of the invariant. -/
structure Alone (s : St) (p : Nat) (ph : RPhase) : Prop where
  lt : p < s.runs.length
  uniq : ∀ (q : Nat) (ph' : RPhase), s.runs[q]? = some ph' → ph'.holds = true → ph.holds = true → q = p
  rd : ph.holds = true → s.readers = []
  nr : ph.holds = true → ∀ (j : Nat) (sp : SPhase), s.searches[j]? = some sp → sp.holds = false
  sw : ∀ (q : Nat) (ph' : RPhase), s.runs[q]? = some ph' → ph'.swapping = true → ph'.holds = true
  pa : ∀ (q : Nat) (ph' : RPhase), s.runs[q]? = some ph' → ph'.installed = true → ph'.holds = false → ph'.past = true

theorem alone {s : St} {p : Nat} {ph : RPhase} (h : Inv s) (hp : s.runs[p]? = some ph) : Alone s p ph := by
  have hrd : ph.holds = true → s.readers = [] := by
    intro hh
    apply h.ex
    rw [(h.wr p).2 ⟨ph, hp, hh⟩]; simp
  refine ⟨holds_lt hp, ?_, hrd, ?_, ?_, ?_⟩
  · intro q ph' hq hh hh'
    have a := (h.wr q).2 ⟨ph', hq, hh⟩
    have b := (h.wr p).2 ⟨ph, hp, hh'⟩
    rw [a] at b; exact Option.some.inj b
  · intro hh j sp hj
    cases hb : sp.holds with
    | false => rfl
    | true =>
      have := (h.rd j).2 ⟨sp, hj, hb⟩
      rw [hrd hh] at this; cases this
  · intro q ph' _ hh; cases ph' <;> first | rfl | cases hh
  · intro q ph' _ hh hb; cases ph' <;> simp [RPhase.installed, RPhase.holds, RPhase.past] at *

theorem inv_scanning {s s' : St} {p : Nat} {f : Bool} (h : Inv s) (hp : s.runs[p]? = some .scanning)
    (hs : rstep s p f .scanning = some s') : Inv s' := by
  obtain ⟨hlt, huniq, hrd, hnr, hsw, hpa⟩ := alone h hp
  simp only [rstep] at hs
  split at hs
  · simp only [Option.some.injEq] at hs
    subst hs
    obtain ⟨h1, h2, h3, h4, h5, h6, h7, h8, h9, h10, h11, h12, h13, h14, h15, h16, h17, h18, h19⟩ := h
    constructor <;> first | assumption | (simp only [List.getElem?_set]; grind [SPhase.holds, RPhase.holds, RPhase.swapping, RPhase.installed, RPhase.past])
  · cases hs

theorem inv_building {s s' : St} {p : Nat} {f : Bool} {f' : Bool} (h : Inv s) (hp : s.runs[p]? = some (.building f'))
    (hs : rstep s p f (.building f') = some s') : Inv s' := by
  obtain ⟨hlt, huniq, hrd, hnr, hsw, hpa⟩ := alone h hp
  simp only [rstep] at hs
  split at hs
  · simp only [Option.some.injEq] at hs
    subst hs
    obtain ⟨h1, h2, h3, h4, h5, h6, h7, h8, h9, h10, h11, h12, h13, h14, h15, h16, h17, h18, h19⟩ := h
    constructor <;> first | assumption | (simp only [List.getElem?_set]; grind [SPhase.holds, RPhase.holds, RPhase.swapping, RPhase.installed, RPhase.past])
  · cases hs

theorem inv_locked {s s' : St} {p : Nat} {f : Bool} {f' : Bool} (h : Inv s) (hp : s.runs[p]? = some (.locked f'))
    (hs : rstep s p f (.locked f') = some s') : Inv s' := by
  obtain ⟨hlt, huniq, hrd, hnr, hsw, hpa⟩ := alone h hp
  have hid := h.wlocked p _ hp rfl (by intro o; simp)
  simp only [rstep] at hs
  split at hs
  · simp only [Option.some.injEq] at hs
    subst hs
    obtain ⟨h1, h2, h3, h4, h5, h6, h7, h8, h9, h10, h11, h12, h13, h14, h15, h16, h17, h18, h19⟩ := h
    constructor <;> first | assumption | (simp only [List.getElem?_set]; grind [SPhase.holds, RPhase.holds, RPhase.swapping, RPhase.installed, RPhase.past])
  · simp only [Option.some.injEq] at hs
    subst hs
    obtain ⟨h1, h2, h3, h4, h5, h6, h7, h8, h9, h10, h11, h12, h13, h14, h15, h16, h17, h18, h19⟩ := h
    constructor <;> first | assumption | (simp only [List.getElem?_set]; grind [SPhase.holds, RPhase.holds, RPhase.swapping, RPhase.installed, RPhase.past])
  · rename_i h1 h2
    rw [h1, h2] at hid; cases hid

theorem inv_dropped {s s' : St} {p : Nat} {f : Bool} {f' : Bool} (h : Inv s) (hp : s.runs[p]? = some (.dropped f'))
    (hs : rstep s p f (.dropped f') = some s') : Inv s' := by
  obtain ⟨hlt, huniq, hrd, hnr, hsw, hpa⟩ := alone h hp
  simp only [rstep, Option.some.injEq] at hs
  subst hs
  obtain ⟨h1, h2, h3, h4, h5, h6, h7, h8, h9, h10, h11, h12, h13, h14, h15, h16, h17, h18, h19⟩ := h
  constructor <;> first | assumption | (simp only [List.getElem?_set]; grind [SPhase.holds, RPhase.holds, RPhase.swapping, RPhase.installed, RPhase.past])

theorem inv_named {s s' : St} {p : Nat} {f : Bool} {f' : Bool} {old : Option Nat} (h : Inv s) (hp : s.runs[p]? = some (.named f' old))
    (hs : rstep s p f (.named f' old) = some s') : Inv s' := by
  obtain ⟨hlt, huniq, hrd, hnr, hsw, hpa⟩ := alone h hp
  simp only [rstep, Option.some.injEq] at hs
  subst hs
  obtain ⟨h1, h2, h3, h4, h5, h6, h7, h8, h9, h10, h11, h12, h13, h14, h15, h16, h17, h18, h19⟩ := h
  constructor <;> first | assumption | (simp only [List.getElem?_set]; grind [SPhase.holds, RPhase.holds, RPhase.swapping, RPhase.installed, RPhase.past])

theorem inv_filed {s s' : St} {p : Nat} {f : Bool} {old : Option Nat} (h : Inv s) (hp : s.runs[p]? = some (.filed old))
    (hs : rstep s p f (.filed old) = some s') : Inv s' := by
  obtain ⟨hlt, huniq, hrd, hnr, hsw, hpa⟩ := alone h hp
  simp only [rstep, Option.some.injEq] at hs
  subst hs
  obtain ⟨h1, h2, h3, h4, h5, h6, h7, h8, h9, h10, h11, h12, h13, h14, h15, h16, h17, h18, h19⟩ := h
  constructor <;> first | assumption | (simp only [List.getElem?_set]; grind [SPhase.holds, RPhase.holds, RPhase.swapping, RPhase.installed, RPhase.past])

theorem inv_indexed {s s' : St} {p : Nat} {f : Bool} {old : Option Nat} (h : Inv s) (hp : s.runs[p]? = some (.indexed old))
    (hs : rstep s p f (.indexed old) = some s') : Inv s' := by
  obtain ⟨hlt, huniq, hrd, hnr, hsw, hpa⟩ := alone h hp
  simp only [rstep, Option.some.injEq] at hs
  subst hs
  obtain ⟨h1, h2, h3, h4, h5, h6, h7, h8, h9, h10, h11, h12, h13, h14, h15, h16, h17, h18, h19⟩ := h
  constructor <;> first | assumption | (simp only [List.getElem?_set]; grind [SPhase.holds, RPhase.holds, RPhase.swapping, RPhase.installed, RPhase.past])

theorem inv_stored {s s' : St} {p : Nat} {f : Bool} {old : Option Nat} (h : Inv s) (hp : s.runs[p]? = some (.stored old))
    (hs : rstep s p f (.stored old) = some s') : Inv s' := by
  obtain ⟨hlt, huniq, hrd, hnr, hsw, hpa⟩ := alone h hp
  simp only [rstep, Option.some.injEq] at hs
  subst hs
  obtain ⟨h1, h2, h3, h4, h5, h6, h7, h8, h9, h10, h11, h12, h13, h14, h15, h16, h17, h18, h19⟩ := h
  constructor <;> first | assumption | (simp only [List.getElem?_set]; grind [SPhase.holds, RPhase.holds, RPhase.swapping, RPhase.installed, RPhase.past])

theorem inv_unlocked {s s' : St} {p : Nat} {f : Bool} {old : Option Nat} (h : Inv s) (hp : s.runs[p]? = some (.unlocked old))
    (hs : rstep s p f (.unlocked old) = some s') : Inv s' := by
  obtain ⟨hlt, huniq, hrd, hnr, hsw, hpa⟩ := alone h hp
  simp only [rstep, Option.some.injEq] at hs
  subst hs
  obtain ⟨h1, h2, h3, h4, h5, h6, h7, h8, h9, h10, h11, h12, h13, h14, h15, h16, h17, h18, h19⟩ := h
  constructor <;> first | assumption | (simp only [List.getElem?_set]; grind [SPhase.holds, RPhase.holds, RPhase.swapping, RPhase.installed, RPhase.past])

theorem inv_r {s s' : St} {p : Nat} {f : Bool} {ph : RPhase} (h : Inv s) (hp : s.runs[p]? = some ph)
    (hs : rstep s p f ph = some s') : Inv s' := by
  cases ph with
  | scanning => exact inv_scanning h hp hs
  | building f' => exact inv_building h hp hs
  | locked f' => exact inv_locked h hp hs
  | dropped f' => exact inv_dropped h hp hs
  | named f' old => exact inv_named h hp hs
  | filed old => exact inv_filed h hp hs
  | indexed old => exact inv_indexed h hp hs
  | stored old => exact inv_stored h hp hs
  | unlocked old => exact inv_unlocked h hp hs
  | done => cases hs
  | crashed => cases hs

theorem inv_step {s s' : St} {l : Label} (h : Inv s) (hs : step s l = some s') : Inv s' := by
  cases l with
  | search =>
    simp only [step, Option.some.injEq] at hs
    subst hs
    obtain ⟨h1, h2, h3, h4, h5, h6, h7, h8, h9, h10, h11, h12, h13, h14, h15, h16, h17, h18, h19⟩ := h
    constructor <;> first | assumption | (simp only [List.getElem?_append]; grind [SPhase.holds])
  | run =>
    simp only [step, Option.some.injEq] at hs
    subst hs
    obtain ⟨h1, h2, h3, h4, h5, h6, h7, h8, h9, h10, h11, h12, h13, h14, h15, h16, h17, h18, h19⟩ := h
    constructor <;> first | assumption | (simp only [List.getElem?_append]; grind [RPhase.holds, RPhase.swapping, RPhase.installed, RPhase.past])
  | close =>
    simp only [step, Option.some.injEq] at hs
    subst hs
    obtain ⟨h1, h2, h3, h4, h5, h6, h7, h8, h9, h10, h11, h12, h13, h14, h15, h16, h17, h18, h19⟩ := h
    constructor <;> assumption
  | s j =>
    simp only [step] at hs
    split at hs
    · rename_i ph hp; exact inv_s h hp hs
    · cases hs
  | r p f =>
    simp only [step] at hs
    split at hs
    · rename_i ph hp; exact inv_r h hp hs
    · cases hs
  | skip p =>
    simp only [step] at hs
    split at hs
    · rename_i hp
      have hlt : p < s.runs.length := by rw [List.getElem?_eq_some_iff] at hp; exact hp.1
      simp only [Option.some.injEq] at hs
      subst hs
      obtain ⟨h1, h2, h3, h4, h5, h6, h7, h8, h9, h10, h11, h12, h13, h14, h15, h16, h17, h18, h19⟩ := h
      constructor <;> first | assumption | (simp only [List.getElem?_set]; grind [RPhase.holds, RPhase.swapping, RPhase.installed, RPhase.past])
    · cases hs

theorem inv_reach {s : St} (h : Reach s) : Inv s := by
  induction h with
  | init => exact inv_init
  | step l _ hs ih => exact inv_step ih hs

end Idx
end Veri
