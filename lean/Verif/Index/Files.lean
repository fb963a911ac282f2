import Verif.Index.Lemmas
/-
The invariant about the temporary files of the index.
-/
set_option autoImplicit false
namespace Veri
namespace Idx

/-- The file the run will remove. -/
def RPhase.old : RPhase → Option Nat
  | .filed o | .indexed o | .stored o | .unlocked o => o
  | _ => none

/-- The run has a file that is not the current one yet. -/
def RPhase.own : RPhase → Bool
  | .building f | .locked f | .dropped f | .named f _ => f
  | _ => false

def RPhase.isFiled : RPhase → Bool
  | .filed _ => true
  | _ => false

structure FInv (s : St) : Prop where
  fn : s.files.Nodup
  begun : ∀ q : Nat, q ∈ s.files → q < s.runs.length ∧ s.runs[q]? ≠ some .scanning
  here : ∀ q : Nat, s.file = some q → q ∈ s.files
  cur : ∀ q : Nat, s.file = some q → ∃ ph, s.runs[q]? = some ph ∧ (ph.installed = true ∨ ph.isFiled = true)
  own : ∀ (q : Nat) (ph : RPhase), s.runs[q]? = some ph → ph.own = true → q ∈ s.files
  oldn : ∀ (p : Nat) (f : Bool) (o : Option Nat), s.runs[p]? = some (.named f o) → o = s.file
  old : ∀ (p q : Nat) (ph : RPhase), s.runs[p]? = some ph → ph.old = some q → s.file ≠ some q
  oldp : ∀ (p q : Nat) (ph : RPhase), s.runs[p]? = some ph → ph.old = some q → ∃ ph', s.runs[q]? = some ph' ∧ ph'.past = true
  acc : ∀ q : Nat, q ∈ s.files → s.file = some q ∨ (∃ ph, s.runs[q]? = some ph ∧ ph.own = true) ∨
    ∃ (p : Nat) (ph : RPhase), s.runs[p]? = some ph ∧ ph.old = some q

theorem finv_init : FInv init := by
  constructor <;> simp [init]

theorem finv_scanning {s s' : St} {p : Nat} {f : Bool} (h : Inv s) (g : FInv s) (hp : s.runs[p]? = some .scanning)
    (hs : rstep s p f .scanning = some s') : FInv s' := by
  have hlt := holds_lt hp
  simp only [rstep] at hs
  split at hs
  · simp only [Option.some.injEq] at hs
    subst hs
    obtain ⟨g1, g2, g3, g4, g5, g6, g7, g8, g9⟩ := g
    cases f <;> constructor <;> first | assumption | (simp only [List.getElem?_set]; grind [RPhase.old, RPhase.own, RPhase.isFiled, RPhase.installed, RPhase.past])
  · cases hs

theorem finv_building {s s' : St} {p : Nat} {f f' : Bool} (h : Inv s) (g : FInv s) (hp : s.runs[p]? = some (.building f'))
    (hs : rstep s p f (.building f') = some s') : FInv s' := by
  have hlt := holds_lt hp
  simp only [rstep] at hs
  split at hs
  · simp only [Option.some.injEq] at hs
    subst hs
    obtain ⟨g1, g2, g3, g4, g5, g6, g7, g8, g9⟩ := g
    constructor <;> first | assumption | (simp only [List.getElem?_set]; grind [RPhase.old, RPhase.own, RPhase.isFiled, RPhase.installed, RPhase.past])
  · cases hs

theorem finv_locked {s s' : St} {p : Nat} {f f' : Bool} (h : Inv s) (g : FInv s) (hp : s.runs[p]? = some (.locked f'))
    (hs : rstep s p f (.locked f') = some s') : FInv s' := by
  have hlt := holds_lt hp
  have hid := h.wlocked p _ hp rfl (by intro o; simp)
  simp only [rstep] at hs
  obtain ⟨g1, g2, g3, g4, g5, g6, g7, g8, g9⟩ := g
  split at hs
  · simp only [Option.some.injEq] at hs
    subst hs
    constructor <;> first | assumption | (simp only [List.getElem?_set]; grind [RPhase.old, RPhase.own, RPhase.isFiled, RPhase.installed, RPhase.past])
  · simp only [Option.some.injEq] at hs
    subst hs
    constructor <;> first | assumption | (simp only [List.getElem?_set]; grind [RPhase.old, RPhase.own, RPhase.isFiled, RPhase.installed, RPhase.past])
  · rename_i h1 h2
    rw [h1, h2] at hid; cases hid

theorem finv_dropped {s s' : St} {p : Nat} {f f' : Bool} (h : Inv s) (g : FInv s) (hp : s.runs[p]? = some (.dropped f'))
    (hs : rstep s p f (.dropped f') = some s') : FInv s' := by
  have hlt := holds_lt hp
  simp only [rstep, Option.some.injEq] at hs
  subst hs
  obtain ⟨g1, g2, g3, g4, g5, g6, g7, g8, g9⟩ := g
  constructor <;> first | assumption | (simp only [List.getElem?_set]; grind [RPhase.old, RPhase.own, RPhase.isFiled, RPhase.installed, RPhase.past])

theorem finv_named {s s' : St} {p : Nat} {f f' : Bool} {o : Option Nat} (h : Inv s) (g : FInv s)
    (hp : s.runs[p]? = some (.named f' o)) (hs : rstep s p f (.named f' o) = some s') : FInv s' := by
  obtain ⟨hlt, huniq, -, -, -, hpa⟩ := alone h hp
  have hcur : ∀ q : Nat, s.file = some q → q ≠ p ∧ ∃ ph, s.runs[q]? = some ph ∧ ph.past = true := by
    intro q hq
    obtain ⟨ph, h1, h2⟩ := g.cur q hq
    have hne : q ≠ p := by
      intro he; rw [he, hp] at h1; cases h1
      rcases h2 with h2 | h2 <;> cases h2
    refine ⟨hne, ph, h1, ?_⟩
    cases hb : ph.holds with
    | true => exact absurd (huniq q ph h1 hb rfl) hne
    | false =>
      rcases h2 with h2 | h2
      · exact hpa q ph h1 h2 hb
      · cases ph <;> simp [RPhase.isFiled, RPhase.holds] at h2 hb
  have hothers : ∀ (q : Nat) (ph : RPhase), s.runs[q]? = some ph → ph.holds = true → q = p := fun q ph h1 h2 => huniq q ph h1 h2 rfl
  simp only [rstep, Option.some.injEq] at hs
  subst hs
  obtain ⟨g1, g2, g3, g4, g5, g6, g7, g8, g9⟩ := g
  cases f' <;> constructor <;> first | assumption | (simp only [List.getElem?_set]; grind [RPhase.old, RPhase.own, RPhase.isFiled, RPhase.installed, RPhase.past, RPhase.holds])

theorem finv_filed {s s' : St} {p : Nat} {f : Bool} {o : Option Nat} (g : FInv s) (hp : s.runs[p]? = some (.filed o))
    (hs : rstep s p f (.filed o) = some s') : FInv s' := by
  have hlt := holds_lt hp
  simp only [rstep, Option.some.injEq] at hs
  subst hs
  obtain ⟨g1, g2, g3, g4, g5, g6, g7, g8, g9⟩ := g
  constructor <;> first | assumption | (simp only [List.getElem?_set]; grind [RPhase.old, RPhase.own, RPhase.isFiled, RPhase.installed, RPhase.past])

theorem finv_indexed {s s' : St} {p : Nat} {f : Bool} {o : Option Nat} (g : FInv s) (hp : s.runs[p]? = some (.indexed o))
    (hs : rstep s p f (.indexed o) = some s') : FInv s' := by
  have hlt := holds_lt hp
  simp only [rstep, Option.some.injEq] at hs
  subst hs
  obtain ⟨g1, g2, g3, g4, g5, g6, g7, g8, g9⟩ := g
  constructor <;> first | assumption | (simp only [List.getElem?_set]; grind [RPhase.old, RPhase.own, RPhase.isFiled, RPhase.installed, RPhase.past])

theorem finv_stored {s s' : St} {p : Nat} {f : Bool} {o : Option Nat} (g : FInv s) (hp : s.runs[p]? = some (.stored o))
    (hs : rstep s p f (.stored o) = some s') : FInv s' := by
  have hlt := holds_lt hp
  simp only [rstep, Option.some.injEq] at hs
  subst hs
  obtain ⟨g1, g2, g3, g4, g5, g6, g7, g8, g9⟩ := g
  constructor <;> first | assumption | (simp only [List.getElem?_set]; grind [RPhase.old, RPhase.own, RPhase.isFiled, RPhase.installed, RPhase.past])

theorem finv_unlocked {s s' : St} {p : Nat} {f : Bool} {o : Option Nat} (g : FInv s) (hp : s.runs[p]? = some (.unlocked o))
    (hs : rstep s p f (.unlocked o) = some s') : FInv s' := by
  have hlt := holds_lt hp
  have ho := g.old p
  have hop := g.oldp p
  simp only [rstep, Option.some.injEq] at hs
  subst hs
  have hne : ∀ (ph : RPhase), ph.own = true → ph.past = true → False := by intro ph h1 h2; cases ph <;> simp [RPhase.own, RPhase.past] at h1 h2
  obtain ⟨g1, g2, g3, g4, g5, g6, g7, g8, g9⟩ := g
  cases o <;> constructor <;> first | assumption | (simp only [List.getElem?_set]; grind [RPhase.old, RPhase.own, RPhase.isFiled, RPhase.installed, RPhase.past, List.Nodup.mem_erase_iff, List.Nodup.erase])

theorem finv_step {s s' : St} {l : Label} (h : Inv s) (g : FInv s) (hs : step s l = some s') : FInv s' := by
  cases l with
  | search =>
    simp only [step, Option.some.injEq] at hs
    subst hs
    exact ⟨g.fn, g.begun, g.here, g.cur, g.own, g.oldn, g.old, g.oldp, g.acc⟩
  | run =>
    simp only [step, Option.some.injEq] at hs
    subst hs
    obtain ⟨g1, g2, g3, g4, g5, g6, g7, g8, g9⟩ := g
    constructor <;> first | assumption | (simp only [List.getElem?_append]; grind [RPhase.old, RPhase.own])
  | close =>
    simp only [step, Option.some.injEq] at hs
    subst hs
    exact ⟨g.fn, g.begun, g.here, g.cur, g.own, g.oldn, g.old, g.oldp, g.acc⟩
  | s j =>
    have hf : s'.file = s.file ∧ s'.files = s.files ∧ s'.runs = s.runs := by
      simp only [step] at hs
      split at hs
      · rename_i ph hp
        cases ph <;> simp only [sstep] at hs <;> grind
      · cases hs
    obtain ⟨e1, e2, e3⟩ := hf
    constructor
    · rw [e2]; exact g.fn
    · rw [e2, e3]; exact g.begun
    · rw [e1, e2]; exact g.here
    · rw [e1, e3]; exact g.cur
    · rw [e2, e3]; exact g.own
    · rw [e1, e3]; exact g.oldn
    · rw [e1, e3]; exact g.old
    · rw [e3]; exact g.oldp
    · rw [e1, e2, e3]; exact g.acc
  | r p f =>
    simp only [step] at hs
    split at hs
    · rename_i ph hp
      cases ph with
      | scanning => exact finv_scanning h g hp hs
      | building f' => exact finv_building h g hp hs
      | locked f' => exact finv_locked h g hp hs
      | dropped f' => exact finv_dropped h g hp hs
      | named f' o => exact finv_named h g hp hs
      | filed o => exact finv_filed g hp hs
      | indexed o => exact finv_indexed g hp hs
      | stored o => exact finv_stored g hp hs
      | unlocked o => exact finv_unlocked g hp hs
      | done => cases hs
      | crashed => cases hs
    · cases hs
  | skip p =>
    simp only [step] at hs
    split at hs
    · rename_i hp
      have hlt := holds_lt hp
      simp only [Option.some.injEq] at hs
      subst hs
      obtain ⟨g1, g2, g3, g4, g5, g6, g7, g8, g9⟩ := g
      constructor <;> first | assumption | (simp only [List.getElem?_set]; grind [RPhase.old, RPhase.own, RPhase.isFiled, RPhase.installed, RPhase.past])
    · cases hs

theorem finv_reach {s : St} (h : Reach s) : FInv s := by
  induction h with
  | init => exact finv_init
  | step l hr hs ih => exact finv_step (inv_reach hr) ih hs

end Idx
end Veri
