/-
Shared variables of more than one machine word without a lock.  The Go memory model (go.dev/ref/mem, "Implementation Restrictions for
Programs Containing Data Races"): reads and writes of values larger than a machine word behave as several reads and writes of words
in an unspecified order, and a word that is read has been written by some write.

`W` are the words of the variables, `V w` the values of word `w`.  Simplification: the words themselves are sequentially consistent
(hardware and compiler may allow a reader more than that).
-/
set_option autoImplicit false
namespace Veri
namespace Race

variable {W : Type} [DecidableEq W] {V : W → Type}

/-- A function changed at one word. -/
def put (f : (w : W) → V w) (w : W) (v : V w) : (w : W) → V w := fun w' => if h : w' = w then h ▸ v else f w'

theorem put_same (f : (w : W) → V w) (w : W) (v : V w) : put f w v w = v := by simp [put]

theorem put_other (f : (w : W) → V w) {w w' : W} (v : V w) (h : w' ≠ w) : put f w v w' = f w' := by simp [put, h]

/-- The memory, the assignments under way (the words still to be written, and the values), those to come, and what a reader has read
so far. -/
structure State (W : Type) (V : W → Type) where
  mem : (w : W) → V w
  pending : List (List W × ((w : W) → V w))
  coming : List ((w : W) → V w)
  got : (w : W) → Option (V w)

inductive Label (W : Type) where
  /-- the next assignment begins (others may still be under way) -/
  | begin
  /-- assignment `j` writes a word -/
  | write (j : Nat) (w : W)
  /-- the reader reads a word -/
  | read (w : W)

/-- One step; `all` lists the words. -/
def step (all : List W) (s : State W V) : Label W → Option (State W V)
  | .begin =>
    match s.coming with
    | [] => none
    | r :: rs => some { s with pending := s.pending ++ [(all, r)], coming := rs }
  | .write j w =>
    match s.pending[j]? with
    | none => none
    | some (todo, r) =>
      if w ∈ todo then some { s with mem := put s.mem w (r w), pending := s.pending.set j (todo.erase w, r) } else none
  | .read w =>
    match s.got w with
    | some _ => none
    | none => some { s with got := put (V := fun w => Option (V w)) s.got w (some (s.mem w)) }

def exec (all : List W) (s : State W V) : List (Label W) → Option (State W V)
  | [] => some s
  | l :: ls => (step all s l).bind fun s => exec all s ls

/-- A reader comes when the variables have the values `r`; `rs` is assigned, in this order, while it reads. -/
def start (r : (w : W) → V w) (rs : List ((w : W) → V w)) : State W V := ⟨r, [], rs, fun _ => none⟩

/-- What the reader can come to hold: `g`. -/
def Obtains (all : List W) (r : (w : W) → V w) (rs : List ((w : W) → V w)) (g : (w : W) → V w) : Prop :=
  ∃ ls s, exec all (start r rs) ls = some s ∧ ∀ w, s.got w = some (g w)

/-! ### Exactly what a reader can obtain -/

theorem exec_append (all : List W) (ls ls' : List (Label W)) : ∀ (s : State W V),
    exec all s (ls ++ ls') = (exec all s ls).bind fun s => exec all s ls' := by
  induction ls with
  | nil => intro s; rfl
  | cons l ls ih =>
    intro s
    simp only [List.cons_append, exec]
    cases step all s l with
    | none => rfl
    | some t => exact ih t

/-- Every word seen anywhere belongs to one of the values. -/
structure Inv (vals : List ((w : W) → V w)) (s : State W V) : Prop where
  mem : ∀ w, ∃ r ∈ vals, s.mem w = r w
  pending : ∀ p ∈ s.pending, p.2 ∈ vals
  coming : ∀ r ∈ s.coming, r ∈ vals
  got : ∀ w v, s.got w = some v → ∃ r ∈ vals, v = r w

omit [DecidableEq W] in
theorem mem_set {α : Type} {l : List α} {j : Nat} {x y : α} (h : y ∈ l.set j x) : y = x ∨ y ∈ l :=
  (List.mem_or_eq_of_mem_set h).symm

theorem inv_step {all : List W} {vals : List ((w : W) → V w)} {s s' : State W V} {l : Label W} (h : Inv vals s)
    (hs : step all s l = some s') : Inv vals s' := by
  cases l with
  | begin =>
    simp only [step] at hs
    cases hc : s.coming with
    | nil => rw [hc] at hs; cases hs
    | cons r rs =>
      rw [hc] at hs; cases hs
      refine ⟨h.mem, ?_, fun x hx => h.coming x (by rw [hc]; exact List.mem_cons_of_mem _ hx), h.got⟩
      intro p hp
      rcases List.mem_append.1 hp with hp | hp
      · exact h.pending p hp
      · rw [List.mem_singleton.1 hp]; exact h.coming r (by rw [hc]; exact List.mem_cons_self)
  | write j w =>
    simp only [step] at hs
    cases hj : s.pending[j]? with
    | none => rw [hj] at hs; cases hs
    | some p =>
      obtain ⟨todo, r⟩ := p
      have hr := h.pending _ (List.mem_of_getElem? hj)
      rw [hj] at hs
      simp only at hs
      split at hs
      · cases hs
        refine ⟨fun w' => ?_, ?_, h.coming, h.got⟩
        · by_cases he : w' = w
          · subst he; exact ⟨r, hr, put_same _ _ _⟩
          · obtain ⟨x, hx, hxw⟩ := h.mem w'; exact ⟨x, hx, by rw [← hxw]; exact put_other _ _ he⟩
        · intro p hp
          rcases mem_set hp with rfl | hp
          · exact hr
          · exact h.pending p hp
      · cases hs
  | read w =>
    simp only [step] at hs
    cases hg : s.got w with
    | some v => rw [hg] at hs; cases hs
    | none =>
      rw [hg] at hs; cases hs
      refine ⟨h.mem, h.pending, h.coming, fun w' v hv => ?_⟩
      by_cases he : w' = w
      · subst he
        simp only [put_same (V := fun w => Option (V w)), Option.some.injEq] at hv
        subst hv
        exact h.mem w'
      · simp only [put_other (V := fun w => Option (V w)) _ _ he] at hv
        exact h.got w' v hv

theorem inv_exec {all : List W} {vals : List ((w : W) → V w)} (ls : List (Label W)) : ∀ {s s' : State W V}, Inv vals s →
    exec all s ls = some s' → Inv vals s' := by
  induction ls with
  | nil => intro s s' h he; cases he; exact h
  | cons l ls ih =>
    intro s s' h he
    simp only [exec] at he
    cases hs : step all s l with
    | none => rw [hs] at he; cases he
    | some t => rw [hs] at he; exact ih (inv_step h hs) he

/-- The reader reads a number of words it has not read. -/
theorem exec_reads (all : List W) : ∀ (ws : List W), ws.Nodup → ∀ (s : State W V), (∀ w ∈ ws, s.got w = none) →
    ∃ s', exec all s (ws.map Label.read) = some s' ∧ s'.mem = s.mem ∧ s'.pending = s.pending ∧ s'.coming = s.coming ∧
      ∀ w, s'.got w = if w ∈ ws then some (s.mem w) else s.got w := by
  intro ws
  induction ws with
  | nil => intro _ s _; exact ⟨s, rfl, rfl, rfl, rfl, fun w => by simp⟩
  | cons w ws ih =>
    intro hnd s hg
    rw [List.nodup_cons] at hnd
    have hw := hg w List.mem_cons_self
    obtain ⟨s', h1, h2, h3, h4, h5⟩ := ih hnd.2 { s with got := put (V := fun w => Option (V w)) s.got w (some (s.mem w)) } (fun w' hw' => by
      show put (V := fun w => Option (V w)) s.got w _ w' = none
      rw [put_other (V := fun w => Option (V w)) _ _ (by intro h; subst h; exact hnd.1 hw')]
      exact hg w' (List.mem_cons_of_mem _ hw'))
    refine ⟨s', ?_, h2, h3, h4, fun w' => ?_⟩
    · simp only [List.map_cons, exec, step, hw, Option.bind_some]
      exact h1
    · rw [h5 w']
      by_cases he : w' = w
      · subst he
        rw [if_neg hnd.1, if_pos List.mem_cons_self]
        exact put_same (V := fun w => Option (V w)) _ _ _
      · by_cases hm : w' ∈ ws
        · rw [if_pos hm, if_pos (List.mem_cons_of_mem _ hm)]
        · rw [if_neg hm, if_neg (by simp [he, hm])]
          exact put_other (V := fun w => Option (V w)) _ _ he

/-- An assignment writes its words. -/
theorem exec_writes (all : List W) (r : (w : W) → V w) (ps : List (List W × ((w : W) → V w))) : ∀ (ws : List W) (s : State W V),
    s.pending = ps ++ [(ws, r)] → ws.Nodup →
    ∃ s', exec all s (ws.map (Label.write ps.length)) = some s' ∧ s'.coming = s.coming ∧ s'.got = s.got ∧
      ∀ w, s'.mem w = if w ∈ ws then r w else s.mem w := by
  intro ws
  induction ws with
  | nil => intro s _ _; exact ⟨s, rfl, rfl, rfl, fun w => by simp⟩
  | cons w ws ih =>
    intro s hp hnd
    rw [List.nodup_cons] at hnd
    obtain ⟨s', h1, h3, h4, h5⟩ := ih { s with mem := put s.mem w (r w), pending := ps ++ [(ws, r)] } rfl hnd.2
    refine ⟨s', ?_, h3, h4, fun w' => ?_⟩
    · have hj : s.pending[ps.length]? = some (w :: ws, r) := by rw [hp]; simp
      simp only [List.map_cons, exec, step, hj, List.mem_cons_self, if_true, List.erase_cons_head, Option.bind_some]
      rw [← h1, hp]
      congr 1
      simp
    · rw [h5 w']
      by_cases he : w' = w
      · subst he
        rw [if_neg hnd.1, if_pos List.mem_cons_self]
        exact put_same _ _ _
      · by_cases hm : w' ∈ ws
        · rw [if_pos hm, if_pos (List.mem_cons_of_mem _ hm)]
        · rw [if_neg hm, if_neg (by simp [he, hm])]
          exact put_other _ _ he

open Classical in
/-- Any mixture can be obtained. -/
theorem obtains_of (all : List W) (hall : ∀ w, w ∈ all) (hnd : all.Nodup) (g : (w : W) → V w) :
    ∀ (rs : List ((w : W) → V w)) (s : State W V), s.coming = rs →
    (∀ w v, s.got w = some v → v = g w) → (∀ w, s.got w = none → ∃ r, (r = s.mem ∨ r ∈ rs) ∧ g w = r w) →
    ∃ ls s', exec all s ls = some s' ∧ ∀ w, s'.got w = some (g w) := by
  intro rs
  induction rs with
  | nil =>
    intro s hc hg hn
    obtain ⟨s', h1, _, _, _, h5⟩ := exec_reads all (all.filter fun w => decide (s.got w = none)) (hnd.filter _) s
      (fun w hw => by simpa using (List.mem_filter.1 hw).2)
    refine ⟨_, s', h1, fun w => ?_⟩
    rw [h5 w]
    cases hw : s.got w with
    | some v =>
      rw [if_neg (by simp [hw]), hg w v hw]
    | none =>
      rw [if_pos (List.mem_filter.2 ⟨hall w, by simp [hw]⟩)]
      obtain ⟨r, hr | hr, he⟩ := hn w hw
      · rw [he, hr]
      · cases hr
  | cons r rs ih =>
    intro s hc hg hn
    obtain ⟨s1, h1, h2, h3, h4, h5⟩ := exec_reads all (all.filter fun w => decide (s.got w = none ∧ g w = s.mem w)) (hnd.filter _) s
      (fun w hw => by have := (List.mem_filter.1 hw).2; simp only [decide_eq_true_eq] at this; exact this.1)
    obtain ⟨s2, h6, h7, h8, h9⟩ := exec_writes all r s1.pending all { s1 with pending := s1.pending ++ [(all, r)], coming := rs } rfl hnd
    have hbegin : step all s1 .begin = some { s1 with pending := s1.pending ++ [(all, r)], coming := rs } := by
      simp only [step, h4, hc]
    have hgot : ∀ w, s2.got w = if s.got w = none ∧ g w = s.mem w then some (s.mem w) else s.got w := by
      intro w
      rw [h8]
      show s1.got w = _
      rw [h5 w]
      by_cases hw : s.got w = none ∧ g w = s.mem w
      · rw [if_pos hw, if_pos (List.mem_filter.2 ⟨hall w, by simpa using hw⟩)]
      · rw [if_neg hw, if_neg (by intro h; exact hw (by simpa using (List.mem_filter.1 h).2))]
    have hmem : s2.mem = r := funext fun w => by rw [h9 w, if_pos (hall w)]
    obtain ⟨ls, s', he, hfin⟩ := ih s2 h7 (fun w v hv => by
        rw [hgot w] at hv
        split at hv
        · rename_i hh; cases hv; exact hh.2.symm
        · exact hg w v hv) (fun w hw => by
        rw [hgot w] at hw
        split at hw
        · cases hw
        · rename_i hh
          obtain ⟨x, hx, hxe⟩ := hn w hw
          rcases hx with rfl | hx
          · exact absurd ⟨hw, hxe⟩ hh
          · rcases List.mem_cons.1 hx with rfl | hx
            · exact ⟨x, .inl hmem.symm, hxe⟩
            · exact ⟨x, .inr hx, hxe⟩)
    refine ⟨(all.filter fun w => decide (s.got w = none ∧ g w = s.mem w)).map Label.read ++ Label.begin :: (all.map (Label.write s1.pending.length) ++ ls), s', ?_, hfin⟩
    rw [exec_append, h1]
    simp only [Option.bind_some, exec, hbegin]
    rw [exec_append, h6]
    exact he

/-- Exactly: a reader can obtain any mixture of the values, and only these. -/
theorem obtains_iff (all : List W) (hall : ∀ w, w ∈ all) (hnd : all.Nodup) (r : (w : W) → V w) (rs : List ((w : W) → V w))
    (g : (w : W) → V w) : Obtains all r rs g ↔ ∀ w, ∃ x ∈ r :: rs, g w = x w := by
  constructor
  · rintro ⟨ls, s, he, hg⟩ w
    have := inv_exec (vals := r :: rs) ls (s := start r rs) ⟨fun w => ⟨r, List.mem_cons_self, rfl⟩, (by intro p hp; cases hp),
      fun x hx => List.mem_cons_of_mem _ hx, (by intro w v hv; cases hv)⟩ he
    exact this.got w (g w) (hg w)
  · intro h
    refine obtains_of all hall hnd g rs (start r rs) rfl (by intro w v hv; cases hv) (fun w _ => ?_)
    obtain ⟨x, hx, he⟩ := h w
    rcases List.mem_cons.1 hx with rfl | hx
    · exact ⟨x, .inl rfl, he⟩
    · exact ⟨x, .inr hx, he⟩

end Race
end Veri
