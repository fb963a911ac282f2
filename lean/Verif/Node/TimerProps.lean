import Verif.Node.Timer
/-
C121, C122: the periodic task in time.
-/
set_option autoImplicit false
namespace Veri
namespace Timer

/-! ### Invariants -/

structure JobOk (now : Nat) (j : Job) : Prop where
  began : j.began ≤ j.since
  since : j.since ≤ now
  due : now ≤ j.deadline
  left : j.left ≤ j.calls
  spent : j.since ≤ j.began + (j.calls - j.left) * limit

theorem jobOk_new (now calls : Nat) : JobOk now (Job.new now calls) := by
  refine ⟨Nat.le_refl _, Nat.le_refl _, ?_, Nat.le_refl _, ?_⟩
  · simp only [Job.new, Job.deadline]; by_cases hc : calls = 0 <;> simp [hc]
  · simp [Job.new]

theorem jobOk_answer {now : Nat} {j : Job} (h : JobOk now j) (hl : j.left ≠ 0) : JobOk now (j.answer now) := by
  have hd := h.due
  simp only [Job.deadline, if_neg hl] at hd
  refine ⟨Nat.le_trans h.began h.since, Nat.le_refl _, ?_, ?_, ?_⟩
  · simp only [Job.answer, Job.deadline]; by_cases hc : j.left - 1 = 0 <;> simp [hc]
  · simp only [Job.answer]; have := h.left; omega
  · have hs := h.spent
    have hl2 := h.left
    simp only [Job.answer]
    have : j.calls - (j.left - 1) = (j.calls - j.left) + 1 := by omega
    rw [this, Nat.add_mul]
    omega

/-- A job never lasts longer than its calls may. -/
theorem jobOk_age {now : Nat} {j : Job} (h : JobOk now j) : now ≤ j.began + j.calls * limit := by
  have hs := h.spent
  have hd := h.due
  have hl := h.left
  unfold Job.deadline at hd
  split at hd
  · rename_i h0
    rw [h0] at hs
    simp only [Nat.sub_zero] at hs
    omega
  · rename_i h0
    have : (j.calls - j.left) * limit + limit ≤ j.calls * limit := by
      rw [← Nat.succ_mul]
      exact Nat.mul_le_mul_right _ (by omega)
    omega

/-- Two rounds, one after the other. -/
structure Linked (r r' : Round) : Prop where
  startTake : r'.start ≤ r.take
  takeTick : r'.take ≤ r.tick
  ticks : r'.tick + period ≤ r.tick
  tickTake : r.tick ≤ r.take
  takeStart : r.take ≤ r.start
  soon : r.take ≤ max (r'.take + period) r'.start
  report : r.start ≤ r.take + r.calls * limit

def Chain : List Round → Prop
  | [] => True
  | [r] => r.take ≤ r.start
  | r :: r' :: l => Linked r r' ∧ Chain (r' :: l)

structure Inv (s : TS) : Prop where
  chain : Chain s.rounds
  nonempty : s.rounds ≠ []
  jobs : ∀ j ∈ s.jobs, JobOk s.now j
  nowNext : s.now ≤ s.next
  nextNow : s.next ≤ s.now + period
  /-- against the last round -/
  last : ∀ r l, s.rounds = r :: l → r.start ≤ s.now ∧ r.take ≤ r.start ∧
    (s.report = none →
      r.tick + period ≤ s.next ∧ r.take ≤ s.next ∧
      (∀ t, s.buf = some t → r.take ≤ t ∧ r.tick + period ≤ t ∧ t ≤ s.now ∧ t ≤ r.take + period ∧ t + period ≤ s.next ∧
        s.now ≤ max t r.start) ∧
      (s.buf = none → s.next ≤ r.take + period)) ∧
    (∀ t j, s.report = some (t, j) →
      r.start ≤ j.began ∧ r.take ≤ t ∧ r.tick + period ≤ t ∧ t ≤ j.began ∧ j.began ≤ max (r.take + period) r.start ∧
      t + period ≤ s.next ∧ j.began ≤ s.next ∧
      (∀ b, s.buf = some b → j.began ≤ b ∧ t + period ≤ b ∧ b ≤ s.now ∧ b ≤ j.began + period ∧ b + period ≤ s.next) ∧
      (s.buf = none → s.next ≤ j.began + period))
  tasks : (s.tasks.map (·.began)).Sublist (s.rounds.map (·.start))

theorem inv_start (calls : Nat) : Inv (start calls) := by
  refine ⟨Nat.le_refl _, by simp [start], ?_, by simp [start], by simp [start], ?_, ?_⟩
  · intro j hj
    simp only [TS.jobs, start, Option.map_none, Option.toList_none, List.nil_append, List.mem_singleton] at hj
    rw [hj]; exact jobOk_new 0 calls
  · intro r l h
    simp only [start, List.cons.injEq] at h
    obtain ⟨rfl, _⟩ := h
    refine ⟨Nat.le_refl _, Nat.le_refl _, ?_, ?_⟩
    · intro _
      refine ⟨by simp [start], by simp [start], ?_, ?_⟩
      · intro t ht; simp [start] at ht
      · intro _; simp [start]
    · intro t j h; simp [start] at h
  · simp [start, Job.new]

theorem set_map_began {l : List Job} {i : Nat} {j j' : Job} (h : l[i]? = some j) (hb : j'.began = j.began) :
    (l.set i j').map (·.began) = l.map (·.began) := by
  rw [List.map_set, hb]
  apply List.ext_getElem?
  intro k
  by_cases hk : i = k
  · subst hk
    have hlt : i < l.length := by
      rcases Nat.lt_or_ge i l.length with h' | h'
      · exact h'
      · rw [List.getElem?_eq_none h'] at h; cases h
    rw [List.getElem?_set_self (by simpa using hlt), List.getElem?_map, h]
    rfl
  · rw [List.getElem?_set_ne hk]

theorem inv_step {s s' : TS} {l : Label} (h : Inv s) (hs : step s l = some s') : Inv s' := by
  obtain ⟨r, rs, hr⟩ : ∃ r rs, s.rounds = r :: rs := by
    cases hrs : s.rounds with
    | nil => exact absurd hrs h.nonempty
    | cons r rs => exact ⟨r, rs, rfl⟩
  obtain ⟨hl1, hl2, hl3, hl4⟩ := h.last r rs hr
  have hp : period = 60000000000 := rfl
  cases l with
  | advance t =>
    simp only [step] at hs
    split at hs
    · rename_i hm
      cases hs
      simp only [mayPass, Bool.and_eq_true, Bool.or_eq_true, decide_eq_true_eq, List.all_eq_true] at hm
      obtain ⟨⟨⟨h1, h2⟩, h3⟩, h4⟩ := hm
      refine ⟨h.chain, h.nonempty, ?_, h2, ?_, ?_, h.tasks⟩
      · intro j hj
        have hj' : j ∈ s.jobs := hj
        have hok := h.jobs j hj'
        exact ⟨hok.began, Nat.le_trans hok.since h1, h3 j hj', hok.left, hok.spent⟩
      · have := h.nextNow
        exact Nat.le_trans this (Nat.add_le_add_right h1 _)
      · intro r' l' hr'
        have hrr : r' = r := by
          have : s.rounds = r' :: l' := hr'
          rw [hr] at this
          cases this; rfl
        subst hrr
        refine ⟨Nat.le_trans hl1 h1, hl2, ?_, ?_⟩
        · intro hn
          obtain ⟨a1, a2, a3, a4⟩ := hl3 hn
          refine ⟨a1, a2, ?_, a4⟩
          intro b hb
          obtain ⟨b1, b2, b3, b4, b5, b6⟩ := a3 b hb
          have ht : t = s.now := by
            have hn' : s.report = none := hn
            have hb' : s.buf = some b := hb
            rw [hn', hb'] at h4
            simpa using h4
          exact ⟨b1, b2, by simp only [ht]; exact b3, b4, b5, by simp only [ht]; exact b6⟩
        · intro b j hj
          obtain ⟨c1, c2, c3, c4, c5, c6, c7, c8, c9⟩ := hl4 b j hj
          refine ⟨c1, c2, c3, c4, c5, c6, c7, ?_, c9⟩
          intro b' hb'
          obtain ⟨d1, d2, d3, d4, d5⟩ := c8 b' hb'
          exact ⟨d1, d2, Nat.le_trans d3 h1, d4, d5⟩
    · cases hs
  | tick =>
    simp only [step] at hs
    split at hs
    · rename_i hn
      cases hs
      refine ⟨h.chain, h.nonempty, h.jobs, ?_, ?_, ?_, h.tasks⟩
      · show s.now ≤ s.next + period
        omega
      · show s.next + period ≤ s.now + period
        omega
      · intro r' l' hr'
        have hrr : r' = r := by
          have : s.rounds = r' :: l' := hr'
          rw [hr] at this
          cases this; rfl
        subst hrr
        refine ⟨hl1, hl2, ?_, ?_⟩
        · intro hrep
          obtain ⟨a1, a2, a3, a4⟩ := hl3 hrep
          refine ⟨?_, ?_, ?_, ?_⟩
          · show r'.tick + period ≤ s.next + period
            omega
          · show r'.take ≤ s.next + period
            omega
          · intro t ht
            have ht' : some (s.buf.getD s.next) = some t := ht
            show _ ∧ _ ∧ t ≤ s.now ∧ _ ∧ t + period ≤ s.next + period ∧ s.now ≤ _
            cases hb : s.buf with
            | none =>
              rw [hb] at ht'
              simp only [Option.getD_none, Option.some.injEq] at ht'
              subst ht'
              have := a4 hb
              exact ⟨a2, a1, by omega, this, by omega, by omega⟩
            | some b =>
              rw [hb] at ht'
              simp only [Option.getD_some, Option.some.injEq] at ht'
              subst ht'
              obtain ⟨b1, b2, b3, b4, b5, b6⟩ := a3 b hb
              exact ⟨b1, b2, b3, b4, by omega, b6⟩
          · intro hb
            cases hb
        · intro t j hj
          obtain ⟨c1, c2, c3, c4, c5, c6, c7, c8, c9⟩ := hl4 t j hj
          refine ⟨c1, c2, c3, c4, c5, ?_, ?_, ?_, ?_⟩
          · show t + period ≤ s.next + period
            omega
          · show j.began ≤ s.next + period
            omega
          · intro b hb
            have hb' : some (s.buf.getD s.next) = some b := hb
            show _ ∧ _ ∧ b ≤ s.now ∧ _ ∧ b + period ≤ s.next + period
            cases hbb : s.buf with
            | none =>
              rw [hbb] at hb'
              simp only [Option.getD_none, Option.some.injEq] at hb'
              subst hb'
              have := c9 hbb
              exact ⟨c7, c6, by omega, this, by omega⟩
            | some b0 =>
              rw [hbb] at hb'
              simp only [Option.getD_some, Option.some.injEq] at hb'
              subst hb'
              obtain ⟨d1, d2, d3, d4, d5⟩ := c8 b0 hbb
              exact ⟨d1, d2, d3, d4, by omega⟩
          · intro hb; cases hb
    · cases hs
  | take calls =>
    simp only [step] at hs
    cases hrep : s.report with
    | some x => rw [hrep] at hs; cases hs
    | none =>
      cases hb : s.buf with
      | none => rw [hrep, hb] at hs; cases hs
      | some t =>
        rw [hrep, hb] at hs
        simp only [Option.some.injEq] at hs
        subst hs
        obtain ⟨a1, a2, a3, a4⟩ := hl3 hrep
        obtain ⟨b1, b2, b3, b4, b5, b6⟩ := a3 t hb
        refine ⟨h.chain, h.nonempty, ?_, h.nowNext, h.nextNow, ?_, h.tasks⟩
        · intro j hj
          simp only [TS.jobs, Option.map_some, Option.toList_some, List.singleton_append, List.mem_cons] at hj
          rcases hj with rfl | hj
          · exact jobOk_new _ _
          · exact h.jobs j (by simp only [TS.jobs]; exact List.mem_append_right _ hj)
        · intro r' l' hr'
          have hrr : r' = r := by
            have : s.rounds = r' :: l' := hr'
            rw [hr] at this
            cases this; rfl
          subst hrr
          refine ⟨hl1, hl2, (fun hn => by cases hn), ?_⟩
          intro t' j hj
          simp only [Option.some.injEq, Prod.mk.injEq] at hj
          obtain ⟨rfl, rfl⟩ := hj
          have hnn := h.nowNext
          have hnx := h.nextNow
          simp only [Job.new]
          refine ⟨hl1, b1, b2, b3, ?_, b5, hnn, ?_, ?_⟩
          · omega
          · intro b hb; cases hb
          · intro _; exact hnx
  | reportAnswer =>
    simp only [step] at hs
    cases hrep : s.report with
    | none => rw [hrep] at hs; cases hs
    | some x =>
      obtain ⟨t, j⟩ := x
      rw [hrep] at hs
      simp only at hs
      split at hs
      · cases hs
      · rename_i hl
        cases hs
        have hjm : j ∈ s.jobs := by simp only [TS.jobs, hrep]; exact List.mem_append_left _ (by simp)
        refine ⟨h.chain, h.nonempty, ?_, h.nowNext, h.nextNow, ?_, h.tasks⟩
        · intro j' hj'
          simp only [TS.jobs, Option.map_some, Option.toList_some, List.singleton_append, List.mem_cons] at hj'
          rcases hj' with rfl | hj'
          · exact jobOk_answer (h.jobs j hjm) hl
          · exact h.jobs j' (by simp only [TS.jobs]; exact List.mem_append_right _ hj')
        · intro r' l' hr'
          have hrr : r' = r := by
            have : s.rounds = r' :: l' := hr'
            rw [hr] at this
            cases this; rfl
          subst hrr
          refine ⟨hl1, hl2, (fun hn => by cases hn), ?_⟩
          intro t' j' hj'
          simp only [Option.some.injEq, Prod.mk.injEq] at hj'
          obtain ⟨rfl, rfl⟩ := hj'
          exact hl4 t j hrep
  | launch calls =>
    simp only [step] at hs
    cases hrep : s.report with
    | none => rw [hrep] at hs; cases hs
    | some x =>
      obtain ⟨t, j⟩ := x
      rw [hrep] at hs
      simp only at hs
      split at hs
      · rename_i hl
        cases hs
        have hjm : j ∈ s.jobs := by simp only [TS.jobs, hrep]; exact List.mem_append_left _ (by simp)
        have hjo := h.jobs j hjm
        have hage := jobOk_age hjo
        obtain ⟨c1, c2, c3, c4, c5, c6, c7, c8, c9⟩ := hl4 t j hrep
        have hbn := Nat.le_trans hjo.began hjo.since
        refine ⟨?_, by simp, ?_, h.nowNext, h.nextNow, ?_, ?_⟩
        · show Chain (_ :: s.rounds)
          have hch := h.chain
          rw [hr] at hch ⊢
          exact ⟨⟨c1, c2, c3, c4, hbn, c5, hage⟩, hch⟩
        · intro j' hj'
          simp only [TS.jobs, Option.map_none, Option.toList_none, List.nil_append, List.mem_cons] at hj'
          rcases hj' with rfl | hj'
          · exact jobOk_new _ _
          · exact h.jobs j' (by simp only [TS.jobs]; exact List.mem_append_right _ hj')
        · intro r' l' hr'
          simp only [List.cons.injEq] at hr'
          obtain ⟨rfl, _⟩ := hr'
          refine ⟨Nat.le_refl _, hbn, ?_, (fun t j hj => by cases hj)⟩
          intro _
          refine ⟨c6, c7, ?_, c9⟩
          intro b hb
          obtain ⟨d1, d2, d3, d4, d5⟩ := c8 b hb
          exact ⟨d1, d2, d3, d4, d5, Nat.le_max_right _ _⟩
        · simp only [List.map_cons, Job.new]
          exact h.tasks.cons_cons _
      · cases hs
  | answer i =>
    simp only [step] at hs
    cases hi : s.tasks[i]? with
    | none => rw [hi] at hs; cases hs
    | some j =>
      rw [hi] at hs
      simp only at hs
      split at hs
      · cases hs
      · rename_i hl
        cases hs
        have hjm : j ∈ s.jobs := by simp only [TS.jobs]; exact List.mem_append_right _ (List.mem_of_getElem? hi)
        refine ⟨h.chain, h.nonempty, ?_, h.nowNext, h.nextNow, h.last, ?_⟩
        · intro j' hj'
          simp only [TS.jobs] at hj'
          rcases List.mem_append.1 hj' with hj' | hj'
          · exact h.jobs j' (by simp only [TS.jobs]; exact List.mem_append_left _ hj')
          · rcases List.mem_or_eq_of_mem_set hj' with hj' | rfl
            · exact h.jobs j' (by simp only [TS.jobs]; exact List.mem_append_right _ hj')
            · exact jobOk_answer (h.jobs j hjm) hl
        · show ((s.tasks.set i (j.answer s.now)).map (·.began)).Sublist _
          rw [set_map_began (j' := j.answer s.now) hi rfl]
          exact h.tasks
  | finish i =>
    simp only [step] at hs
    cases hi : s.tasks[i]? with
    | none => rw [hi] at hs; cases hs
    | some j =>
      rw [hi] at hs
      simp only at hs
      split at hs
      · cases hs
        refine ⟨h.chain, h.nonempty, ?_, h.nowNext, h.nextNow, h.last, ?_⟩
        · intro j' hj'
          simp only [TS.jobs] at hj'
          rcases List.mem_append.1 hj' with hj' | hj'
          · exact h.jobs j' (by simp only [TS.jobs]; exact List.mem_append_left _ hj')
          · exact h.jobs j' (by simp only [TS.jobs]; exact List.mem_append_right _ (List.mem_of_mem_eraseIdx hj'))
        · exact ((List.eraseIdx_sublist s.tasks i).map _).trans h.tasks
      · cases hs

theorem inv_reach {s : TS} (h : Reach s) : Inv s := by
  induction h with
  | start calls => exact inv_start calls
  | step l _ hs ih => exact inv_step ih hs

/-! ### What a chain of rounds means -/

theorem chain_tail {r : Round} {l : List Round} (h : Chain (r :: l)) : Chain l := by
  cases l with
  | nil => trivial
  | cons r' l => exact h.2

theorem chain_linked {l : List Round} (h : Chain l) : ∀ (k : Nat) (r r' : Round), l[k]? = some r → l[k + 1]? = some r' →
    Linked r r' := by
  induction l with
  | nil => intro k r r' h; simp at h
  | cons a l ih =>
    intro k r r' h1 h2
    cases k with
    | zero =>
      cases l with
      | nil => simp at h2
      | cons b l =>
        simp only [List.getElem?_cons_zero, Option.some.injEq, List.getElem?_cons_succ] at h1 h2
        subst h1; subst h2
        exact h.1
    | succ k => exact ih (chain_tail h) k r r' (by simpa using h1) (by simpa using h2)

theorem chain_take {l : List Round} (h : Chain l) : ∀ (k : Nat) (r : Round), l[k]? = some r → r.take ≤ r.start := by
  induction l with
  | nil => intro k r h; simp at h
  | cons a l ih =>
    intro k r h1
    cases k with
    | zero =>
      simp only [List.getElem?_cons_zero, Option.some.injEq] at h1
      subst h1
      cases l with
      | nil => exact h
      | cons b l => exact h.1.takeStart
    | succ k => exact ih (chain_tail h) k r (by simpa using h1)

/-- Starts of rounds that are not neighbours are as far apart as their ticks. -/
theorem chain_far : ∀ {l : List Round} {r : Round}, Chain (r :: l) → ∀ (q : Nat) (r' : Round), l[q + 1]? = some r' →
    r'.start + q * period ≤ r.tick := by
  intro l
  induction l with
  | nil => intro r _ q r' h; simp at h
  | cons a l ih =>
    intro r h q r' hq
    simp only [List.getElem?_cons_succ] at hq
    cases q with
    | zero =>
      cases l with
      | nil => simp at hq
      | cons b l =>
        simp only [List.getElem?_cons_zero, Option.some.injEq] at hq
        subst hq
        have h1 := h.1.takeTick
        have h2 := h.2.1.startTake
        omega
    | succ q =>
      have h1 := ih h.2 q r' hq
      have h2 := h.1.ticks
      rw [Nat.add_mul]
      omega

/-- Times, latest first, of which any `m + 2` span at least `m - 1` periods. -/
def Spaced : List Nat → Prop
  | [] => True
  | t :: l => (∀ (q u : Nat), l[q]? = some u → u + q * period ≤ t + period) ∧ Spaced l

theorem chain_spaced : ∀ {l : List Round}, Chain l → Spaced (l.map (·.start)) := by
  intro l
  induction l with
  | nil => intro _; trivial
  | cons r l ih =>
    intro h
    refine ⟨?_, ih (chain_tail h)⟩
    intro q u hq
    rw [List.getElem?_map] at hq
    obtain ⟨r', hr', rfl⟩ := Option.map_eq_some_iff.1 hq
    show r'.start + q * period ≤ r.start + period
    cases q with
    | zero =>
      have h1 := chain_linked h 0 r r' rfl (by simpa using hr')
      have := h1.startTake
      have := h1.takeStart
      omega
    | succ q =>
      have h1 := chain_far h q r' hr'
      cases l with
      | nil => simp at hr'
      | cons b l =>
        have h2 := h.1.tickTake
        have h3 := h.1.takeStart
        rw [Nat.add_mul]
        omega

theorem sublist_position {α : Type} {l m : List α} (h : l.Sublist m) : ∀ (q : Nat) (x : α), l[q]? = some x →
    ∃ q', q ≤ q' ∧ m[q']? = some x := by
  induction h with
  | slnil => intro q x h; simp at h
  | cons a _ ih =>
    intro q x hq
    obtain ⟨q', h1, h2⟩ := ih q x hq
    exact ⟨q' + 1, by omega, by simpa using h2⟩
  | cons_cons a _ ih =>
    intro q x hq
    cases q with
    | zero => exact ⟨0, Nat.le_refl _, by simpa using hq⟩
    | succ q =>
      obtain ⟨q', h1, h2⟩ := ih q x (by simpa using hq)
      exact ⟨q' + 1, by omega, by simpa using h2⟩

theorem spaced_sublist {l m : List Nat} (h : l.Sublist m) (hm : Spaced m) : Spaced l := by
  induction h with
  | slnil => trivial
  | cons a _ ih => exact ih hm.2
  | cons_cons a hs ih =>
    refine ⟨?_, ih hm.2⟩
    intro q u hq
    obtain ⟨q', h1, h2⟩ := sublist_position hs q u hq
    have h3 := hm.1 q' u h2
    have h4 : q * period ≤ q' * period := Nat.mul_le_mul_right _ h1
    omega

end Timer
open Timer

/-! ### C121 -/

/-- C121, full statement.  FALSE of the code: the loop asks all sources, one after the other, before it starts the tasks. -/
def C121_every_minute_statement : Prop :=
  ∀ (s : TS), Reach s → ∀ (k : Nat) (r r' : Round), s.rounds[k]? = some r → s.rounds[k + 1]? = some r' →
    r.start ≤ r'.start + period

/-- A source that does not answer. -/
def Timer.exSilent : List Timer.Label :=
  [.finish 0, .advance 60000000000, .tick, .take 1, .advance 70000000000, .reportAnswer, .launch 0]

theorem C121_every_minute_fails : ¬ C121_every_minute_statement := by
  intro h
  have ht : (exec (Timer.start 0) exSilent).map (·.rounds) =
      some [⟨60000000000, 60000000000, 1, 70000000000⟩, ⟨0, 0, 0, 0⟩] := by decide +kernel
  cases he : exec (Timer.start 0) exSilent with
  | none => rw [he] at ht; cases ht
  | some s =>
    rw [he] at ht
    simp only [Option.map_some, Option.some.injEq] at ht
    have := h s (reach_exec _ (.start 0) he) 0 ⟨60000000000, 60000000000, 1, 70000000000⟩ ⟨0, 0, 0, 0⟩
      (by rw [ht]; rfl) (by rw [ht]; rfl)
    revert this
    decide

/-- C121, what holds.  The tasks of a round start at most a minute after those of the round before and the time the report
takes, which is at most ten seconds for each source asked; the loop never starts rounds faster than the ticker ticks.
Missing: the minute itself (`C121_every_minute_fails`). -/
theorem C121_every_minute_partial (s : TS) (h : Reach s) (k : Nat) (r r' : Round) (hr : s.rounds[k]? = some r)
    (hr' : s.rounds[k + 1]? = some r') :
    r.start ≤ r'.start + period + r.calls * limit ∧ r.take ≤ max (r'.take + period) r'.start ∧
    r.start ≤ r.take + r.calls * limit ∧ (r.calls = 0 → r.start ≤ r'.start + period) ∧ r'.tick + period ≤ r.tick := by
  have hl := chain_linked (inv_reach h).chain k r r' hr hr'
  have h1 := hl.soon
  have h2 := hl.report
  have h3 := chain_take (inv_reach h).chain (k + 1) r' hr'
  refine ⟨by omega, h1, h2, ?_, hl.ticks⟩
  intro h0
  rw [h0] at h2
  omega

/-- C121 is not empty: two rounds. -/
theorem C121_example : ∃ s r r', Reach s ∧ s.rounds[0]? = some r ∧ s.rounds[1]? = some r' ∧ r.calls = 1 ∧
    r.start = r'.start + period + limit := by
  have ht : (exec (Timer.start 0) exSilent).map (·.rounds) =
      some [⟨60000000000, 60000000000, 1, 70000000000⟩, ⟨0, 0, 0, 0⟩] := by decide +kernel
  cases he : exec (Timer.start 0) exSilent with
  | none => rw [he] at ht; cases ht
  | some s =>
    rw [he] at ht
    simp only [Option.map_some, Option.some.injEq] at ht
    exact ⟨s, ⟨60000000000, 60000000000, 1, 70000000000⟩, ⟨0, 0, 0, 0⟩, reach_exec _ (.start 0) he,
      by rw [ht]; rfl, by rw [ht]; rfl, rfl, rfl⟩

/-! ### C122 -/

/-- C122, full statement.  FALSE of the code: nothing waits for the tasks of the round before. -/
def C122_one_round_statement : Prop := ∀ (s : TS), Reach s → s.tasks.length ≤ 1

/-- C122, what holds.  If no running task asks more than `calls` addresses, at most `calls * 10 s / 60 s + 3` tasks of the same
kind run at the same time.  Missing: that there is only one (`C122_one_round_fails`); there is no bound without one on the
number of addresses (`C122_unbounded`). -/
theorem C122_one_round_partial (s : TS) (h : Reach s) (calls : Nat) (hc : ∀ j ∈ s.tasks, j.calls ≤ calls) :
    s.tasks.length ≤ calls * limit / period + 3 := by
  have hi := inv_reach h
  have hsp := spaced_sublist hi.tasks (chain_spaced hi.chain)
  have hjob : ∀ j ∈ s.tasks, JobOk s.now j := fun j hj => hi.jobs j (by simp only [TS.jobs]; exact List.mem_append_right _ hj)
  have hp : period = 60000000000 := rfl
  cases ht : s.tasks with
  | nil => simp
  | cons a l =>
    rw [ht] at hsp
    have ha := hjob a (by rw [ht]; exact List.mem_cons_self)
    have hab := Nat.le_trans ha.began ha.since
    by_cases hl : l = []
    · subst hl; simp
    · have hlen : 0 < l.length := List.length_pos_iff.2 hl
      have hlt : l.length - 1 < l.length := by omega
      have hlast : l[l.length - 1]? = some l[l.length - 1] := List.getElem?_eq_getElem hlt
      have hb := hjob l[l.length - 1] (by rw [ht]; exact List.mem_cons_of_mem _ (List.getElem_mem hlt))
      have hcb := hc l[l.length - 1] (by rw [ht]; exact List.mem_cons_of_mem _ (List.getElem_mem hlt))
      have h1 : (l[l.length - 1]).began + (l.length - 1) * period ≤ a.began + period := hsp.1 (l.length - 1) (l[l.length - 1]).began (by
        show (l.map (·.began))[l.length - 1]? = _
        rw [List.getElem?_map, hlast]; rfl)
      have h2 := jobOk_age hb
      have h3 : (l[l.length - 1]).calls * limit ≤ calls * limit := Nat.mul_le_mul_right _ hcb
      have h4 : (l.length - 1) * period ≤ calls * limit + period := by omega
      have h5 : l.length - 2 ≤ calls * limit / period := by
        rw [Nat.le_div_iff_mul_le (by decide)]
        rcases Nat.lt_or_ge l.length 2 with h6 | h6
        · have : l.length - 2 = 0 := by omega
          rw [this]; omega
        · have : l.length - 1 = l.length - 2 + 1 := by omega
          rw [this, Nat.add_mul] at h4
          omega
      rw [List.length_cons]
      omega

namespace Timer

/-- The task at position `i` gets an answer. -/
theorem answer_one {s : TS} (h : Reach s) {i : Nat} {j : Job} (hi : s.tasks[i]? = some j) (hl : j.left ≠ 0) :
    Reach { s with tasks := s.tasks.set i (j.answer s.now) } :=
  .step (.answer i) h (by simp only [step, hi, if_neg hl])

/-- All tasks get an answer. -/
theorem answer_all {s : TS} : ∀ (l done : List Job), Reach { s with tasks := done ++ l } → (∀ j ∈ l, j.left ≠ 0) →
    Reach { s with tasks := done ++ l.map (·.answer s.now) } := by
  intro l
  induction l with
  | nil => intro done h _; exact h
  | cons a l ih =>
    intro done h hl
    have h1 := answer_one h (i := done.length) (j := a) (by simp) (hl a List.mem_cons_self)
    have h2 : (done ++ a :: l).set done.length (a.answer s.now) = (done ++ [a.answer s.now]) ++ l := by simp
    simp only [h2] at h1
    have h3 := ih (done ++ [a.answer s.now]) h1 (fun j hj => hl j (List.mem_cons_of_mem _ hj))
    simpa using h3

/-- Ten seconds in which no call is answered before its limit. -/
theorem wait_limit {s : TS} (h : Reach s) (hr : s.report = none) (hb : s.buf = none) (hn : s.now + limit ≤ s.next)
    (hs : ∀ j ∈ s.tasks, j.since = s.now ∧ j.left ≠ 0) :
    Reach { s with now := s.now + limit, tasks := s.tasks.map (·.answer (s.now + limit)) } := by
  have h1 : Reach { s with now := s.now + limit } := by
    refine .step (.advance (s.now + limit)) h ?_
    simp only [step]
    rw [if_pos]
    simp only [mayPass, hr, hb, Bool.and_eq_true, decide_eq_true_eq, List.all_eq_true, TS.jobs, Option.map_none,
      Option.toList_none, List.nil_append, Option.isNone_none, Bool.or_true, Bool.true_or, and_true]
    refine ⟨⟨by omega, hn⟩, ?_⟩
    intro j hj
    obtain ⟨h1, h2⟩ := hs j hj
    simp only [Job.deadline, if_neg h2, h1]
    exact Nat.le_refl _
  exact answer_all (s := { s with now := s.now + limit }) s.tasks [] h1 (fun j hj => (hs j hj).2)

/-- `m` times ten seconds. -/
theorem wait_many : ∀ (m : Nat) {s : TS}, Reach s → s.report = none → s.buf = none → s.now + m * limit ≤ s.next →
    (∀ j ∈ s.tasks, j.since = s.now ∧ m ≤ j.left) →
    ∃ tasks, tasks.length = s.tasks.length ∧ Reach { s with now := s.now + m * limit, tasks := tasks } ∧
      ∀ (c : Nat), (∀ j ∈ s.tasks, c + m ≤ j.left) → ∀ j ∈ tasks, j.since = s.now + m * limit ∧ c ≤ j.left := by
  intro m
  induction m with
  | zero =>
    intro s h _ _ _ hs
    refine ⟨s.tasks, rfl, by simpa using h, ?_⟩
    intro c hc j hj
    exact ⟨by rw [(hs j hj).1]; omega, by have := hc j hj; omega⟩
  | succ m ih =>
    intro s h hr hb hn hs
    have hm : (m + 1) * limit = m * limit + limit := by rw [Nat.add_mul]; omega
    have h1 := wait_limit h hr hb (by omega) (fun j hj => ⟨(hs j hj).1, by have := (hs j hj).2; omega⟩)
    obtain ⟨tasks, h2, h3, h4⟩ := ih h1 hr hb (by simp only; omega) (by
      intro j hj
      obtain ⟨j0, hj0, rfl⟩ := List.mem_map.1 hj
      refine ⟨rfl, ?_⟩
      have := (hs j0 hj0).2
      simp only [Job.answer]; omega)
    refine ⟨tasks, by simpa using h2, ?_, ?_⟩
    · have he : s.now + limit + m * limit = s.now + (m + 1) * limit := by omega
      simp only [he] at h3
      exact h3
    · intro c hc j hj
      have := h4 c (by
        intro j' hj'
        obtain ⟨j0, hj0, rfl⟩ := List.mem_map.1 hj'
        have := hc j0 hj0
        simp only [Job.answer]; omega) j hj
      simp only at this
      exact ⟨by rw [this.1]; omega, this.2⟩

/-- A minute and the next round. -/
theorem next_round {s : TS} (h : Reach s) (hr : s.report = none) (hb : s.buf = none) (hn : s.next = s.now + period)
    (calls : Nat) (hs : ∀ j ∈ s.tasks, j.since = s.now ∧ calls + 6 ≤ j.left) :
    ∃ s', Reach s' ∧ s'.report = none ∧ s'.buf = none ∧ s'.next = s'.now + period ∧
      s'.tasks.length = s.tasks.length + 1 ∧ ∀ j ∈ s'.tasks, j.since = s'.now ∧ calls ≤ j.left := by
  have h6 : 6 * limit = period := by decide
  obtain ⟨tasks, h1, h2, h3⟩ := wait_many 6 h hr hb (by rw [hn]; omega)
    (fun j hj => ⟨(hs j hj).1, by have := (hs j hj).2; omega⟩)
  have h3 := h3 calls (fun j hj => (hs j hj).2)
  rw [h6] at h2 h3
  have h4 := Reach.step .tick h2 (by simp only [step]; rw [if_pos hn.symm])
  have h5 : Reach ⟨s.now + period, s.next + period, none, some (s.buf.getD s.next, Job.new (s.now + period) 0), s.rounds,
      tasks⟩ := Reach.step (.take 0) h4 (by simp only [step, hr])
  have h7 : Reach ⟨s.now + period, s.next + period, none, none,
      ⟨s.buf.getD s.next, s.now + period, 0, s.now + period⟩ :: s.rounds, Job.new (s.now + period) calls :: tasks⟩ :=
    Reach.step (.launch calls) h5 (by simp only [step, Job.new, if_true])
  refine ⟨_, h7, rfl, rfl, ?_, ?_, ?_⟩
  · simp only; omega
  · simp only [List.length_cons, h1]
  · intro j hj
    rcases List.mem_cons.1 hj with rfl | hj
    · exact ⟨rfl, Nat.le_refl _⟩
    · exact h3 j hj

theorem many_rounds : ∀ (n calls : Nat), ∃ s, Reach s ∧ s.report = none ∧ s.buf = none ∧ s.next = s.now + period ∧
    s.tasks.length = n + 1 ∧ ∀ j ∈ s.tasks, j.since = s.now ∧ calls ≤ j.left := by
  intro n
  induction n with
  | zero =>
    intro calls
    refine ⟨_, .start calls, rfl, rfl, by simp [Timer.start], rfl, ?_⟩
    intro j hj
    simp only [Timer.start, List.mem_singleton] at hj
    subst hj
    exact ⟨rfl, Nat.le_refl _⟩
  | succ n ih =>
    intro calls
    obtain ⟨s, h1, h2, h3, h4, h5, h6⟩ := ih (calls + 6)
    obtain ⟨s', g1, g2, g3, g4, g5, g6⟩ := next_round h1 h2 h3 h4 calls h6
    exact ⟨s', g1, g2, g3, g4, by omega, g6⟩

end Timer

/-- C122: with enough addresses that do not answer, any number of tasks run at the same time. -/
theorem C122_unbounded (n : Nat) : ∃ s, Reach s ∧ n < s.tasks.length := by
  obtain ⟨s, h1, _, _, _, h5, _⟩ := many_rounds n 0
  exact ⟨s, h1, by omega⟩

theorem C122_one_round_fails : ¬ C122_one_round_statement := by
  intro h
  obtain ⟨s, h1, h2⟩ := C122_unbounded 1
  have := h s h1
  omega

/-- C122: seven addresses that do not answer are enough for two tasks at the same time, which the bound allows. -/
theorem C122_example : ∃ s, Reach s ∧ s.tasks.length = 2 ∧ ∀ j ∈ s.tasks, j.calls ≤ 7 := by
  have ht : (exec (Timer.start 7)
      [.advance 10000000000, .answer 0, .advance 20000000000, .answer 0, .advance 30000000000, .answer 0,
       .advance 40000000000, .answer 0, .advance 50000000000, .answer 0, .advance 60000000000, .answer 0, .tick, .take 0,
       .launch 7]).map (fun s => (s.tasks.length, s.tasks.all fun j => decide (j.calls ≤ 7))) = some (2, true) := by
    decide +kernel
  generalize hls : [Timer.Label.advance 10000000000, .answer 0, .advance 20000000000, .answer 0, .advance 30000000000, .answer 0,
       .advance 40000000000, .answer 0, .advance 50000000000, .answer 0, .advance 60000000000, .answer 0, .tick, .take 0,
       .launch 7] = ls at ht
  cases he : exec (Timer.start 7) ls with
  | none => rw [he] at ht; cases ht
  | some s =>
    rw [he] at ht
    simp only [Option.map_some, Option.some.injEq, Prod.mk.injEq, List.all_eq_true, decide_eq_true_eq] at ht
    exact ⟨s, reach_exec _ (.start 7) he, ht.1, ht.2⟩

end Veri
