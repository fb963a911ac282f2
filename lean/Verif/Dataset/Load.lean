import Verif.Dataset.Index
/-
Loading the index while the saves it starts run (C80), and concurrent upgrades of a configuration (C78).
-/
set_option autoImplicit false
namespace Veri
open DS

namespace DS
/-- While the process starts nobody deletes data sets, and the janitor and the clean-up do not run. -/
def Starting (l : Label) : Prop :=
  l ≠ .janitor ∧ (∀ k, l ≠ .delete k) ∧ (∀ i o ks, l ≠ .reload i o ks) ∧ l ≠ .loadBegin

theorem cutLine_line (l r : Bytes) (h : (10 : UInt8) ∉ l) : cutLine (l ++ 10 :: r) = (l ++ [10], r) := by
  unfold cutLine
  have h1 : (l ++ 10 :: r).takeWhile (· ≠ (10 : UInt8)) = l := by
    rw [List.takeWhile_append_of_pos (by intro a ha; simp only [decide_eq_true_eq]; intro e; exact h (e ▸ ha))]
    simp
  have h2 : (l ++ 10 :: r).dropWhile (· ≠ (10 : UInt8)) = 10 :: r := by
    rw [List.dropWhile_append_of_pos (by intro a ha; simp only [decide_eq_true_eq]; intro e; exact h (e ▸ ha))]
    simp
  rw [h1, h2]
  rfl

/-- In the table. -/
def Has (m : DL) (k : String) : Prop := (m.get? k).isSome = true

theorem has_get {X : XEnv} {now : Int} {m m' : DL} {k k' : String} {d : Data} (hw : WF m)
    (h : Has m k) (hg : get X now m k' = .ok (m', d)) : Has m' k := by
  by_cases hk : k = k'
  · subst hk
    have := get_data hw hg
    unfold Has
    cases hx : AMap.get? m' k with
    | none => rw [hx] at this; exact absurd this (by simp)
    | some x => rfl
  · unfold Has
    rw [(get_wf hw hg).2.1 _ hk]
    exact h

theorem create_has {now : Int} {m m' : DL} {c : DataConfig} (hw : WF m) (hg : createIfNotExists now m c = .ok m') :
    Has m' c.name := by
  obtain ⟨m1, h1, _, h3, _⟩ := create_ok (now := now) hw c
  rw [h1] at hg
  injection hg with hg
  subst hg
  unfold Has
  cases hl : lookup now m1 c.name with
  | none => rw [hl] at h3; exact absurd h3 (by simp)
  | some x => rw [(lookup_some.mp hl).1]; rfl

theorem has_create {now : Int} {m m' : DL} {c : DataConfig} {k : String} (hw : WF m)
    (h : Has m k) (hg : createIfNotExists now m c = .ok m') : Has m' k := by
  by_cases hk : k = c.name
  · subst hk; exact create_has hw hg
  · unfold Has
    rw [(create_wf hw hg).2 _ hk]
    exact h

/-- While the process starts, what is in the table stays there. -/
theorem has_step {X : XEnv} {s s' : DState} {l : Label} {k : String} (hw : WF s.list) (hp : Starting l)
    (hs : step X s l = some s') (h : Has s.list k) : Has s'.list k := by
  cases step_eff hw hs with
  | tick _ he => subst he; exact h
  | create h0 h1 h2 he => exact has_get h1 (has_create hw h h0) h2
  | use h1 he => exact has_get hw h h1
  | delete he => exact absurd rfl (hp.2.1 _)
  | janitor he => exact absurd rfl hp.1
  | reload h1 he => exact absurd rfl (hp.2.2.1 _ _ _)
  | walkBegin _ he => subst he; exact h
  | walkOpen _ _ _ he => subst he; exact h
  | walkStep _ h1 _ he => exact has_get hw h h1
  | walkFlush _ _ _ _ he => subst he; exact h
  | loadBegin he => subst he; exact h
  | loadRead he => subst he; exact h
  | loadSkip he => subst he; exact h
  | loadLine h1 _ _ => exact has_create hw h h1
  | loadEnd he => subst he; exact h

theorem content_cons (X : XEnv) (c : DataConfig) (cs : List DataConfig) :
    content X (c :: cs) = (X.marshal c).getD [] ++ 10 :: content X cs := by
  simp [content, line]

theorem mem_split {b : Bytes} (h : (10 : UInt8) ∈ b) : ∃ l r, b = l ++ 10 :: r ∧ (10 : UInt8) ∉ l := by
  induction b with
  | nil => simp at h
  | cons x xs ih =>
    by_cases hx : x = 10
    · exact ⟨[], xs, by simp [hx], by simp⟩
    · rcases List.mem_cons.mp h with e | h
      · exact absurd e.symm hx
      · obtain ⟨l, r, h1, h2⟩ := ih h
        refine ⟨x :: l, r, by simp [h1], fun hm => ?_⟩
        rcases List.mem_cons.mp hm with e | hm
        · exact hx e.symm
        · exact h2 hm

theorem split_unique {l r l' r' : Bytes} (h : l ++ 10 :: r = l' ++ 10 :: r') (h1 : (10 : UInt8) ∉ l) (h2 : (10 : UInt8) ∉ l') :
    l = l' ∧ r = r' := by
  have e1 := cutLine_line l r h1
  rw [h, cutLine_line l' r' h2] at e1
  injection e1 with e1 e2
  exact ⟨(List.append_cancel_right e1).symm, e2.symm⟩

/-- One line is loaded. -/
theorem loadLine_step {X : XEnv} (hX : X.Ok) {s s' : DState} {pos : Nat} {buf rest : Bytes} {cs' : List DataConfig}
    (hw : WF s.list) (hl : s.loader = some (pos, buf)) (hc : buf ++ rest = content X cs') (hz : ∀ c ∈ cs', NoNegZero c)
    (h : step X s .loadLine = some s') :
    ∃ c cs'' buf', cs' = c :: cs'' ∧ s'.loader = some (pos, buf') ∧ buf' ++ rest = content X cs'' ∧ s'.file = s.file ∧
      s'.walks = s.walks ∧ (Finite c → Has s'.list c.name) := by
  simp only [step, hl] at h
  split at h
  · rename_i hm
    obtain ⟨l, r, e1, e2⟩ := mem_split hm
    subst e1
    cases cs' with
    | nil =>
      have : content X [] = [] := rfl
      rw [this] at hc
      simp at hc
    | cons c cs'' =>
      obtain ⟨hb, hnl⟩ := back_plain hX (hz c (by simp))
      rw [content_cons, List.append_assoc, List.cons_append] at hc
      obtain ⟨e3, e4⟩ := split_unique hc e2 hnl
      have hcut := cutLine_line l r e2
      have hline : l ++ [10] = line X c := by rw [e3]; rfl
      unfold back at hb
      rw [hcut] at h
      simp only at h
      rw [hline, hb] at h
      by_cases hf : Finite c
      · rw [if_pos hf] at h
        simp only at h
        obtain ⟨m1, g1, _⟩ := create_ok (now := s.now) hw c
        rw [g1] at h
        simp only [Option.some.injEq] at h
        subst h
        exact ⟨c, cs'', r, rfl, rfl, e4, rfl, rfl, fun _ => create_has hw g1⟩
      · rw [if_neg hf] at h
        simp only [Option.some.injEq] at h
        subst h
        exact ⟨c, cs'', r, rfl, rfl, e4, rfl, rfl, fun hf' => absurd hf' hf⟩
  · exact absurd h (by simp)

theorem content_no_nl {X : XEnv} {cs : List DataConfig} (h : (10 : UInt8) ∉ content X cs) : cs = [] := by
  cases cs with
  | nil => rfl
  | cons c cs => exact absurd (by rw [content_cons]; simp) h

/-- The parts of a state that the loader does not change, for the other steps. -/
theorem loader_frame {X : XEnv} {s s' : DState} {l : Label} (hw : WF s.list) (hp : Starting l) (hs : step X s l = some s')
    (h1 : l ≠ .loadRead) (h2 : l ≠ .loadLine) (h3 : l ≠ .loadEnd) : s'.loader = s.loader := by
  cases step_eff hw hs with
  | tick _ he => subst he; rfl
  | create _ _ _ he => rw [he]
  | use _ he => rw [he]
  | delete he => subst he; rfl
  | janitor he => subst he; rfl
  | reload _ he => rw [he]
  | walkBegin _ he => subst he; rfl
  | walkOpen _ _ _ he => subst he; rfl
  | walkStep _ _ _ he => rw [he]
  | walkFlush _ _ _ _ he => subst he; rfl
  | loadBegin he => exact absurd rfl hp.2.2.2
  | loadRead he => exact absurd rfl h1
  | loadSkip he => exact absurd rfl h2
  | loadLine _ _ _ => exact absurd rfl h2
  | loadEnd he => exact absurd rfl h3

theorem loadEnd_inv {X : XEnv} {s s' : DState} (h : step X s .loadEnd = some s') :
    ∃ pos buf, s.loader = some (pos, buf) ∧ (10 : UInt8) ∉ buf ∧ s.file.length ≤ pos ∧ s' = { s with loader := none } := by
  simp only [step] at h
  cases hl : s.loader with
  | none => rw [hl] at h; exact absurd h (by simp)
  | some r =>
    rw [hl] at h
    simp only at h
    split at h
    · rename_i hc
      injection h with h
      exact ⟨r.1, r.2, rfl, hc.1, hc.2, h.symm⟩
    · exact absurd h (by simp)

theorem loadRead_inv {X : XEnv} {s s' : DState} (h : step X s .loadRead = some s') :
    ∃ pos buf, s.loader = some (pos, buf) ∧ (10 : UInt8) ∉ buf ∧ pos < s.file.length ∧
      s' = { s with loader := some (pos + min 4096 (s.file.length - pos), buf ++ (s.file.drop pos).take 4096) } := by
  simp only [step] at h
  cases hl : s.loader with
  | none => rw [hl] at h; exact absurd h (by simp)
  | some r =>
    rw [hl] at h
    simp only at h
    split at h
    · rename_i hc
      injection h with h
      exact ⟨r.1, r.2, rfl, hc.1, hc.2, h.symm⟩
    · exact absurd h (by simp)

theorem load_start {X : XEnv} {now : Int} {file : Bytes} {s1 : DState}
    (h : exec X (fresh now file) [.loadBegin, .loadRead] = some s1) :
    s1 = { fresh now file with loader := some (min 4096 file.length, file.take 4096) } := by
  simp only [exec, Option.bind_eq_some_iff] at h
  obtain ⟨s, h1, s', h2, h3⟩ := h
  injection h3 with h3
  subst h3
  have : s = { fresh now file with loader := some (0, []) } := by
    simp only [step, fresh, if_true, Option.some.injEq] at h1
    exact h1.symm
  subst this
  obtain ⟨pos, buf, e1, _, _, e4⟩ := loadRead_inv h2
  simp only [Option.some.injEq, Prod.mk.injEq] at e1
  rw [← e1.1, ← e1.2] at e4
  rw [e4]
  simp [fresh]

end DS

/-! ### C80 -/

/-- C80, the claim in full: a fresh process that has loaded the index has every data set of the index, whatever the saves
that the loading itself starts do meanwhile. -/
def C80_load_statement : Prop :=
  ∀ (X : XEnv) (now : Int) (cs : List DataConfig) (s1 s2 s3 : DState), X.Ok → (∀ c ∈ cs, Plain c) → (cs.map (·.name)).Nodup →
    exec X (fresh now (content X cs)) [.loadBegin, .loadRead] = some s1 → Run X Starting s1 s2 →
    step X s2 .loadEnd = some s3 → ∀ c ∈ cs, (s3.list.get? c.name).isSome = true

/-- C80, what holds: with an index of at most 4096 bytes, which the reader takes in one piece. -/
theorem C80_small_index_partial {X : XEnv} (hX : X.Ok) (now : Int) (cs : List DataConfig) (s1 s2 s3 : DState)
    (hp : ∀ c ∈ cs, Plain c) (hlen : (content X cs).length ≤ 4096)
    (h1 : exec X (fresh now (content X cs)) [.loadBegin, .loadRead] = some s1) (hr : Run X Starting s1 s2)
    (h3 : step X s2 .loadEnd = some s3) : ∀ c ∈ cs, (s3.list.get? c.name).isSome = true := by
  have hs1 := load_start h1
  have hw1 : WF s1.list := by rw [hs1]; exact wf_nil
  have key : ∀ pos buf, s2.loader = some (pos, buf) →
      (∃ cs', buf = content X cs' ∧ (∀ c ∈ cs', Plain c) ∧ ∀ c ∈ cs, c ∈ cs' ∨ Has s2.list c.name) ∨
      (∀ c ∈ cs, Has s2.list c.name) := by
    clear h3
    induction hr with
    | refl =>
      intro pos buf hl
      rw [hs1] at hl
      simp only [Option.some.injEq, Prod.mk.injEq] at hl
      refine Or.inl ⟨cs, ?_, hp, fun c hc => Or.inl hc⟩
      rw [← hl.2, List.take_of_length_le hlen]
    | @step s s' l hr' hpl hs ih =>
      intro pos buf hl
      have hws := run_wf hw1 hr'
      by_cases hA : l = .loadRead
      · subst hA
        obtain ⟨pos0, buf0, e1, e2, _, e4⟩ := loadRead_inv hs
        right
        intro c hc
        apply has_step hws hpl hs
        rcases ih _ _ e1 with ⟨cs', f1, _, f3⟩ | f
        · rw [f1] at e2
          have := content_no_nl e2
          subst this
          rcases f3 c hc with h | h
          · simp at h
          · exact h
        · exact f c hc
      · by_cases hB : l = .loadLine
        · subst hB
          cases hl0 : s.loader with
          | none => simp [step, hl0] at hs
          | some r =>
            rcases ih r.1 r.2 hl0 with ⟨cs', f1, f2, f3⟩ | f
            · obtain ⟨c0, cs'', buf', g1, g2, g3, _, _, g6⟩ := loadLine_step hX (rest := []) hws hl0
                (by rw [List.append_nil]; exact f1) (fun c hc => (f2 c hc).2) hs
              rw [g2] at hl
              injection hl with hl
              injection hl with _ hl
              subst hl
              rw [List.append_nil] at g3
              refine Or.inl ⟨cs'', g3, fun c hc => f2 c (by rw [g1]; simp [hc]), fun c hc => ?_⟩
              rcases f3 c hc with h | h
              · rw [g1] at h
                rcases List.mem_cons.mp h with rfl | h
                · exact Or.inr (g6 (f2 c (by rw [g1]; simp)).1)
                · exact Or.inl h
              · exact Or.inr (has_step hws hpl hs h)
            · exact Or.inr fun c hc => has_step hws hpl hs (f c hc)
        · by_cases hC : l = .loadEnd
          · subst hC
            obtain ⟨_, _, _, _, _, e5⟩ := loadEnd_inv hs
            rw [e5] at hl
            exact absurd hl (by simp)
          · rw [loader_frame hws hpl hs hA hB hC] at hl
            rcases ih pos buf hl with ⟨cs', f1, f2, f3⟩ | f
            · exact Or.inl ⟨cs', f1, f2, fun c hc => (f3 c hc).imp_right (has_step hws hpl hs)⟩
            · exact Or.inr fun c hc => has_step hws hpl hs (f c hc)
  obtain ⟨pos, buf, e1, e2, _, e4⟩ := loadEnd_inv h3
  subst e4
  intro c hc
  rcases key pos buf e1 with ⟨cs', f1, _, f3⟩ | f
  · rw [f1] at e2
    have := content_no_nl e2
    subst this
    rcases f3 c hc with h | h
    · simp at h
    · exact h
  · exact f c hc

/-- C80, what holds for an index of any size: if no save opens the file while it is read. -/
theorem C80_no_save_partial {X : XEnv} (hX : X.Ok) (now : Int) (cs : List DataConfig) (s1 s2 s3 : DState)
    (hp : ∀ c ∈ cs, Plain c)
    (h1 : exec X (fresh now (content X cs)) [.loadBegin, .loadRead] = some s1)
    (hr : Run X (fun l => Starting l ∧ ∀ j, l ≠ .walkOpen j) s1 s2)
    (h3 : step X s2 .loadEnd = some s3) : ∀ c ∈ cs, (s3.list.get? c.name).isSome = true := by
  have hs1 := load_start h1
  have hw1 : WF s1.list := by rw [hs1]; exact wf_nil
  have key : s2.file = content X cs ∧ (∀ w ∈ s2.walks, w.save = true → w.opened = false) ∧
      ∀ pos buf, s2.loader = some (pos, buf) →
      ∃ cs', buf ++ (content X cs).drop pos = content X cs' ∧ (∀ c ∈ cs', Plain c) ∧
        ∀ c ∈ cs, c ∈ cs' ∨ Has s2.list c.name := by
    clear h3
    induction hr with
    | refl =>
      refine ⟨by rw [hs1]; rfl, by rw [hs1]; simp [fresh], ?_⟩
      intro pos buf hl
      rw [hs1] at hl
      simp only [Option.some.injEq, Prod.mk.injEq] at hl
      refine ⟨cs, ?_, hp, fun c hc => Or.inl hc⟩
      rw [← hl.2, ← hl.1]
      rcases Nat.le_total 4096 (content X cs).length with h | h
      · rw [Nat.min_eq_left h, List.take_append_drop]
      · rw [Nat.min_eq_right h, List.take_of_length_le h, List.drop_length, List.append_nil]
    | @step s s' l hr' hpl hs ih =>
      have hws := run_wf hw1 hr'
      obtain ⟨i1, i2, i3⟩ := ih
      have fr : s'.file = s.file ∧ (∀ w ∈ s'.walks, w.save = true → w.opened = false) := by
        cases step_eff hws hs with
        | tick _ he => subst he; exact ⟨rfl, i2⟩
        | create _ _ _ he => rw [he]; exact ⟨rfl, i2⟩
        | use _ he => rw [he]; exact ⟨rfl, i2⟩
        | delete he => subst he; exact ⟨rfl, i2⟩
        | janitor he => subst he; exact ⟨rfl, i2⟩
        | reload _ he => rw [he]; exact ⟨rfl, i2⟩
        | walkBegin _ he =>
          subst he
          refine ⟨rfl, fun w hw hsv => ?_⟩
          simp only [List.mem_append, List.mem_singleton] at hw
          rcases hw with hw | rfl
          · exact i2 w hw hsv
          · rfl
        | walkOpen _ _ _ he => exact absurd rfl (hpl.2 _)
        | @walkStep j k ks save buf d c hj h1 h2 he =>
          rw [he]
          refine ⟨rfl, fun w hw hsv => ?_⟩
          rcases mem_set_cases hw with rfl | hw
          · exact i2 ⟨k :: ks, save, save, buf⟩ (List.mem_of_getElem? hj) hsv
          · exact i2 w hw hsv
        | walkFlush hj h0 h1 _ he =>
          have := i2 _ (List.mem_of_getElem? hj) h0
          rw [this] at h1
          exact absurd h1 (by simp)
        | loadBegin he => subst he; exact ⟨rfl, i2⟩
        | loadRead he => subst he; exact ⟨rfl, i2⟩
        | loadSkip he => subst he; exact ⟨rfl, i2⟩
        | loadLine _ he _ => rw [he]; exact ⟨rfl, i2⟩
        | loadEnd he => subst he; exact ⟨rfl, i2⟩
      refine ⟨fr.1.trans i1, fr.2, fun pos buf hl => ?_⟩
      by_cases hA : l = .loadRead
      · subst hA
        obtain ⟨pos0, buf0, e1, e2, e3, e4⟩ := loadRead_inv hs
        obtain ⟨cs', f1, f2, f3⟩ := i3 _ _ e1
        refine ⟨cs', ?_, f2, fun c hc => (f3 c hc).imp_right (has_step hws hpl.1 hs)⟩
        rw [e4] at hl
        simp only [Option.some.injEq, Prod.mk.injEq] at hl
        rw [i1] at hl e3
        rw [← hl.1, ← hl.2, ← f1, List.append_assoc]
        congr 1
        rw [← List.drop_drop]
        generalize hd : List.drop pos0 (content X cs) = r
        have hrl : r.length = (content X cs).length - pos0 := by rw [← hd, List.length_drop]
        rw [← hrl]
        rcases Nat.le_total 4096 r.length with h | h
        · rw [Nat.min_eq_left h, List.take_append_drop]
        · rw [Nat.min_eq_right h, List.take_of_length_le h, List.drop_length, List.append_nil]
      · by_cases hB : l = .loadLine
        · subst hB
          cases hl0 : s.loader with
          | none => simp [step, hl0] at hs
          | some r =>
            obtain ⟨cs', f1, f2, f3⟩ := i3 r.1 r.2 hl0
            obtain ⟨c0, cs'', buf', g1, g2, g3, _, _, g6⟩ := loadLine_step hX hws hl0 f1 (fun c hc => (f2 c hc).2) hs
            rw [g2] at hl
            injection hl with hl
            injection hl with hl1 hl
            subst hl
            subst hl1
            refine ⟨cs'', g3, fun c hc => f2 c (by rw [g1]; simp [hc]), fun c hc => ?_⟩
            rcases f3 c hc with h | h
            · rw [g1] at h
              rcases List.mem_cons.mp h with rfl | h
              · exact Or.inr (g6 (f2 c (by rw [g1]; simp)).1)
              · exact Or.inl h
            · exact Or.inr (has_step hws hpl.1 hs h)
        · by_cases hC : l = .loadEnd
          · subst hC
            obtain ⟨_, _, _, _, _, e5⟩ := loadEnd_inv hs
            rw [e5] at hl
            exact absurd hl (by simp)
          · rw [loader_frame hws hpl.1 hs hA hB hC] at hl
            obtain ⟨cs', f1, f2, f3⟩ := i3 pos buf hl
            exact ⟨cs', f1, f2, fun c hc => (f3 c hc).imp_right (has_step hws hpl.1 hs)⟩
  obtain ⟨pos, buf, e1, e2, e3, e4⟩ := loadEnd_inv h3
  subst e4
  intro c hc
  obtain ⟨k1, _, k3⟩ := key
  obtain ⟨cs', f1, _, f3⟩ := k3 pos buf e1
  rw [k1] at e3
  rw [List.drop_eq_nil_of_le e3, List.append_nil] at f1
  rw [f1] at e2
  have := content_no_nl e2
  subst this
  rcases f3 c hc with h | h
  · simp at h
  · exact h

namespace DS
/-- The number of bytes to add to the line of the first example so that it has 4096. -/
def exPad : Nat := 4096 - (line (toy 0) (exA 1)).length
end DS

/-- C80, counterexample: the first data set loaded starts a save, which truncates the file before the rest is read. -/
theorem C80_load_fails : ¬ C80_load_statement := by
  intro h
  obtain ⟨s1, h1, p1⟩ := any_some (o := exec (toy exPad) (fresh 0 (content (toy exPad) [exA 1, exB])) [.loadBegin, .loadRead])
    (p := fun s1 => (exec (toy exPad) s1 [.loadLine, .walkBegin true ["a"], .walkOpen 0]).any fun (s2 : DState) =>
      (step (toy exPad) s2 .loadEnd).any fun (s3 : DState) => (s3.list.get? "b").isNone) (by decide +kernel)
  obtain ⟨s2, h2, p2⟩ := any_some p1
  obtain ⟨s3, h3, p3⟩ := any_some p2
  have := h (toy exPad) 0 [exA 1, exB] s1 s2 s3 (toy_ok _) (by
      intro c hc
      simp only [List.mem_cons, List.not_mem_nil, or_false] at hc
      rcases hc with rfl | rfl
      · exact exA_plain 1
      · exact exB_plain) (by decide) h1
    (exec_run _ .refl (by
      intro l hl
      simp only [List.mem_cons, List.not_mem_nil, or_false] at hl
      rcases hl with rfl | rfl | rfl <;> exact ⟨by simp, by simp, by simp, by simp⟩) h2) h3 exB (by simp)
  have e : exB.name = "b" := rfl
  rw [e] at this
  cases hx : AMap.get? s3.list "b" with
  | none => rw [hx] at this; exact absurd this (by simp)
  | some x => rw [hx] at p3; exact absurd p3 (by simp)

/-- C80, an instance of the partial theorem: a small index survives the same schedule. -/
example : ((exec (toy 0) (fresh 0 (content (toy 0) [exA 1, exB]))
    [.loadBegin, .loadRead, .loadLine, .walkBegin true ["a"], .walkOpen 0, .loadLine, .loadEnd]).map fun s => names 0 s.list) =
    some ["b", "a"] := by decide +kernel

/-! ### C78: concurrent upgrades -/

namespace DS

/-- A data set that exists, and the create requests being served (each in its own goroutine) whose version was found to be
higher (data/dataset.go:120) and that have not yet set the configuration (line 122). -/
structure Up where
  cur : DataConfig
  pending : List DataConfig
  deriving DecidableEq, Repr

inductive UpStep : Up → Up → Prop
  /-- line 120, the version is higher -/
  | higher (u : Up) (c : DataConfig) : c.version > u.cur.version → UpStep u { u with pending := u.pending ++ [c] }
  /-- line 120, it is not: nothing else happens -/
  | notHigher (u : Up) (c : DataConfig) : ¬ c.version > u.cur.version → UpStep u u
  /-- line 122 -/
  | set (u : Up) (i : Nat) (c : DataConfig) : u.pending[i]? = some c → UpStep u ⟨c, u.pending.eraseIdx i⟩

inductive UpReach (u0 : Up) : Up → Prop
  | refl : UpReach u0 u0
  | step {u u' : Up} : UpReach u0 u → UpStep u u' → UpReach u0 u'

/-- One request at a time: the check and the assignment together. -/
inductive UpSerial (c0 : DataConfig) : DataConfig → Prop
  | refl : UpSerial c0 c0
  | higher {c : DataConfig} (c' : DataConfig) : UpSerial c0 c → c'.version > c.version → UpSerial c0 c'
  | notHigher {c : DataConfig} (c' : DataConfig) : UpSerial c0 c → ¬ c'.version > c.version → UpSerial c0 c

end DS

/-- C78, the claim in full: the version never decreases. -/
def C78_version_statement : Prop :=
  ∀ (u0 u u' : Up), u0.pending = [] → UpReach u0 u → UpStep u u' → u.cur.version ≤ u'.cur.version

/-- C78, what holds: no version below the first one is ever set; and with one request at a time the version never
decreases (each such run is one of the runs above). -/
theorem C78_version_partial (u0 : Up) (h0 : u0.pending = []) :
    (∀ u, UpReach u0 u → u0.cur.version ≤ u.cur.version ∧ ∀ c ∈ u.pending, u0.cur.version < c.version) ∧
    (∀ c, UpSerial u0.cur c → UpReach u0 ⟨c, []⟩ ∧ u0.cur.version ≤ c.version) := by
  constructor
  · intro u h
    induction h with
    | refl => exact ⟨UInt64.le_refl _, by rw [h0]; simp⟩
    | step _ hs ih =>
      cases hs with
      | higher c hv =>
        refine ⟨ih.1, fun c' hc' => ?_⟩
        rcases List.mem_append.mp hc' with h | h
        · exact ih.2 c' h
        · rw [List.mem_singleton.mp h]
          exact UInt64.lt_of_le_of_lt ih.1 hv
      | notHigher c hv => exact ih
      | set i c hc =>
        exact ⟨UInt64.le_of_lt (ih.2 c (List.mem_of_getElem? hc)), fun c' hc' => ih.2 c' (List.mem_of_mem_eraseIdx hc')⟩
  · intro c h
    induction h with
    | refl =>
      obtain ⟨c, p⟩ := u0
      simp only at h0
      subst h0
      exact ⟨.refl, UInt64.le_refl _⟩
    | @higher c c' _ hv ih =>
      refine ⟨?_, UInt64.le_trans ih.2 (UInt64.le_of_lt hv)⟩
      exact .step (.step ih.1 (.higher _ c' hv)) (UpStep.set ⟨c, [] ++ [c']⟩ 0 c' rfl)
    | notHigher c' _ _ ih => exact ih

/-- C78, counterexample: versions 2 and 3 are both found higher than 1; 3 is set first, then 2. -/
theorem C78_version_fails : ¬ C78_version_statement := by
  intro h
  have r1 : UpReach ⟨exA 1, []⟩ ⟨exA 1, [exA 2]⟩ := .step .refl (.higher ⟨exA 1, []⟩ (exA 2) (by decide))
  have r2 : UpReach ⟨exA 1, []⟩ ⟨exA 1, [exA 2, exA 3]⟩ := .step r1 (.higher ⟨exA 1, [exA 2]⟩ (exA 3) (by decide))
  have r3 : UpReach ⟨exA 1, []⟩ ⟨exA 3, [exA 2]⟩ := .step r2 (.set ⟨exA 1, [exA 2, exA 3]⟩ 1 (exA 3) rfl)
  have := h ⟨exA 1, []⟩ ⟨exA 3, [exA 2]⟩ ⟨exA 2, []⟩ rfl r3 (.set ⟨exA 3, [exA 2]⟩ 0 (exA 2) rfl)
  exact absurd this (by decide)

/-- C78, an instance. -/
example : UpSerial (exA 1) (exA 5) := .higher (exA 5) (.notHigher (exA 1) (.higher (exA 3) .refl (by decide)) (by decide)) (by decide)

end Veri
