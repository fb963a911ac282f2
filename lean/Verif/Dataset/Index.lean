import Verif.Dataset.Conc
/-
The index file under crashes, concurrent saves and loading: C52, C79, C80; concurrent upgrades: C78.
-/
set_option autoImplicit false
namespace Veri
open DS

namespace DS

/-- A save that has run to its end. -/
def Done (w : Walk) : Prop := w.pending = [] ∧ w.opened = true ∧ w.buf = []

/-- No save is under way. -/
def NoSave (s : DState) : Prop := ∀ w ∈ s.walks, w.save = true → Done w

theorem get_data {X : XEnv} {now : Int} {m m' : DL} {k : String} {d : Data} (hw : WF m) (h : get X now m k = .ok (m', d)) :
    (m'.get? k).map (·.data) = some d := by
  cases hl : lookup now m k with
  | none =>
    rw [get_new hl] at h
    injection h with h
    injection h with h1 h2
    rw [← h1, ← h2, AMap.get?_set_self]
    rfl
  | some s =>
    obtain ⟨c, h0, _⟩ := hw.2 _ _ (lookup_some.mp hl).1
    rw [get_old hl h0] at h
    injection h with h
    injection h with h1 h2
    rw [← h1, ← h2, AMap.get?_set_self]
    rfl

theorem inj_of_nodup {cs : List DataConfig} (h : (cs.map (·.name)).Nodup) {a b : DataConfig} (ha : a ∈ cs) (hb : b ∈ cs)
    (e : a.name = b.name) : a = b := by
  induction cs with
  | nil => simp at ha
  | cons c cs ih =>
    simp only [List.map_cons, List.nodup_cons] at h
    rcases List.mem_cons.mp ha with rfl | ha' <;> rcases List.mem_cons.mp hb with rfl | hb'
    · rfl
    · exact absurd (List.mem_map.mpr ⟨b, hb', e.symm⟩) h.1
    · exact absurd (List.mem_map.mpr ⟨a, ha', e⟩) h.1
    · exact ih h.2 ha' hb'

theorem set_self {α : Type} {l : List α} {j : Nat} {a : α} (h : l[j]? = some a) : l.set j a = l := by
  apply List.ext_getElem?
  intro i
  rw [List.getElem?_set]
  split
  · rename_i e
    subst e
    split
    · exact h.symm
    · rename_i hlt
      rw [List.getElem?_eq_none (by omega)]
  · rfl

/-- Anything but a second save, or a load of the index; configurations asked for have no negative zero (see `Plain`). -/
def Single (l : Label) : Prop :=
  (∀ order, l ≠ .walkBegin true order) ∧ l ≠ .loadBegin ∧ ∀ c, l = .create c → NoNegZero c

/-- No configuration has a negative zero. -/
def Tame (m : DL) : Prop := ∀ k c, configOf m k = some c → NoNegZero c

theorem create_configs {now : Int} {m m' : DL} {c : DataConfig} (hw : WF m) (h : createIfNotExists now m c = .ok m')
    (k : String) (c' : DataConfig) (hk : configOf m' k = some c') : c' = c ∨ configOf m k = some c' := by
  by_cases hkc : k = c.name
  · subst hkc
    cases hl : lookup now m c.name with
    | none =>
      rw [create_new hl] at h
      injection h with h
      rw [← h] at hk
      unfold configOf at hk
      rw [AMap.get?_set_self] at hk
      simp only [Option.bind_some, newData_config, Option.some.injEq] at hk
      exact Or.inl hk.symm
    | some x =>
      obtain ⟨c0, h0, _⟩ := hw.2 _ _ (lookup_some.mp hl).1
      rw [create_old hl h0] at h
      injection h with h
      rw [← h] at hk
      split at hk
      · unfold configOf at hk
        rw [AMap.get?_set_self] at hk
        simp only [Option.bind_some, Option.some.injEq] at hk
        exact Or.inl hk.symm
      · exact Or.inr hk
  · unfold configOf at hk
    rw [(create_wf hw h).2 k hkc] at hk
    exact Or.inr hk

theorem get_configs {X : XEnv} {now : Int} {m m' : DL} {name : String} {d : Data} (hw : WF m)
    (h : get X now m name = .ok (m', d)) (k : String) (c' : DataConfig) (hk : configOf m' k = some c') :
    c' = defaultConfig name ∨ configOf m k = some c' := by
  by_cases hkc : k = name
  · subst hkc
    cases hl : lookup now m k with
    | none =>
      rw [get_new hl] at h
      injection h with h
      injection h with h1 h2
      rw [← h1] at hk
      unfold configOf at hk
      rw [AMap.get?_set_self] at hk
      simp only [Option.bind_some, newData_config, Option.some.injEq] at hk
      exact Or.inl hk.symm
    | some x =>
      obtain ⟨c0, h0, _⟩ := hw.2 _ _ (lookup_some.mp hl).1
      rw [get_old hl h0] at h
      injection h with h
      injection h with h1 h2
      rw [← h1] at hk
      unfold configOf at hk ⊢
      rw [AMap.get?_set_self] at hk
      rw [(lookup_some.mp hl).1]
      exact Or.inr hk
  · unfold configOf at hk
    rw [(get_wf hw h).2.1 k hkc] at hk
    exact Or.inr hk

theorem tame_default (name : String) : NoNegZero (defaultConfig name) := by
  show (0x3FD999999999999A : UInt64) ≠ 0x8000000000000000
  decide

theorem tame_get {X : XEnv} {now : Int} {m m' : DL} {name : String} {d : Data} (hw : WF m) (ht : Tame m)
    (h : get X now m name = .ok (m', d)) : Tame m' := by
  intro k c hk
  rcases get_configs hw h k c hk with rfl | h1
  · exact tame_default _
  · exact ht k c h1

theorem tame_run {X : XEnv} {s0 s : DState} (hw : WF s0.list) (ht : Tame s0.list) (hl : s0.loader = none)
    (h : Run X Single s0 s) : Tame s.list ∧ s.loader = none := by
  induction h with
  | refl => exact ⟨ht, hl⟩
  | @step a b l hr hp hs ih =>
    have hwa := run_wf hw hr
    cases step_eff hwa hs with
    | tick _ he => subst he; exact ih
    | @create c m1 d h0 h1 h2 he =>
      refine ⟨tame_get h1 (fun k c' hk => ?_) h2, by rw [he]; exact ih.2⟩
      rcases create_configs hwa h0 k c' hk with rfl | h3
      · exact hp.2.2 _ rfl
      · exact ih.1 k c' h3
    | use h1 he => exact ⟨tame_get hwa ih.1 h1, by rw [he]; exact ih.2⟩
    | delete he =>
      subst he
      refine ⟨fun k c hk => ?_, ih.2⟩
      unfold configOf at hk
      simp only at hk
      rw [AMap.get?_erase] at hk
      split at hk
      · exact absurd hk (by simp)
      · exact ih.1 k c hk
    | janitor he =>
      subst he
      refine ⟨fun k c hk => ?_, ih.2⟩
      unfold configOf at hk
      simp only [janitor] at hk
      rw [get?_filter hwa.1] at hk
      refine ih.1 k c ?_
      unfold configOf
      cases hx : AMap.get? a.list k with
      | none => rw [hx] at hk; exact absurd hk (by simp)
      | some x =>
        rw [hx] at hk
        cases hlv : live a.now x with
        | true => simpa [Option.filter, hlv] using hk
        | false => simp [Option.filter, hlv] at hk
    | reload h1 he =>
      refine ⟨fun k c hk => ?_, by rw [he]; exact ih.2⟩
      unfold configOf at hk
      rcases reloadRuns_spec h1 k with h3 | h3
      · rw [h3] at hk; exact ih.1 k c hk
      · rw [h3.1] at hk; exact absurd hk (by simp)
    | walkBegin _ he => subst he; exact ih
    | walkOpen _ _ _ he => subst he; exact ih
    | walkStep _ h1 _ he => exact ⟨tame_get hwa ih.1 h1, by rw [he]; exact ih.2⟩
    | walkFlush _ _ _ _ he => subst he; exact ih
    | loadBegin he => exact absurd rfl hp.2.1
    | loadRead he => simp [step, ih.2] at hs
    | loadSkip he => simp [step, ih.2] at hs
    | loadLine _ _ h3 => rw [ih.2] at h3; exact absurd h3 (by simp)
    | loadEnd he => subst he; exact ⟨ih.1, rfl⟩

theorem content_append (X : XEnv) (cs : List DataConfig) (c : DataConfig) : content X (cs ++ [c]) = content X cs ++ line X c := by
  simp [content]

/-- One save, from its start in `s1` (with walk number `s1.walks.length`): what is on disk and in its buffer. -/
theorem single_save {X : XEnv} {s1 s2 s3 : DState} {order : List String} (hw : WF s1.list) (hn : NoSave s1)
    (hb : step X s1 (.walkBegin true order) = some s2) (hr : Run X Single s2 s3) :
    ∃ p opened buf, s3.walks[s1.walks.length]? = some ⟨p, true, opened, buf⟩ ∧
      (∀ j w, j ≠ s1.walks.length → s3.walks[j]? = some w → w.save = true → Done w) ∧
      (opened = false → p = order ∧ buf = [] ∧ s3.file = s1.file) ∧
      (opened = true → ∃ cs, cs.map (·.name) ++ p = order ∧ s3.file ++ buf = content X cs ∧
        ∀ c ∈ cs, ∃ s, Run X Single s2 s ∧ configOf s.list c.name = some c) := by
  have hw2 := step_wf hw hb
  induction hr with
  | refl =>
    cases step_eff hw hb with
    | walkBegin hp he =>
      subst he
      refine ⟨order, false, [], ?_, ?_, fun _ => ⟨rfl, rfl, rfl⟩, by simp⟩
      · simp
      · intro j w hj hjw hs
        simp only at hjw
        by_cases hlt : j < s1.walks.length
        · rw [List.getElem?_append_left hlt] at hjw
          exact hn w (List.mem_of_getElem? hjw) hs
        · rw [List.getElem?_append_right (by omega)] at hjw
          obtain ⟨n, hn'⟩ : ∃ n, j - s1.walks.length = n + 1 := ⟨j - s1.walks.length - 1, by omega⟩
          rw [hn'] at hjw
          simp at hjw
  | @step s s' l hr' hp hs ih =>
    obtain ⟨p, opened, buf, i1, i2, i3, i4⟩ := ih
    have hws := run_wf hw2 hr'
    have hlen : s1.walks.length < s.walks.length := by
      rcases Nat.lt_or_ge s1.walks.length s.walks.length with h | h
      · exact h
      · rw [List.getElem?_eq_none h] at i1; exact absurd i1 (by simp)
    have same : s'.walks = s.walks → s'.file = s.file → _ := fun e1 e2 =>
      show ∃ p opened buf, s'.walks[s1.walks.length]? = some ⟨p, true, opened, buf⟩ ∧
      (∀ j w, j ≠ s1.walks.length → s'.walks[j]? = some w → w.save = true → Done w) ∧
      (opened = false → p = order ∧ buf = [] ∧ s'.file = s1.file) ∧
      (opened = true → ∃ cs, cs.map (·.name) ++ p = order ∧ s'.file ++ buf = content X cs ∧
        ∀ c ∈ cs, ∃ s, Run X Single s2 s ∧ configOf s.list c.name = some c) from
      ⟨p, opened, buf, by rw [e1]; exact i1, by rw [e1]; exact i2, by rw [e2]; exact i3, by rw [e2]; exact i4⟩
    cases step_eff hws hs with
    | tick _ he => subst he; exact same rfl rfl
    | create _ _ _ he => exact same (by rw [he]) (by rw [he])
    | use _ he => exact same (by rw [he]) (by rw [he])
    | delete he => subst he; exact same rfl rfl
    | janitor he => subst he; exact same rfl rfl
    | reload _ he => exact same (by rw [he]) (by rw [he])
    | @walkBegin save ord _ he =>
      subst he
      cases save with
      | true => exact absurd rfl (hp.1 ord)
      | false =>
        refine ⟨p, opened, buf, ?_, ?_, i3, i4⟩
        · simp only; rw [List.getElem?_append_left hlen]; exact i1
        · intro j w hj hjw hsv
          simp only at hjw
          by_cases hlt : j < s.walks.length
          · rw [List.getElem?_append_left hlt] at hjw
            exact i2 j w hj hjw hsv
          · rw [List.getElem?_append_right (by omega)] at hjw
            have := List.mem_of_getElem? hjw
            rw [List.mem_singleton.mp this] at hsv
            exact absurd hsv (by simp)
    | @walkOpen j w hj h1 h2 he =>
      subst he
      by_cases hjj : j = s1.walks.length
      · subst hjj
        rw [i1] at hj
        injection hj with hj
        subst hj
        simp only at h2
        subst h2
        obtain ⟨e1, e2, e3⟩ := i3 rfl
        subst e1
        subst e2
        refine ⟨p, true, [], ?_, ?_, by simp, fun _ => ⟨[], rfl, rfl, by simp⟩⟩
        · simp only; rw [List.getElem?_set_self hlen]
        · intro j' w' hj' hjw hsv
          simp only at hjw
          rw [List.getElem?_set_ne (Ne.symm hj')] at hjw
          exact i2 j' w' hj' hjw hsv
      · have := i2 j w hjj hj h1
        rw [this.2.1] at h2
        exact absurd h2 (by simp)
    | @walkStep j k ks save b d c hj h1 h2 he =>
      by_cases hjj : j = s1.walks.length
      · subst hjj
        rw [i1] at hj
        injection hj with hj
        injection hj with e1 e2 e3 e4
        subst e1
        subst e2
        subst e3
        subst e4
        obtain ⟨cs, g1, g2, g3⟩ := i4 rfl
        obtain ⟨_, _, c', hc', hcn⟩ := get_wf hws h1
        rw [h2] at hc'
        injection hc' with hc'
        subst hc'
        have hcfg : configOf s'.list c.name = some c := by
          have hd := get_data hws h1
          rw [hcn]
          unfold configOf
          cases hg : AMap.get? s'.list k with
          | none => rw [hg] at hd; exact absurd hd (by simp)
          | some x =>
            rw [hg] at hd
            simp only [Option.map_some, Option.some.injEq] at hd
            simp only [Option.bind_some]
            rw [hd]
            exact h2
        refine ⟨ks, true, buf ++ line X c, ?_, ?_, by simp, fun _ => ⟨cs ++ [c], ?_, ?_, ?_⟩⟩
        · rw [he]; simp only; rw [List.getElem?_set_self hlen]; rfl
        · intro j' w' hj' hjw hsv
          rw [he] at hjw
          simp only at hjw
          rw [List.getElem?_set_ne (Ne.symm hj')] at hjw
          exact i2 j' w' hj' hjw hsv
        · rw [List.map_append, List.append_assoc]
          simp only [List.map_cons, List.map_nil, List.cons_append, List.nil_append]
          rw [hcn]
          exact g1
        · rw [he, content_append, ← g2]
          simp only [List.append_assoc]
        · intro c' hc'
          rcases List.mem_append.mp hc' with hc' | hc'
          · exact g3 c' hc'
          · rw [List.mem_singleton.mp hc']
            exact ⟨s', .step _ hr' hp hs, hcfg⟩
      · cases save with
        | true =>
          have := i2 j _ hjj hj rfl
          exact absurd this.1 (by simp)
        | false =>
          refine ⟨p, opened, buf, ?_, ?_, by rw [he]; exact i3, by rw [he]; exact i4⟩
          · rw [he]; simp only; rw [List.getElem?_set_ne hjj]; exact i1
          · intro j' w' hj' hjw hsv
            rw [he] at hjw
            simp only at hjw
            by_cases hjj' : j = j'
            · subst hjj'
              rw [List.getElem?_set_self (by
                rcases Nat.lt_or_ge j s.walks.length with h | h
                · exact h
                · rw [List.getElem?_eq_none h] at hj; exact absurd hj (by simp))] at hjw
              injection hjw with hjw
              subst hjw
              exact absurd hsv (by simp)
            · rw [List.getElem?_set_ne hjj'] at hjw
              exact i2 j' w' hj' hjw hsv
    | @walkFlush j n w hj h0 h1 h2 he =>
      subst he
      by_cases hjj : j = s1.walks.length
      · subst hjj
        rw [i1] at hj
        injection hj with hj
        subst hj
        simp only at h1
        subst h1
        obtain ⟨cs, g1, g2, g3⟩ := i4 rfl
        refine ⟨p, true, buf.drop n, ?_, ?_, by simp, fun _ => ⟨cs, g1, ?_, g3⟩⟩
        · simp only; rw [List.getElem?_set_self hlen]
        · intro j' w' hj' hjw hsv
          simp only at hjw
          rw [List.getElem?_set_ne (Ne.symm hj')] at hjw
          exact i2 j' w' hj' hjw hsv
        · simp only [List.append_assoc, List.take_append_drop]
          exact g2
      · have hb := (i2 j w hjj hj h0).2.2
        have e1 : ({ w with buf := w.buf.drop n } : Walk) = w := by
          obtain ⟨a, b, c, d⟩ := w
          simp only at hb
          subst hb
          simp
        refine same ?_ ?_
        · simp only
          rw [e1]
          exact set_self hj
        · simp only
          rw [hb]
          simp
    | loadBegin he => exact absurd rfl hp.2.1
    | loadRead he => subst he; exact same rfl rfl
    | loadSkip he => subst he; exact same rfl rfl
    | loadLine _ he _ => exact same (by rw [he]) (by rw [he])
    | loadEnd he => subst he; exact same rfl rfl

/-- Loading lines only brings configurations from these lines. -/
theorem loadLines_from {X : XEnv} (hX : X.Ok) (now : Int) (R : DataConfig → Prop) : ∀ (cs : List DataConfig) (m : DL), WF m →
    (∀ c ∈ cs, NoNegZero c ∧ R c) → (∀ k c, configOf m k = some c → R c) →
    ∃ m', loadLines X now (cs.map (line X)) m = .ok m' ∧ WF m' ∧ ∀ k c, configOf m' k = some c → R c
  | [], m, hw, _, hm => ⟨m, rfl, hw, hm⟩
  | c :: cs, m, hw, hc, hm => by
    have hb := (back_plain hX (hc c (by simp)).1).1
    unfold back at hb
    by_cases hf : Finite c
    · rw [if_pos hf] at hb
      obtain ⟨m1, h1, h2, _, h4⟩ := create_ok (now := now) hw c
      obtain ⟨m', g1, g2, g3⟩ := loadLines_from hX now R cs m1 h2 (fun c' h => hc c' (by simp [h])) (fun k c' hk => by
        rcases create_configs hw h1 k c' hk with rfl | h3
        · exact (hc _ (by simp)).2
        · exact hm k c' h3)
      exact ⟨m', by simp only [List.map_cons, loadLines, hb, h1, Res.bind]; exact g1, g2, g3⟩
    · rw [if_neg hf] at hb
      obtain ⟨m', g1, g2, g3⟩ := loadLines_from hX now R cs m hw (fun c' h => hc c' (by simp [h])) hm
      exact ⟨m', by simp only [List.map_cons, loadLines, hb]; exact g1, g2, g3⟩

theorem configOf_nil (k : String) : configOf [] k = none := rfl

end DS

/-! ### C52 -/

/-- C52, the claim in full.  The process dies in `s3`, at any point of a save that started in `s1`; `old` are the
configurations of the previous save. -/
def C52_crash_statement : Prop :=
  ∀ (X : XEnv) (s1 s2 s3 : DState) (order : List String) (old : List DataConfig) (now : Int), X.Ok → WF s1.list → NoSave s1 →
    Tame s1.list → s1.loader = none → s1.file = content X old → (∀ c ∈ old, Plain c) → (old.map (·.name)).Nodup →
    step X s1 (.walkBegin true order) = some s2 → Run X Single s2 s3 →
    ∃ m, loadIndex X now s3.file [] = .ok m ∧
      (∀ k c, configOf m k = some c → c ∈ old ∨ ∃ s, Run X Single s2 s ∧ configOf s.list k = some c) ∧
      (∀ c ∈ old, configOf m c.name ≠ none)

/-- C52, what holds: with one save at a time, loading what is on disk after a crash restores only configurations of the
previous save or ones that were listed while this save ran. -/
theorem C52_crash_partial {X : XEnv} (hX : X.Ok) (s1 s2 s3 : DState) (order : List String) (old : List DataConfig) (now : Int)
    (hw : WF s1.list) (hn : NoSave s1) (ht : Tame s1.list) (hl : s1.loader = none)
    (ho : s1.file = content X old) (hz : ∀ c ∈ old, NoNegZero c)
    (hb : step X s1 (.walkBegin true order) = some s2) (hr : Run X Single s2 s3) :
    ∃ m, loadIndex X now s3.file [] = .ok m ∧
      ∀ k c, configOf m k = some c → c.name = k ∧ (c ∈ old ∨ ∃ s, Run X Single s2 s ∧ configOf s.list k = some c) := by
  have hw2 := step_wf hw hb
  have ht2 : Tame s2.list ∧ s2.loader = none := by
    cases step_eff hw hb with
    | walkBegin _ he => subst he; exact ⟨ht, hl⟩
  have key : ∃ (cs : List DataConfig) (j : Nat), readLines [] s3.file = (cs.take j).map (line X) ∧
      ∀ c ∈ cs, NoNegZero c ∧ (c ∈ old ∨ ∃ s, Run X Single s2 s ∧ configOf s.list c.name = some c) := by
    obtain ⟨p, opened, buf, _, _, h3, h4⟩ := single_save hw hn hb hr
    cases opened with
    | false =>
      refine ⟨old, old.length, ?_, fun c hc => ⟨hz c hc, Or.inl hc⟩⟩
      rw [(h3 rfl).2.2, ho, readLines_content hX hz, List.take_length]
    | true =>
      obtain ⟨cs, _, g2, g3⟩ := h4 rfl
      have hz3 : ∀ c ∈ cs, NoNegZero c := fun c hc => by
        obtain ⟨s, r1, r2⟩ := g3 c hc
        exact (tame_run hw2 ht2.1 ht2.2 r1).1 _ c r2
      obtain ⟨j, hj⟩ := readLines_content_prefix hX hz3 (p := s3.file) (by rw [← g2]; exact List.prefix_append _ _)
      exact ⟨cs, j, hj, fun c hc => ⟨hz3 c hc, Or.inr (g3 c hc)⟩⟩
  obtain ⟨cs, j, h1, h2⟩ := key
  obtain ⟨m, g1, g2, g3⟩ := loadLines_from hX now
    (fun c => c ∈ old ∨ ∃ s, Run X Single s2 s ∧ configOf s.list c.name = some c) (cs.take j) [] wf_nil
    (fun c hc => h2 c (List.mem_of_mem_take hc)) (by intro k c h; rw [configOf_nil] at h; exact absurd h (by simp))
  refine ⟨m, by unfold loadIndex; rw [h1]; exact g1, fun k c hk => ?_⟩
  have hname : c.name = k := by
    unfold configOf at hk
    cases hx : AMap.get? m k with
    | none => rw [hx] at hk; exact absurd hk (by simp)
    | some x =>
      rw [hx] at hk
      simp only [Option.bind_some] at hk
      obtain ⟨c', e1, e2⟩ := g2.2 k x hx
      rw [hk] at e1
      injection e1 with e1
      rw [e1]
      exact e2
  have := g3 k c hk
  rw [hname] at this
  exact ⟨hname, this⟩

namespace DS
theorem tame_exList : Tame exList := by
  intro k c h
  unfold configOf at h
  cases hl : AMap.get? exList k with
  | none => rw [hl] at h; exact absurd h (by simp)
  | some s =>
    rw [hl] at h
    have hm := AMap.mem_of_get? hl
    simp only [exList, List.mem_cons, Prod.mk.injEq, List.not_mem_nil, or_false] at hm
    rcases hm with ⟨rfl, rfl⟩ | ⟨rfl, rfl⟩ <;> (cases h; show (0 : UInt64) ≠ 0x8000000000000000; decide)

/-- Two data sets, both in the index. -/
def exSaved : DState := ⟨exList, 5, content (toy 0) [exA 1, exB], [], none⟩
end DS

/-- C52, counterexample: two data sets are in the index; nothing changes, but the process dies right after the save has opened
(and so truncated) the file: nothing is restored. -/
theorem C52_crash_fails : ¬ C52_crash_statement := by
  intro h
  obtain ⟨s2, h2, p2⟩ := any_some (o := step (toy 0) exSaved (.walkBegin true ["a", "b"]))
    (p := fun s2 => (exec (toy 0) s2 [.walkOpen 0]).any fun (s3 : DState) => decide (s3.file = [])) (by decide +kernel)
  obtain ⟨s3, h3, p3⟩ := any_some p2
  simp only [decide_eq_true_eq] at p3
  obtain ⟨m, g1, _, g3⟩ := h (toy 0) exSaved s2 s3 ["a", "b"] [exA 1, exB] 9 (toy_ok 0) exList_wf
    (by intro w hw; exact absurd hw (by simp [exSaved])) tame_exList rfl rfl (by
      intro c hc
      simp only [List.mem_cons, List.not_mem_nil, or_false] at hc
      rcases hc with rfl | rfl <;> exact ⟨by decide, by show (0 : UInt64) ≠ 0x8000000000000000; decide⟩) (by decide) h2
    (exec_run _ .refl (by
      intro l hl
      rw [List.mem_singleton.mp hl]
      exact ⟨by simp, by simp, by simp⟩) h3)
  rw [p3] at g1
  have : loadIndex (toy 0) 9 [] [] = .ok [] := rfl
  rw [this] at g1
  injection g1 with g1
  exact g3 (exA 1) (by simp) (by rw [← g1]; rfl)

/-! ### C79 -/

/-- C79, the claim in full: when all saves have ended, one of which started (in `s1`) when the data set `k` was listed, and `k`
has been listed all the time since, the index lists `k`. -/
def C79_index_complete_statement : Prop :=
  ∀ (X : XEnv) (s0 s1 s2 s3 : DState) (order : List String) (k : String) (now : Int), X.Ok → s0.list = [] → s0.walks = [] →
    s0.loader = none →
    Run X (fun l => l ≠ .loadBegin ∧ ∀ c, l = .create c → Plain c) s0 s1 →
    step X s1 (.walkBegin true order) = some s2 → k ∈ order →
    Run X (fun l => l ≠ .loadBegin ∧ ¬ Changes k l ∧ l ≠ .janitor ∧ ∀ c, l = .create c → Plain c) s2 s3 →
    (∀ w ∈ s3.walks, w.save = true → Done w) →
    ∃ m, loadIndex X now s3.file [] = .ok m ∧ configOf m k ≠ none

/-- C79, what holds: if no other save overlaps with it, the index lists exactly the data sets that were listed when the save
started, each with a configuration it had while the save ran (if its utilization is a number). -/
theorem C79_index_complete_partial {X : XEnv} (hX : X.Ok) (s1 s2 s3 : DState) (order : List String) (now : Int)
    (hw : WF s1.list) (hn : NoSave s1) (ht : Tame s1.list) (hl : s1.loader = none)
    (hb : step X s1 (.walkBegin true order) = some s2) (hr : Run X Single s2 s3)
    (hd : ∀ w ∈ s3.walks, w.save = true → Done w) :
    ∃ m, loadIndex X now s3.file [] = .ok m ∧
      (∀ k, (configOf m k).isSome = true → k ∈ order) ∧
      (∀ k ∈ order, ∃ c s, Run X Single s2 s ∧ configOf s.list k = some c ∧ (Finite c → configOf m k = some c)) := by
  have hw2 := step_wf hw hb
  have hp2 : (Tame s2.list ∧ s2.loader = none) ∧ order.Nodup := by
    cases step_eff hw hb with
    | walkBegin hp he => subst he; exact ⟨⟨ht, hl⟩, hp.nodup_iff.mpr (nodup_names hw.1)⟩
  obtain ⟨ht2, hnd⟩ := hp2
  obtain ⟨p, opened, buf, h1, _, h3, h4⟩ := single_save hw hn hb hr
  obtain ⟨e1, e2, e3⟩ := hd _ (List.mem_of_getElem? h1) rfl
  simp only at e1 e2 e3
  subst e1
  subst e2
  subst e3
  obtain ⟨cs, g1, g2, g3⟩ := h4 rfl
  rw [List.append_nil] at g1 g2
  have hz3 : ∀ c ∈ cs, NoNegZero c := fun c hc => by
    obtain ⟨s, r1, r2⟩ := g3 c hc
    exact (tame_run hw2 ht2.1 ht2.2 r1).1 _ c r2
  obtain ⟨m, k1, k2, k3⟩ := loadLines_spec hX now cs [] wf_nil hz3 (by rw [g1]; exact hnd) (by simp)
  refine ⟨m, by unfold loadIndex; rw [g2, readLines_content hX hz3]; exact k1, fun k hk => ?_, fun k hk => ?_⟩
  · unfold configOf at hk
    rw [k3 k] at hk
    cases hf : cs.find? (fun c => c.name = k ∧ Finite c) with
    | none => rw [hf] at hk; exact absurd hk (by simp)
    | some c =>
      have hp := List.find?_some hf
      simp only [decide_eq_true_eq] at hp
      rw [← g1, ← hp.1]
      exact List.mem_map.mpr ⟨c, List.mem_of_find?_eq_some hf, rfl⟩
  · rw [← g1] at hk
    obtain ⟨c, hc, hck⟩ := List.mem_map.mp hk
    obtain ⟨s, r1, r2⟩ := g3 c hc
    rw [hck] at r2
    refine ⟨c, s, r1, r2, fun hf => ?_⟩
    have : cs.find? (fun c => c.name = k ∧ Finite c) = some c := by
      cases hf' : cs.find? (fun c => c.name = k ∧ Finite c) with
      | none =>
        have := List.find?_eq_none.mp hf' c hc
        simp [hck, hf] at this
      | some c' =>
        have hp := List.find?_some hf'
        simp only [decide_eq_true_eq] at hp
        have hm := List.mem_of_find?_eq_some hf'
        have hnd' : (cs.map (·.name)).Nodup := by rw [g1]; exact hnd
        congr 1
        exact inj_of_nodup hnd' hm hc (hp.1.trans hck.symm)
    unfold configOf
    rw [k3 k, this]
    rfl

namespace DS
/-- Two creations, each starting a save.  The second save runs to its end before the first one opens the file. -/
def exOverlap1 : List Label := [.create (exA 1), .walkBegin true ["a"], .create exB]
def exOverlap2 : List Label :=
  [.walkOpen 1, .walkStep 1, .walkStep 1, .walkFlush 1 (content (toy 0) [exA 1, exB]).length,
   .walkOpen 0, .walkStep 0, .walkFlush 0 (content (toy 0) [exA 1]).length]

theorem exA_plain (v : UInt64) : Plain (exA v) := ⟨by show F64.mag 0 < _; decide, by show (0 : UInt64) ≠ 0x8000000000000000; decide⟩
theorem exB_plain : Plain exB := ⟨by decide, by show (0 : UInt64) ≠ 0x8000000000000000; decide⟩
end DS

/-- C79, counterexample: the older save ends last; the newer data set is missing from the index. -/
theorem C79_index_complete_fails : ¬ C79_index_complete_statement := by
  intro h
  obtain ⟨s1, h1, p1⟩ := any_some (o := exec (toy 0) (fresh 0 []) exOverlap1)
    (p := fun s1 => (step (toy 0) s1 (.walkBegin true ["a", "b"])).any fun (s2 : DState) =>
      (exec (toy 0) s2 exOverlap2).any fun (s3 : DState) =>
        decide (∀ w ∈ s3.walks, w.save = true → w.pending = [] ∧ w.opened = true ∧ w.buf = []) &&
        (match loadIndex (toy 0) 9 s3.file [] with
          | .ok m => (configOf m "b").isNone
          | _ => false)) (by decide +kernel)
  obtain ⟨s2, h2, p2⟩ := any_some p1
  obtain ⟨s3, h3, p3⟩ := any_some p2
  simp only [Bool.and_eq_true, decide_eq_true_eq] at p3
  obtain ⟨m, g1, g2⟩ := h (toy 0) (fresh 0 []) s1 s2 s3 ["a", "b"] "b" 9 (toy_ok 0) rfl rfl rfl
    (exec_run _ .refl (by
      intro l hl
      simp only [exOverlap1, List.mem_cons, List.not_mem_nil, or_false] at hl
      rcases hl with rfl | rfl | rfl
      · exact ⟨by simp, fun c hc => by injection hc with hc; rw [← hc]; exact exA_plain 1⟩
      · exact ⟨by simp, by simp⟩
      · exact ⟨by simp, fun c hc => by injection hc with hc; rw [← hc]; exact exB_plain⟩) h1) h2 (by simp)
    (exec_run _ .refl (by
      intro l hl
      simp only [exOverlap2, List.mem_cons, List.not_mem_nil, or_false] at hl
      rcases hl with rfl | rfl | rfl | rfl | rfl | rfl | rfl <;> exact ⟨by simp, fun h => h, by simp, by simp⟩) h3)
    p3.1
  rw [g1] at p3
  have := p3.2
  simp only at this
  cases hc : configOf m "b" with
  | none => exact g2 hc
  | some c => rw [hc] at this; exact absurd this (by simp)

end Veri
