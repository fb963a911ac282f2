import Verif.Dataset.Props
/-
The list of data sets under background activity: C52, C54, C55, C79, C80.
-/
set_option autoImplicit false
namespace Veri
open DS

namespace DS

theorem reach_trans {X : XEnv} {a b c : DState} (h1 : Reach X a b) (h2 : Reach X b c) : Reach X a c := by
  induction h2 with
  | refl => exact h1
  | step l _ hs ih => exact .step l ih hs

theorem exec_reach {X : XEnv} : ∀ (ls : List Label) {s s' : DState}, exec X s ls = some s' → Reach X s s'
  | [], s, s', h => by injection h with h; subst h; exact .refl
  | l :: ls, s, s', h => by
    unfold exec at h
    cases hs : step X s l with
    | none => rw [hs] at h; exact absurd h (by simp)
    | some s1 =>
      rw [hs] at h
      exact reach_trans (.step l .refl hs) (exec_reach ls h)

theorem any_some {α : Type} {o : Option α} {p : α → Bool} (h : o.any p = true) : ∃ a, o = some a ∧ p a = true := by
  cases o with
  | none => exact absurd h (by simp)
  | some a => exact ⟨a, rfl, h⟩

/-- A run in which every step satisfies `P`. -/
inductive Run (X : XEnv) (P : Label → Prop) (s0 : DState) : DState → Prop
  | refl : Run X P s0 s0
  | step {s s' : DState} (l : Label) : Run X P s0 s → P l → step X s l = some s' → Run X P s0 s'

theorem exec_run {X : XEnv} {P : Label → Prop} : ∀ (ls : List Label) {s0 s s' : DState}, Run X P s0 s → (∀ l ∈ ls, P l) →
    exec X s ls = some s' → Run X P s0 s'
  | [], s0, s, s', hr, _, h => by injection h with h; subst h; exact hr
  | l :: ls, s0, s, s', hr, hp, h => by
    unfold exec at h
    cases hs : step X s l with
    | none => rw [hs] at h; exact absurd h (by simp)
    | some s1 =>
      rw [hs] at h
      exact exec_run ls (.step l hr (hp l (by simp)) hs) (fun l' hl => hp l' (by simp [hl])) h

theorem wf_filter {m : DL} (h : WF m) (p : String × Slot → Bool) : WF (m.filter p) := by
  refine ⟨List.Nodup.sublist ((List.filter_sublist).map _) h.1, fun k s hs => ?_⟩
  have := AMap.mem_of_get? hs
  exact h.2 k s (AMap.get?_of_mem h.1 (List.mem_filter.mp this).1)

theorem get?_filter {m : DL} (hn : m.Nodup) (p : String × Slot → Bool) (k : String) :
    AMap.get? (m.filter p) k = (m.get? k).filter fun s => p (k, s) := by
  have hn' : AMap.Nodup (m.filter p) := List.Nodup.sublist ((List.filter_sublist).map _) hn
  cases h : AMap.get? m k with
  | none =>
    simp only [Option.filter_none]
    rw [AMap.get?_eq_none_iff]
    intro hk
    obtain ⟨q, hq, rfl⟩ := List.mem_map.mp hk
    have := AMap.get?_of_mem hn (List.mem_filter.mp hq).1
    rw [h] at this
    exact absurd this (by simp)
  | some s =>
    by_cases hp : p (k, s) = true
    · simp only [Option.filter, hp, if_true]
      exact AMap.get?_of_mem hn' (List.mem_filter.mpr ⟨AMap.mem_of_get? h, hp⟩)
    · simp only [Option.filter, hp]
      rw [if_neg (by simp), AMap.get?_eq_none_iff]
      intro hk
      obtain ⟨q, hq, rfl⟩ := List.mem_map.mp hk
      have hq' := List.mem_filter.mp hq
      have := AMap.get?_of_mem hn (k := q.1) (v := q.2) hq'.1
      rw [h] at this
      injection this with this
      subst this
      exact hp hq'.2

theorem eraseAll_wf : ∀ (r : List String) (m : DL), WF m → WF (r.foldl (fun m k => m.erase k) m)
  | [], _, h => h
  | x :: xs, m, h => eraseAll_wf xs _ (wf_erase h x)

theorem reloadRuns_wf {now : Int} {info : String → SourceId → Option DataInfo} {so : String → List SourceId}
    {ks : List String} {m m' : DL} (hw : WF m) (h : reloadRuns now info so ks m = .ok m') : WF m' := by
  unfold reloadRuns at h
  cases hr : inactive now info so m ks with
  | err e => rw [hr] at h; exact absurd h (by simp [Res.bind])
  | panic => rw [hr] at h; exact absurd h (by simp [Res.bind])
  | ok r =>
    rw [hr] at h
    simp only [Res.bind, Res.ok.injEq] at h
    rw [← h]
    exact eraseAll_wf r m hw

/-- Every step, as an effect on the list: what it does to each name. -/
inductive Eff (X : XEnv) (s : DState) (s' : DState) : Label → Prop
  | tick {now : Int} : s.now ≤ now → s' = { s with now := now } → Eff X s s' (.tick now)
  | create {c : DataConfig} {m1 : DL} {d : Data} : createIfNotExists s.now s.list c = .ok m1 → WF m1 →
      get X s.now m1 c.name = .ok (s'.list, d) → s' = { s with list := s'.list } → Eff X s s' (.create c)
  | use {name : String} {d : Data} : get X s.now s.list name = .ok (s'.list, d) → s' = { s with list := s'.list } →
      Eff X s s' (.use name)
  | delete {name : String} : s' = { s with list := s.list.erase name } → Eff X s s' (.delete name)
  | janitor : s' = { s with list := janitor s.now s.list } → Eff X s s' .janitor
  | reload {info : String → SourceId → Option DataInfo} {so : String → List SourceId} {ks : List String} :
      reloadRuns s.now info so ks s.list = .ok s'.list → s' = { s with list := s'.list } → Eff X s s' (.reload info so ks)
  | walkBegin {save : Bool} {order : List String} : order.Perm (names s.now s.list) →
      s' = { s with walks := s.walks ++ [⟨order, save, false, []⟩] } → Eff X s s' (.walkBegin save order)
  | walkOpen {j : Nat} {w : Walk} : s.walks[j]? = some w → w.save = true → w.opened = false →
      s' = { s with file := [], walks := s.walks.set j { w with opened := true } } → Eff X s s' (.walkOpen j)
  | walkStep {j : Nat} {k : String} {ks : List String} {save : Bool} {buf : Bytes} {d : Data} {c : DataConfig} :
      s.walks[j]? = some ⟨k :: ks, save, save, buf⟩ → get X s.now s.list k = .ok (s'.list, d) → d.config = some c →
      s' = { s with list := s'.list, walks := s.walks.set j ⟨ks, save, save, if save then buf ++ line X c else []⟩ } →
      Eff X s s' (.walkStep j)
  | walkFlush {j n : Nat} {w : Walk} : s.walks[j]? = some w → w.save = true → w.opened = true →
      ((w.pending = [] ∧ n = w.buf.length) ∨ (4096 < w.buf.length ∧ n ≤ w.buf.length)) →
      s' = { s with file := s.file ++ w.buf.take n, walks := s.walks.set j { w with buf := w.buf.drop n } } →
      Eff X s s' (.walkFlush j n)
  | loadBegin : s' = { s with loader := some (0, []) } → Eff X s s' .loadBegin
  | loadRead {r : Nat × Bytes} : s' = { s with loader := some r } → Eff X s s' .loadRead
  | loadSkip {r : Nat × Bytes} : s' = { s with loader := some r } → Eff X s s' .loadLine
  | loadLine {r : Nat × Bytes} {c : DataConfig} : createIfNotExists s.now s.list c = .ok s'.list →
      s' = { s with list := s'.list, loader := some r } → s.loader.isSome = true → Eff X s s' .loadLine
  | loadEnd : s' = { s with loader := none } → Eff X s s' .loadEnd

theorem step_eff {X : XEnv} {s s' : DState} {l : Label} (hw : WF s.list) (h : step X s l = some s') : Eff X s s' l := by
  cases l with
  | tick now =>
    simp only [step] at h
    split at h
    · rename_i hn; injection h with h; exact .tick hn h.symm
    · exact absurd h (by simp)
  | create c =>
    simp only [step, getOrCreate] at h
    obtain ⟨m1, h1, h2, _⟩ := create_ok (now := s.now) hw c
    rw [h1] at h
    simp only [Res.bind] at h
    cases hg : get X s.now m1 c.name with
    | err e => rw [hg] at h; exact absurd h (by simp)
    | panic => rw [hg] at h; exact absurd h (by simp)
    | ok r =>
      rw [hg] at h
      simp only [Option.some.injEq] at h
      subst h
      exact .create (d := r.2) h1 h2 hg rfl
  | use name =>
    simp only [step] at h
    cases hg : get X s.now s.list name with
    | err e => rw [hg] at h; exact absurd h (by simp)
    | panic => rw [hg] at h; exact absurd h (by simp)
    | ok r =>
      rw [hg] at h
      simp only [Option.some.injEq] at h
      subst h
      exact .use (d := r.2) hg rfl
  | delete name =>
    simp only [step, delete] at h
    cases hl : lookup s.now s.list name with
    | none => rw [hl] at h; exact absurd h (by simp)
    | some x =>
      rw [hl] at h
      simp only [Option.some.injEq] at h
      exact .delete h.symm
  | janitor =>
    simp only [step, Option.some.injEq] at h
    exact .janitor h.symm
  | reload info so ks =>
    simp only [step] at h
    cases hg : reloadRuns s.now info so ks s.list with
    | err e => rw [hg] at h; exact absurd h (by simp)
    | panic => rw [hg] at h; exact absurd h (by simp)
    | ok r =>
      rw [hg] at h
      simp only [Option.some.injEq] at h
      subst h
      exact .reload hg rfl
  | walkBegin save order =>
    simp only [step] at h
    split at h
    · rename_i hp
      injection h with h
      exact .walkBegin (List.isPerm_iff.mp hp) h.symm
    · exact absurd h (by simp)
  | walkOpen j =>
    simp only [step] at h
    cases hj : s.walks[j]? with
    | none => rw [hj] at h; exact absurd h (by simp)
    | some w =>
      rw [hj] at h
      simp only at h
      split at h
      · rename_i hc
        injection h with h
        exact .walkOpen hj hc.1 hc.2 h.symm
      · exact absurd h (by simp)
  | walkStep j =>
    simp only [step] at h
    cases hj : s.walks[j]? with
    | none => rw [hj] at h; exact absurd h (by simp)
    | some w =>
      obtain ⟨pending, save, opened, buf⟩ := w
      rw [hj] at h
      cases pending with
      | nil => exact absurd h (by simp)
      | cons k ks =>
        simp only at h
        split at h
        · rename_i hso
          subst hso
          cases hg : get X s.now s.list k with
          | err e => rw [hg] at h; exact absurd h (by simp)
          | panic => rw [hg] at h; exact absurd h (by simp)
          | ok r =>
            rw [hg] at h
            simp only at h
            cases hc : r.2.config with
            | none => rw [hc] at h; exact absurd h (by simp)
            | some c =>
              rw [hc] at h
              simp only [Option.some.injEq] at h
              subst h
              exact .walkStep (d := r.2) hj hg hc rfl
        · exact absurd h (by simp)
  | walkFlush j n =>
    simp only [step] at h
    cases hj : s.walks[j]? with
    | none => rw [hj] at h; exact absurd h (by simp)
    | some w =>
      rw [hj] at h
      simp only at h
      split at h
      · rename_i hc
        injection h with h
        exact .walkFlush hj hc.1 hc.2.1 hc.2.2 h.symm
      · exact absurd h (by simp)
  | loadBegin =>
    simp only [step] at h
    split at h
    · injection h with h; exact .loadBegin h.symm
    · exact absurd h (by simp)
  | loadRead =>
    simp only [step] at h
    cases hl : s.loader with
    | none => rw [hl] at h; exact absurd h (by simp)
    | some r =>
      rw [hl] at h
      simp only at h
      split at h
      · injection h with h; exact .loadRead h.symm
      · exact absurd h (by simp)
  | loadLine =>
    simp only [step] at h
    cases hl : s.loader with
    | none => rw [hl] at h; exact absurd h (by simp)
    | some r =>
      rw [hl] at h
      simp only at h
      split at h
      · cases hu : X.unmarshal (cutLine r.2).1 with
        | none =>
          rw [hu] at h
          simp only [Option.some.injEq] at h
          exact .loadSkip h.symm
        | some c =>
          rw [hu] at h
          simp only at h
          obtain ⟨m1, h1, h2, _⟩ := create_ok (now := s.now) hw c
          rw [h1] at h
          simp only [Option.some.injEq] at h
          subst h
          exact .loadLine h1 rfl (by rw [hl]; rfl)
      · exact absurd h (by simp)
  | loadEnd =>
    simp only [step] at h
    cases hl : s.loader with
    | none => rw [hl] at h; exact absurd h (by simp)
    | some r =>
      rw [hl] at h
      simp only at h
      split at h
      · injection h with h; exact .loadEnd h.symm
      · exact absurd h (by simp)

theorem get_wf {X : XEnv} {now : Int} {m m' : DL} {k : String} {d : Data} (hw : WF m) (h : get X now m k = .ok (m', d)) :
    WF m' ∧ (∀ k', k' ≠ k → m'.get? k' = m.get? k') ∧ ∃ c, d.config = some c ∧ c.name = k := by
  obtain ⟨m1, d1, c, h1, h2, h3, h4, h5, _⟩ := get_ok (X := X) (now := now) hw k
  rw [h1] at h
  injection h with h
  injection h with ha hb
  subst ha
  subst hb
  exact ⟨h4, h5, c, h2, h3⟩

theorem create_wf {now : Int} {m m' : DL} {c : DataConfig} (hw : WF m) (h : createIfNotExists now m c = .ok m') :
    WF m' ∧ ∀ k', k' ≠ c.name → m'.get? k' = m.get? k' := by
  obtain ⟨m1, h1, h2, _, h4⟩ := create_ok (now := now) hw c
  rw [h1] at h
  injection h with h
  subst h
  exact ⟨h2, h4⟩

theorem step_wf {X : XEnv} {s s' : DState} {l : Label} (hw : WF s.list) (h : step X s l = some s') : WF s'.list := by
  cases step_eff hw h with
  | tick _ he => rw [he]; exact hw
  | create _ h1 h2 _ => exact (get_wf h1 h2).1
  | use h1 _ => exact (get_wf hw h1).1
  | delete he => rw [he]; exact wf_erase hw _
  | janitor he => rw [he]; exact wf_filter hw _
  | reload he _ => exact reloadRuns_wf hw he
  | walkBegin _ he => rw [he]; exact hw
  | walkOpen _ _ _ he => rw [he]; exact hw
  | walkStep _ h1 _ _ => exact (get_wf hw h1).1
  | walkFlush _ _ _ _ he => rw [he]; exact hw
  | loadBegin he => rw [he]; exact hw
  | loadRead he => rw [he]; exact hw
  | loadSkip he => rw [he]; exact hw
  | loadLine h1 _ _ => exact (create_wf hw h1).1
  | loadEnd he => rw [he]; exact hw

theorem reach_wf {X : XEnv} {s0 s : DState} (hw : WF s0.list) (h : Reach X s0 s) : WF s.list := by
  induction h with
  | refl => exact hw
  | step l _ hs ih => exact step_wf ih hs

theorem run_wf {X : XEnv} {P : Label → Prop} {s0 s : DState} (hw : WF s0.list) (h : Run X P s0 s) : WF s.list := by
  induction h with
  | refl => exact hw
  | step l _ _ hs ih => exact step_wf ih hs

/-- Somebody creates, inserts into or asks for the data set. -/
def Asks (name : String) : Label → Prop
  | .create c => c.name = name
  | .use k => k = name
  | _ => False

/-- Nothing under way holds the name: no background walk has it on its list, and no index is being loaded. -/
def Unheld (name : String) (s : DState) : Prop := (∀ w ∈ s.walks, name ∉ w.pending) ∧ s.loader = none

theorem mem_set_cases {α : Type} {l : List α} {j : Nat} {a x : α} (h : x ∈ l.set j a) : x = a ∨ x ∈ l :=
  (List.mem_or_eq_of_mem_set h).symm

/-- What a step by others does to a data set that nothing under way holds: it stays as it is or goes. -/
theorem unheld_step {X : XEnv} {s s' : DState} {l : Label} {name : String} (hw : WF s.list) (hu : Unheld name s)
    (ha : ¬ Asks name l) (hb : l ≠ .loadBegin) (h : step X s l = some s') :
    (s'.list.get? name = s.list.get? name ∨ s'.list.get? name = none) ∧ s.now ≤ s'.now ∧ s'.loader = none ∧
      ((∀ save order, l ≠ .walkBegin save order) ∨ lookup s.now s.list name = none → Unheld name s') := by
  have keep : ∀ (j : Nat) (w w' : Walk), s.walks[j]? = some w → (∀ k ∈ w'.pending, k ∈ w.pending) →
      ∀ x ∈ s.walks.set j w', name ∉ x.pending := by
    intro j w w' hj hs x hx
    rcases mem_set_cases hx with rfl | hx
    · intro hn; exact hu.1 w (List.mem_of_getElem? hj) (hs _ hn)
    · exact hu.1 x hx
  cases step_eff hw h with
  | tick hn he => subst he; exact ⟨Or.inl rfl, hn, hu.2, fun _ => hu⟩
  | @create c m1 d h0 h1 h2 h3 =>
    have hc : name ≠ c.name := fun e => ha e.symm
    rw [h3]
    refine ⟨Or.inl ?_, Int.le_refl _, hu.2, fun _ => hu⟩
    simp only
    rw [(get_wf h1 h2).2.1 name hc, (create_wf hw h0).2 name hc]
  | @use k d h1 h2 =>
    have hc : name ≠ k := fun e => ha e.symm
    rw [h2]
    exact ⟨Or.inl ((get_wf hw h1).2.1 name hc), Int.le_refl _, hu.2, fun _ => hu⟩
  | delete he =>
    subst he
    refine ⟨?_, Int.le_refl _, hu.2, fun _ => hu⟩
    simp only
    rw [AMap.get?_erase]
    split
    · exact Or.inr rfl
    · exact Or.inl rfl
  | janitor he =>
    subst he
    refine ⟨?_, Int.le_refl _, hu.2, fun _ => hu⟩
    simp only [janitor]
    rw [get?_filter hw.1]
    cases AMap.get? s.list name with
    | none => exact Or.inr rfl
    | some x => cases hx : live s.now x <;> simp [Option.filter, hx]
  | reload h1 h2 =>
    rw [h2]
    refine ⟨?_, Int.le_refl _, hu.2, fun _ => hu⟩
    simp only
    rcases reloadRuns_spec h1 name with h3 | h3
    · exact Or.inl h3
    · exact Or.inr h3.1
  | @walkBegin save order hp he =>
    subst he
    refine ⟨Or.inl rfl, Int.le_refl _, hu.2, fun hor => ⟨fun w hwm => ?_, hu.2⟩⟩
    rcases hor with hor | hor
    · exact absurd rfl (hor save order)
    · simp only [List.mem_append, List.mem_singleton] at hwm
      rcases hwm with hwm | rfl
      · exact hu.1 w hwm
      · intro hn
        have := (mem_names hw.1).mp (hp.mem_iff.mp hn)
        rw [hor] at this
        exact absurd this (by simp)
  | walkOpen hj _ _ he => subst he; exact ⟨Or.inl rfl, Int.le_refl _, hu.2, fun _ => ⟨keep _ _ _ hj (fun _ h => h), hu.2⟩⟩
  | @walkStep j k ks save buf d c hj h1 h2 h3 =>
    have hc : name ≠ k := fun e => hu.1 _ (List.mem_of_getElem? hj) (by simp [e])
    rw [h3]
    exact ⟨Or.inl ((get_wf hw h1).2.1 name hc), Int.le_refl _, hu.2,
      fun _ => ⟨keep _ _ _ hj (fun _ h => List.mem_cons_of_mem _ h), hu.2⟩⟩
  | walkFlush hj _ _ _ he => subst he; exact ⟨Or.inl rfl, Int.le_refl _, hu.2, fun _ => ⟨keep _ _ _ hj (fun _ h => h), hu.2⟩⟩
  | loadBegin h => exact absurd rfl hb
  | loadRead he => simp [step, hu.2] at h
  | loadSkip he => simp [step, hu.2] at h
  | loadLine h1 h2 h3 => rw [hu.2] at h3; exact absurd h3 (by simp)
  | loadEnd he => subst he; exact ⟨Or.inl rfl, Int.le_refl _, rfl, fun _ => ⟨hu.1, rfl⟩⟩

theorem live_mono {now now' : Int} {s : Slot} (h : now ≤ now') (hl : live now s = false) : live now' s = false := by
  unfold live at hl ⊢
  split
  · rename_i he; rw [he] at hl; exact absurd hl (by simp)
  · rename_i e he
    rw [he] at hl
    simp only [decide_eq_false_iff_not] at hl ⊢
    omega

theorem unlisted_step {X : XEnv} {s s' : DState} {l : Label} {name : String} (hw : WF s.list) (hu : Unheld name s)
    (ha : ¬ Asks name l) (hb : l ≠ .loadBegin) (hl : lookup s.now s.list name = none) (h : step X s l = some s') :
    lookup s'.now s'.list name = none ∧ Unheld name s' := by
  obtain ⟨h1, h2, _, h4⟩ := unheld_step hw hu ha hb h
  refine ⟨lookup_none.mpr fun x hx => ?_, h4 (Or.inr hl)⟩
  rcases h1 with h1 | h1
  · rw [h1] at hx
    exact live_mono h2 (lookup_none.mp hl x hx)
  · rw [h1] at hx
    exact absurd hx (by simp)

end DS

/-! ### C54 -/

/-- C54, the claim in full: right after a delete, nothing but a request for the name lists it again. -/
def C54_deleted_statement : Prop :=
  ∀ (X : XEnv) (s0 s1 s2 s3 : DState) (name : String), X.Ok → s0.list = [] → s0.walks = [] → s0.loader = none →
    Reach X s0 s1 → step X s1 (.delete name) = some s2 →
    Run X (fun l => ¬ Asks name l ∧ l ≠ .loadBegin) s2 s3 → lookup s3.now s3.list name = none

/-- C54, what holds: it stays unlisted if, when it is deleted, no background walk under way still has it on its list (and
the index is not being loaded). -/
theorem C54_deleted_partial {X : XEnv} (s0 s1 s2 s3 : DState) (name : String) (hs : WF s0.list)
    (hr : Reach X s0 s1) (hd : step X s1 (.delete name) = some s2) (hu : Unheld name s1)
    (h : Run X (fun l => ¬ Asks name l ∧ l ≠ .loadBegin) s2 s3) :
    lookup s3.now s3.list name = none := by
  have hw1 := reach_wf hs hr
  have hw2 := step_wf hw1 hd
  have h2 : lookup s2.now s2.list name = none ∧ Unheld name s2 := by
    cases step_eff hw1 hd with
    | delete he =>
      subst he
      exact ⟨lookup_none.mpr (by simp only; rw [AMap.get?_erase_self]; simp), hu⟩
  suffices lookup s3.now s3.list name = none ∧ Unheld name s3 from this.1
  induction h with
  | refl => exact h2
  | step l hr hp hs ih => exact unlisted_step (run_wf hw2 hr) ih.2 hp.1 hp.2 ih.1 hs

namespace DS
/-- A data set is created, a background walk (for instance of `DataConfigList`) takes the names, the data set is deleted. -/
def exDeleted : List Label := [.create (exA 1), .walkBegin false ["a"]]
end DS

/-- C54, counterexample: the walk then asks `Get` for the name and so creates it again. -/
theorem C54_deleted_fails : ¬ C54_deleted_statement := by
  intro h
  have hx : (((exec (toy 0) (fresh 0 []) exDeleted).bind fun s1 => (step (toy 0) s1 (.delete "a")).bind fun s2 =>
      (exec (toy 0) s2 [.walkStep 0]).map fun s3 => (lookup s3.now s3.list "a").isSome)) = some true := by decide +kernel
  cases h1 : exec (toy 0) (fresh 0 []) exDeleted with
  | none => rw [h1] at hx; exact absurd hx (by simp)
  | some s1 =>
    rw [h1] at hx
    simp only [Option.bind_some] at hx
    cases h2 : step (toy 0) s1 (.delete "a") with
    | none => rw [h2] at hx; exact absurd hx (by simp)
    | some s2 =>
      rw [h2] at hx
      simp only [Option.bind_some] at hx
      cases h3 : exec (toy 0) s2 [.walkStep 0] with
      | none => rw [h3] at hx; exact absurd hx (by simp)
      | some s3 =>
        rw [h3] at hx
        simp only [Option.map_some, Option.some.injEq] at hx
        have := h (toy 0) (fresh 0 []) s1 s2 s3 "a" (toy_ok 0) rfl rfl rfl (exec_reach _ h1) h2
          (exec_run [.walkStep 0] .refl (by intro l hl; rw [List.mem_singleton.mp hl]; exact ⟨fun h => h, by simp⟩) h3)
        rw [this] at hx
        exact absurd hx (by decide)

/-- C54, an instance of the partial theorem: the walk has passed the name. -/
example : ∃ s1 s2 s3, Reach (toy 0) (fresh 0 []) s1 ∧ step (toy 0) s1 (.delete "a") = some s2 ∧ Unheld "a" s1 ∧
    lookup s1.now s1.list "a" ≠ none ∧ s1.walks ≠ [] ∧
    Run (toy 0) (fun l => ¬ Asks "a" l ∧ l ≠ .loadBegin) s2 s3 ∧ s3 ≠ s2 := by
  obtain ⟨s1, h1, p1⟩ := any_some (o := exec (toy 0) (fresh 0 []) (exDeleted ++ [.walkStep 0]))
    (p := fun s1 => decide (∀ w ∈ s1.walks, "a" ∉ w.pending) && decide (s1.loader = none) &&
      decide (lookup s1.now s1.list "a" ≠ none) && decide (s1.walks ≠ []) &&
      (step (toy 0) s1 (.delete "a")).any fun s2 => (exec (toy 0) s2 [.walkBegin true [], .use "b"]).any fun s3 =>
        decide (s3 ≠ s2)) (by decide +kernel)
  simp only [Bool.and_eq_true, decide_eq_true_eq] at p1
  obtain ⟨⟨⟨⟨q1, q2⟩, q3⟩, q4⟩, q5⟩ := p1
  obtain ⟨s2, h2, p2⟩ := any_some q5
  obtain ⟨s3, h3, p3⟩ := any_some p2
  refine ⟨s1, s2, s3, exec_reach _ h1, h2, ⟨q1, q2⟩, q3, q4, exec_run _ .refl ?_ h3, by simpa using p3⟩
  intro l hl
  simp only [List.mem_cons, List.not_mem_nil, or_false] at hl
  rcases hl with rfl | rfl
  · exact ⟨fun h => h, by simp⟩
  · exact ⟨fun h => absurd (show "b" = "a" from h) (by decide), by simp⟩

/-! ### C55 -/

/-- C55, the claim in full: once the expiry time has passed and nobody has asked for the data set, it is not listed, and the
janitor takes it out. -/
def C55_expires_statement : Prop :=
  ∀ (X : XEnv) (s0 s1 s2 s3 : DState) (name : String) (x : Slot) (e : Int), X.Ok → s0.list = [] → s0.walks = [] →
    s0.loader = none → Reach X s0 s1 → s1.loader = none → lookup s1.now s1.list name = some x → x.expires = some e →
    Run X (fun l => ¬ Asks name l ∧ l ≠ .loadBegin) s1 s2 → e < s2.now →
    lookup s2.now s2.list name = none ∧ (step X s2 .janitor = some s3 → s3.list.get? name = none)

/-- C55, what holds: if in that time no background walk starts or holds the name. -/
theorem C55_expires_partial {X : XEnv} (s0 s1 s2 s3 : DState) (name : String) (x : Slot) (e : Int) (hs : WF s0.list)
    (hr : Reach X s0 s1) (hu : Unheld name s1) (hx : s1.list.get? name = some x) (he : x.expires = some e)
    (h : Run X (fun l => ¬ Asks name l ∧ l ≠ .loadBegin ∧ ∀ save order, l ≠ .walkBegin save order) s1 s2) (hn : e < s2.now) :
    lookup s2.now s2.list name = none ∧ (step X s2 .janitor = some s3 → s3.list.get? name = none) := by
  have hw1 := reach_wf hs hr
  have hw2 := run_wf hw1 h
  have key : (s2.list.get? name = some x ∨ s2.list.get? name = none) ∧ Unheld name s2 := by
    clear hn hw2
    induction h with
    | refl => exact ⟨Or.inl hx, hu⟩
    | step l hr' hp hs' ih =>
      obtain ⟨h1, _, _, h4⟩ := unheld_step (run_wf hw1 hr') ih.2 hp.1 hp.2.1 hs'
      refine ⟨?_, h4 (Or.inl hp.2.2)⟩
      rcases h1 with h1 | h1
      · rw [h1]; exact ih.1
      · exact Or.inr h1
  have hl : lookup s2.now s2.list name = none := by
    refine lookup_none.mpr fun y hy => ?_
    rcases key.1 with h1 | h1
    · rw [h1] at hy
      injection hy with hy
      subst hy
      unfold live
      rw [he]
      simp only [decide_eq_false_iff_not]
      omega
    · rw [h1] at hy; exact absurd hy (by simp)
  refine ⟨hl, fun hj => ?_⟩
  simp only [step, Option.some.injEq] at hj
  subst hj
  simp only [janitor]
  rw [get?_filter hw2.1]
  exact hl

namespace DS
/-- The clean-up, a delete or an upgrade of this data set. -/
def Changes (name : String) : Label → Prop
  | .create c => c.name = name
  | .delete k => k = name
  | .reload _ _ _ => True
  | _ => False

/-- `Get` on a listed data set with a positive retention. -/
theorem get_extends {X : XEnv} (hX : X.Ok) {now : Int} {m m' : DL} {k : String} {d : Data} {x : Slot} {c : DataConfig}
    {e : Int} (hl : lookup now m k = some x) (hc : x.data.config = some c) (he : x.expires = some e)
    (hd : 0 < getRetention c.retention) (h : get X now m k = .ok (m', d)) :
    ∃ e', m'.get? k = some { x with expires := some e' } ∧ now + getRetention c.retention ≤ e' := by
  rw [get_old hl hc] at h
  injection h with h
  injection h with h1 h2
  have hv := (lookup_some.mp hl).2
  unfold live at hv
  rw [he] at hv
  simp only [decide_eq_true_eq] at hv
  obtain ⟨e', g1, g2, _⟩ := hX.extend e now _ hv hd
  refine ⟨e', ?_, g2⟩
  rw [← h1, AMap.get?_set_self, he, g1]

/-- The object is listed until `t`, at least. -/
def Kept (name : String) (c : DataConfig) (t : Int) (s : DState) : Prop :=
  ∃ x e, s.list.get? name = some x ∧ x.data.config = some c ∧ x.expires = some e ∧ t ≤ e

theorem kept_get {X : XEnv} (hX : X.Ok) {now : Int} {m m' : DL} {k name : String} {d : Data} {c : DataConfig} {t : Int}
    (hw : WF m) (hd : 0 < getRetention c.retention) (ht : now ≤ t)
    (hk : ∃ x e, m.get? name = some x ∧ x.data.config = some c ∧ x.expires = some e ∧ t ≤ e)
    (hb : t ≤ now + getRetention c.retention) (h : get X now m k = .ok (m', d)) :
    ∃ x e, m'.get? name = some x ∧ x.data.config = some c ∧ x.expires = some e ∧ t ≤ e := by
  obtain ⟨x, e, h1, h2, h3, h4⟩ := hk
  by_cases hkn : name = k
  · subst hkn
    have hl : lookup now m name = some x := lookup_some.mpr ⟨h1, by unfold live; rw [h3]; simp only [decide_eq_true_eq]; omega⟩
    obtain ⟨e', g1, g2⟩ := get_extends hX hl h2 h3 hd h
    exact ⟨_, e', g1, h2, rfl, by omega⟩
  · exact ⟨x, e, by rw [(get_wf hw h).2.1 name hkn]; exact h1, h2, h3, h4⟩
end DS

/-- C55, the reason: a data set that was visited at time `t` (by a client or by a background walk, as of `SaveIndex` or
`DataConfigList`, which run every minute) is listed until `t` plus its retention, whatever else goes on, unless it is
deleted, cleaned up or upgraded. -/
theorem C55_visited_stays_partial {X : XEnv} (hX : X.Ok) (s1 s2 : DState) (name : String) (c : DataConfig) (t : Int)
    (hw : WF s1.list) (hd : 0 < getRetention c.retention)
    (hk : ∃ x e, s1.list.get? name = some x ∧ x.data.config = some c ∧ x.expires = some e ∧ t + getRetention c.retention ≤ e)
    (ht : t ≤ s1.now) (hl : s1.loader = none)
    (h : Run X (fun l => ¬ Changes name l ∧ l ≠ .loadBegin) s1 s2) (hn : s2.now ≤ t + getRetention c.retention) :
    (lookup s2.now s2.list name).isSome = true := by
  have key : s2.now ≤ t + getRetention c.retention →
      Kept name c (t + getRetention c.retention) s2 ∧ s1.now ≤ s2.now ∧ s2.loader = none := by
    clear hn
    induction h with
    | refl => exact fun _ => ⟨hk, Int.le_refl _, hl⟩
    | @step s s' l hr' hp hs' ih =>
      intro hn
      have hws := run_wf hw hr'
      have hmono : s.now ≤ s'.now := by
        cases step_eff hws hs' with
        | tick hh he => rw [he]; exact hh
        | create _ _ _ he => rw [he]; exact Int.le_refl _
        | use _ he => rw [he]; exact Int.le_refl _
        | delete he => rw [he]; exact Int.le_refl _
        | janitor he => rw [he]; exact Int.le_refl _
        | reload _ he => rw [he]; exact Int.le_refl _
        | walkBegin _ he => rw [he]; exact Int.le_refl _
        | walkOpen _ _ _ he => rw [he]; exact Int.le_refl _
        | walkStep _ _ _ he => rw [he]; exact Int.le_refl _
        | walkFlush _ _ _ _ he => rw [he]; exact Int.le_refl _
        | loadBegin he => rw [he]; exact Int.le_refl _
        | loadRead he => rw [he]; exact Int.le_refl _
        | loadSkip he => rw [he]; exact Int.le_refl _
        | loadLine _ he _ => rw [he]; exact Int.le_refl _
        | loadEnd he => rw [he]; exact Int.le_refl _
      obtain ⟨i1, i2, i3⟩ := ih (by omega)
      refine ⟨?_, by omega, ?_⟩
      · have i1' := i1
        obtain ⟨x, e, k1, k2, k3, k4⟩ := i1
        cases step_eff hws hs' with
        | tick hh he => rw [he]; exact i1'
        | @create c' m1 d h0 h1 h2 he =>
          have hc' : name ≠ c'.name := fun e => hp.1 e.symm
          refine ⟨x, e, ?_, k2, k3, k4⟩
          rw [(get_wf h1 h2).2.1 name hc', (create_wf hws h0).2 name hc']
          exact k1
        | use h1 he => exact kept_get hX hws hd (by omega) i1' (by omega) h1
        | @delete k he =>
          have hc' : k ≠ name := fun e => hp.1 e
          refine ⟨x, e, ?_, k2, k3, k4⟩
          rw [he]
          simp only
          rw [AMap.get?_erase_ne _ hc']
          exact k1
        | janitor he =>
          refine ⟨x, e, ?_, k2, k3, k4⟩
          rw [he]
          simp only [janitor]
          rw [get?_filter hws.1, k1]
          have : live s.now x = true := by unfold live; rw [k3]; simp only [decide_eq_true_eq]; omega
          simp [Option.filter, this]
        | reload _ _ => exact absurd trivial hp.1
        | walkBegin _ he => rw [he]; exact i1'
        | walkOpen _ _ _ he => rw [he]; exact i1'
        | walkStep _ h1 _ he => exact kept_get hX hws hd (by omega) i1' (by omega) h1
        | walkFlush _ _ _ _ he => rw [he]; exact i1'
        | loadBegin he => exact absurd rfl hp.2
        | loadRead he => rw [he]; exact i1'
        | loadSkip he => rw [he]; exact i1'
        | loadLine _ _ h3 => rw [i3] at h3; exact absurd h3 (by simp)
        | loadEnd he => rw [he]; exact i1'
      · cases step_eff hws hs' with
        | tick hh he => rw [he]; exact i3
        | create _ _ _ he => rw [he]; exact i3
        | use _ he => rw [he]; exact i3
        | delete he => rw [he]; exact i3
        | janitor he => rw [he]; exact i3
        | reload _ he => rw [he]; exact i3
        | walkBegin _ he => rw [he]; exact i3
        | walkOpen _ _ _ he => rw [he]; exact i3
        | walkStep _ _ _ he => rw [he]; exact i3
        | walkFlush _ _ _ _ he => rw [he]; exact i3
        | loadBegin he => exact absurd rfl hp.2
        | loadRead he => simp [step, i3] at hs'
        | loadSkip he => simp [step, i3] at hs'
        | loadLine _ _ h3 => rw [i3] at h3; exact absurd h3 (by simp)
        | loadEnd he => rw [he]
  obtain ⟨⟨x, e, h1, _, h3, h4⟩, _⟩ := key hn
  rw [lookup_some.mpr ⟨h1, by unfold live; rw [h3]; simp only [decide_eq_true_eq]; omega⟩]
  rfl

namespace DS
/-- Retention 60 seconds; nobody asks for the data set in two minutes, but a background walk does. -/
def exIdle : List Label := [.walkBegin false ["a"], .tick (50 * second), .walkStep 0, .tick (1 + 120 * second)]
end DS

/-- C55, counterexample: a background walk keeps the data set. -/
theorem C55_expires_fails : ¬ C55_expires_statement := by
  intro h
  obtain ⟨s1, h1, p1⟩ := any_some (o := exec (toy 0) (fresh 0 []) [.create (exA 1)])
    (p := fun s1 => decide (s1.loader = none) && (lookup s1.now s1.list "a").any fun (x : Slot) =>
      decide (x.expires = some (120 * second)) && (exec (toy 0) s1 exIdle).any fun (s2 : DState) =>
        decide (120 * second < s2.now) && (lookup s2.now s2.list "a").isSome) (by decide +kernel)
  simp only [Bool.and_eq_true, decide_eq_true_eq] at p1
  obtain ⟨q1, q2⟩ := p1
  obtain ⟨x, hx, q3⟩ := any_some q2
  simp only [Bool.and_eq_true, decide_eq_true_eq] at q3
  obtain ⟨s2, h2, q4⟩ := any_some q3.2
  simp only [Bool.and_eq_true, decide_eq_true_eq] at q4
  have := (h (toy 0) (fresh 0 []) s1 s2 s2 "a" x (120 * second) (toy_ok 0) rfl rfl rfl (exec_reach _ h1) q1 hx q3.1
    (exec_run _ .refl (by
      intro l hl
      simp only [exIdle, List.mem_cons, List.not_mem_nil, or_false] at hl
      rcases hl with rfl | rfl | rfl | rfl <;> exact ⟨fun h => h, by simp⟩) h2) q4.1).1
  rw [this] at q4
  exact absurd q4.2 (by decide)

/-- C55, an instance: without the walk it is gone. -/
example : ((exec (toy 0) (fresh 0 []) [.create (exA 1), .create exB, .tick (1 + 120 * second), .janitor]).map
    fun s => names s.now s.list) = some [] := by decide +kernel

end Veri
