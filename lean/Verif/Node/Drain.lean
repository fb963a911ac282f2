import Verif.Node.Props
import Verif.Dataset.Conc
/-
C62: readiness and draining.
-/
set_option autoImplicit false
namespace Veri
open Net

namespace Net

theorem step_drain {X : DS.XEnv} {s s' : NS} {e : Ev} (h : step X s e = some s') :
    (s.node.drain = true → s'.node.drain = true) ∧
    (s'.node.ready = true → s.node.ready = true ∨ ∃ ps, e = .sync ps) ∧
    (s.node.ready = true → s'.node.ready = true ∨ e = .close) ∧
    ((∃ ps, e = .sync ps) → s'.node.ready = true) ∧ (e = .close → s'.node.ready = false ∧ s'.node.drain = true) := by
  cases e with
  | tick now =>
    simp only [step] at h
    split at h <;> cases h
    simp
  | announce p =>
    simp only [step, Option.some.injEq] at h
    subst h
    unfold Net.announce
    split <;> simp <;> exact Or.inl
  | sync ps =>
    simp only [step] at h
    split at h
    · rename_i n o hs
      cases h
      unfold syncWithPeers at hs
      cases hl : syncLoop X s.now ps s.node with
      | ok r =>
        rw [hl] at hs
        simp only [Res.bind, Res.ok.injEq, Prod.mk.injEq] at hs
        obtain ⟨rfl, -⟩ := hs
        obtain ⟨t, sv, m, he, -⟩ := syncLoop_eff ps (n' := r.1) (out := r.2) hl
        simp [he]
      | err e => rw [hl] at hs; cases hs
      | panic => rw [hl] at hs; cases hs
    · cases h
  | learn a =>
    simp only [step, Option.some.injEq] at h
    subst h
    unfold Net.learn
    split
    · simp
    · split <;> simp <;> exact Or.inl
  | close =>
    simp only [step, Option.some.injEq] at h
    subst h
    simp [Net.close]
  | janitor id0 =>
    simp only [step] at h
    split at h
    · split at h <;> cases h
      simp
    · cases h

end Net

/-- C62, full statement. -/
def C62_statement : Prop := ∀ (X : DS.XEnv), X.Ok → ∀ (port : UInt32) (adv sv : List String) (now : Int) (es fs : List Ev) (s : NS),
  run X ⟨now, newNode port adv sv []⟩ (es ++ .close :: fs) = some s → (getReady s.node).1 = 503

/-- The periodic synchronisation, which nothing stops, makes a closing node ready again. -/
theorem C62_fails : ¬ C62_statement := by
  intro h
  have := h (DS.toy 0) (DS.toy_ok 0) 7000 ["me:7000"] [] exNow [.sync []] [.sync []] ⟨exNow, { exNode with ready := true, drain := true }⟩
    (by rfl)
  revert this
  decide +kernel

/-- What happens: from the beginning of the shutdown on the endpoint answers 503 until a synchronisation ends, and 200 from
then on. -/
theorem C62_exact {X : DS.XEnv} (s0 s : NS) (es fs : List Ev) (hf : ∀ e ∈ fs, e ≠ .close) (h : run X s0 (es ++ .close :: fs) = some s) :
    (getReady s.node).1 = 200 ↔ ∃ ps, Ev.sync ps ∈ fs := by
  have hg : ∀ n : Node, (getReady n).1 = 200 ↔ n.ready = true := by
    intro n; unfold getReady; split <;> simp [*]
  rw [hg]
  rw [run_append] at h
  cases h1 : run X s0 es with
  | none => rw [h1] at h; cases h
  | some s1 =>
    rw [h1] at h
    simp only [Option.bind_some, run] at h
    cases h2 : step X s1 .close with
    | none => rw [h2] at h; cases h
    | some s2 =>
      rw [h2] at h
      have hr : s2.node.ready = false := ((step_drain h2).2.2.2.2 rfl).1
      have key : ∀ (fs : List Ev) (s2 : NS), (∀ e ∈ fs, e ≠ .close) → run X s2 fs = some s →
          (s.node.ready = true ↔ s2.node.ready = true ∨ ∃ ps, Ev.sync ps ∈ fs) := by
        intro fs
        induction fs with
        | nil => intro s2 _ h; simp only [run, Option.some.injEq] at h; subst h; simp
        | cons e fs ih =>
          intro s2 hf h
          rw [run] at h
          cases h3 : step X s2 e with
          | none => rw [h3] at h; cases h
          | some s3 =>
            rw [h3] at h
            rw [ih s3 (fun e he => hf e (by simp [he])) h]
            have hd := step_drain h3
            constructor
            · rintro (hr | ⟨ps, hp⟩)
              · rcases hd.2.1 hr with h | ⟨ps, rfl⟩
                · exact Or.inl h
                · exact Or.inr ⟨ps, by simp⟩
              · exact Or.inr ⟨ps, by simp [hp]⟩
            · rintro (hr | ⟨ps, hp⟩)
              · rcases hd.2.2.1 hr with h | h
                · exact Or.inl h
                · exact absurd h (hf e (by simp))
              · rcases List.mem_cons.mp hp with hp | hp
                · exact Or.inl (hd.2.2.2.1 ⟨ps, hp.symm⟩)
                · exact Or.inr ⟨ps, hp⟩
      rw [key fs s2 hf h, hr]
      simp

/-- C62, the part that holds: as long as no synchronisation ends after the beginning of the shutdown (the statement quantifies
over those too), the node stays not ready. -/
theorem C62_partial {X : DS.XEnv} (s0 s : NS) (es fs : List Ev) (hf : ∀ ps, Ev.sync ps ∉ fs)
    (h : run X s0 (es ++ .close :: fs) = some s) : (getReady s.node).1 = 503 := by
  have key : ∀ (fs : List Ev) (s2 : NS), (∀ ps, Ev.sync ps ∉ fs) → run X s2 fs = some s → s2.node.ready = false → s.node.ready = false := by
    intro fs
    induction fs with
    | nil => intro s2 _ h hr; simp only [run, Option.some.injEq] at h; subst h; exact hr
    | cons e fs ih =>
      intro s2 hf h hr
      rw [run] at h
      cases h3 : step X s2 e with
      | none => rw [h3] at h; cases h
      | some s3 =>
        rw [h3] at h
        refine ih s3 (fun ps hp => hf ps (by simp [hp])) h ?_
        cases hr3 : s3.node.ready with
        | false => rfl
        | true =>
          rcases (step_drain h3).2.1 hr3 with h | ⟨ps, rfl⟩
          · rw [hr] at h; cases h
          · exact absurd (by simp) (hf ps)
  rw [run_append] at h
  cases h1 : run X s0 es with
  | none => rw [h1] at h; cases h
  | some s1 =>
    rw [h1] at h
    simp only [Option.bind_some, run] at h
    cases h2 : step X s1 .close with
    | none => rw [h2] at h; cases h
    | some s2 =>
      rw [h2] at h
      have := key fs s2 hf h ((step_drain h2).2.2.2.2 rfl).1
      simp [getReady, this]

/-- C62: draining, unlike readiness, is for good: whatever happens after the beginning of the shutdown, inserts are refused
and change nothing. -/
theorem C62_drain {X : DS.XEnv} {σ : Type} (s0 s : NS) (es fs : List Ev) (h : run X s0 (es ++ .close :: fs) = some s)
    (now : Int) (nowS : Int64) (order : List SourceId) (call : Data.RemoteInsert σ) (w : σ) (name : String) (datum : Option Datum)
    (config : Option InsertConfig) :
    DS.insert X s.node.drain now nowS order call s.node.dataset w name datum config = .ok (s.node.dataset, w, some .drain) := by
  have key : ∀ (fs : List Ev) (s2 : NS), run X s2 fs = some s → s2.node.drain = true → s.node.drain = true := by
    intro fs
    induction fs with
    | nil => intro s2 h hr; simp only [run, Option.some.injEq] at h; subst h; exact hr
    | cons e fs ih =>
      intro s2 h hr
      rw [run] at h
      cases h3 : step X s2 e with
      | none => rw [h3] at h; cases h
      | some s3 =>
        rw [h3] at h
        exact ih s3 h ((step_drain h3).1 hr)
  rw [run_append] at h
  cases h1 : run X s0 es with
  | none => rw [h1] at h; cases h
  | some s1 =>
    rw [h1] at h
    simp only [Option.bind_some, run] at h
    cases h2 : step X s1 .close with
    | none => rw [h2] at h; cases h
    | some s2 =>
      rw [h2] at h
      have := key fs s2 h ((step_drain h2).2.2.2.2 rfl).2
      simp [DS.insert, this]

example : ∃ s, run (DS.toy 0) ⟨exNow, exNode⟩ ([.sync []] ++ .close :: [.announce (exPeer 1700000000), .tick (exNow + 1)]) = some s ∧
    (getReady s.node).1 = 503 ∧ s.node.peers ≠ [] := by
  have h := (show ((run (DS.toy 0) ⟨exNow, exNode⟩ ([.sync []] ++ .close :: [.announce (exPeer 1700000000), .tick (exNow + 1)])).any
    fun (s : NS) => decide ((getReady s.node).1 = 503 ∧ s.node.peers ≠ [])) = true by decide +kernel)
  obtain ⟨s, h1, h2⟩ := DS.any_some h
  exact ⟨s, h1, of_decide_eq_true h2⟩

end Veri
