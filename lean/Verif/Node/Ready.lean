import Verif.Node.Drain
/-
C157: when a node is ready.
-/
set_option autoImplicit false
namespace Veri
open Net

/-- C157: the readiness endpoint of a node answers 200 exactly if a synchronisation has ended and no shutdown has begun since, and 503
otherwise; a node that has just been started has had none. -/
theorem C157_ready {X : DS.XEnv} (port : UInt32) (adv sv : List String) (index : DS.DL) (now : Int) (es : List Ev) (s : NS)
    (h : run X ⟨now, newNode port adv sv index⟩ es = some s) :
    ((getReady s.node).1 = 200 ↔ ∃ pre ps post, es = pre ++ .sync ps :: post ∧ Ev.close ∉ post) ∧
    ((getReady s.node).1 = 200 ∨ (getReady s.node).1 = 503) := by
  have hg : ∀ n : Node, (getReady n).1 = 200 ↔ n.ready = true := by
    intro n; unfold getReady; split <;> simp [*]
  refine ⟨?_, by unfold getReady; split <;> simp⟩
  rw [hg]
  have key : ∀ (l : List Ev) (s : NS), run X ⟨now, newNode port adv sv index⟩ l.reverse = some s →
      (s.node.ready = true ↔ ∃ pre ps post, l.reverse = pre ++ .sync ps :: post ∧ Ev.close ∉ post) := by
    intro l
    induction l with
    | nil =>
      intro s h
      simp only [List.reverse_nil, run, Option.some.injEq] at h
      subst h
      simp [newNode]
    | cons e l ih =>
      intro s h
      rw [List.reverse_cons, run_append] at h
      cases h1 : run X ⟨now, newNode port adv sv index⟩ l.reverse with
      | none => rw [h1] at h; cases h
      | some s1 =>
        rw [h1] at h
        simp only [Option.bind_some, run] at h
        cases h2 : step X s1 e with
        | none => rw [h2] at h; cases h
        | some s2 =>
          rw [h2] at h
          simp only [Option.bind_some, Option.some.injEq] at h
          subst h
          obtain ⟨-, d2, d3, d4, d5⟩ := step_drain h2
          have ih := ih s1 h1
          rw [List.reverse_cons]
          constructor
          · intro hr
            rcases d2 hr with h3 | ⟨ps, rfl⟩
            · obtain ⟨pre, ps, post, g1, g2⟩ := ih.1 h3
              refine ⟨pre, ps, post ++ [e], by rw [g1]; simp, ?_⟩
              simp only [List.mem_append, List.mem_singleton, not_or]
              refine ⟨g2, ?_⟩
              rintro rfl
              rw [(d5 rfl).1] at hr
              cases hr
            · exact ⟨l.reverse, ps, [], rfl, by simp⟩
          · rintro ⟨pre, ps, post, g1, g2⟩
            rcases List.eq_nil_or_concat post with rfl | ⟨post', e', rfl⟩
            · have := (List.append_inj' g1 rfl).2
              simp only [List.cons.injEq, and_true] at this
              exact d4 ⟨ps, this⟩
            · rw [List.concat_eq_append] at g1 g2
              rw [← List.cons_append, ← List.append_assoc] at g1
              obtain ⟨q1, q2⟩ := List.append_inj' g1 rfl
              simp only [List.cons.injEq, and_true] at q2
              subst q2
              simp only [List.mem_append, List.mem_singleton, not_or] at g2
              rcases d3 (ih.2 ⟨pre, ps, post', q1, g2.1⟩) with h3 | h3
              · exact h3
              · exact absurd h3.symm g2.2
  have := key es.reverse s (by rw [List.reverse_reverse]; exact h)
  rwa [List.reverse_reverse] at this

/-- Started, not ready; synchronised, ready; closed, not ready. -/
theorem C157_example : ∃ s0 s1 s2, run (DS.toy 0) ⟨exNow, newNode 7000 ["me:7000"] ["a:1"] []⟩ [.tick exNow] = some s0 ∧ getReady s0.node = (503, "{\"alive\": false}") ∧
    run (DS.toy 0) s0 [.sync []] = some s1 ∧ getReady s1.node = (200, "{\"alive\": true}") ∧
    run (DS.toy 0) s1 [.tick exNow, .close] = some s2 ∧ getReady s2.node = (503, "{\"alive\": false}") :=
  ⟨_, _, _, rfl, rfl, rfl, rfl, rfl, rfl⟩

end Veri
