import Verif.Process.Props
/-
C39: who has accepted a datum that maintenance removes (data/newsync.go:152-222).
-/
set_option autoImplicit false
namespace Veri
open Proc Store

/-- C39, in terms of the list of sources: an entry that has not expired and is gone after a step of maintenance was accepted, as
it is, by a source that was in the list and had not expired. -/
theorem C39_accepted_by_source (P : PEnv) (dt : Data) (now : Int64) (hwf : WF0 dt.dbMap) (s s' : PS) (l : Proc.Label)
    (h : Reach P false (initial dt now) s) (hs : step P false s l = some s') (k : Bytes) (e : Entry)
    (hk : s.dt.dbMap.get? k = some e) (hx : isExpired e s.now = false) (hg : s'.dt.dbMap.get? k ≠ some e) :
    ∃ id x m t, s'.acks = s.acks ++ [⟨id, x⟩] ∧ x.datum = e.datum ∧
      s.dt.sources = some m ∧ m.get? id = some t ∧ s.now.toInt * 1000000000 ≤ t := by
  rcases C39_removed_only_if_accepted P dt now hwf s s' l h hs k e hk with g | ⟨_, g⟩ | ⟨_, _, id, x, _, g1, g2, g3⟩
  · exact absurd g hg
  · rw [hx] at g; cases g
  · cases hm : s.dt.sources with
    | none => rw [hm] at g3; cases g3
    | some m =>
      rw [hm] at g3
      unfold liveSource at g3
      cases ht : m.get? id with
      | none => simp [ht] at g3
      | some t => simp [ht] at g3; exact ⟨id, x, m, t, g1, g2, rfl, ht, g3⟩
/-- C39, an instance: the hypotheses hold of the step in which the source "a" accepts the only datum of a data set. -/
theorem C39_accepted_example : ∃ s s', Reach softP false (initial (exOne 2000) 1000) s ∧
    step softP false s (.act 0 (.contact true)) = some s' ∧ s.dt.dbMap.get? (exK 1) = some ⟨2000, exD 1 1⟩ ∧
    isExpired ⟨2000, exD 1 1⟩ s.now = false ∧ s'.dt.dbMap.get? (exK 1) ≠ some ⟨2000, exD 1 1⟩ := by
  have ht : ((exec softP false (initial (exOne 2000) 1000)
      [.closeBegin, .closeCheck (fun _ => some exInfo) ["a"], .act 0 (.meet (exK 1)), .act 0 (.offer 0), .act 0 .send,
       .act 0 .endScan, .closeReturn, .act 0 (.recv [("a", 1)])]).bind fun s =>
      (step softP false s (.act 0 (.contact true))).map fun s' =>
        (s.dt.dbMap.get? (exK 1), isExpired ⟨2000, exD 1 1⟩ s.now, s'.dt.dbMap.get? (exK 1))) =
      some (some ⟨2000, exD 1 1⟩, false, none) := by decide +kernel
  generalize hls : [Proc.Label.closeBegin, Proc.Label.closeCheck (fun _ => some exInfo) ["a"], Proc.Label.act 0 (.meet (exK 1)),
       Proc.Label.act 0 (.offer 0), Proc.Label.act 0 .send,
       Proc.Label.act 0 .endScan, Proc.Label.closeReturn, Proc.Label.act 0 (.recv [("a", 1)])] = ls at ht
  cases he : exec softP false (initial (exOne 2000) 1000) ls with
  | none => rw [he] at ht; cases ht
  | some s =>
    rw [he] at ht
    simp only [Option.bind_some] at ht
    cases hs : step softP false s (.act 0 (.contact true)) with
    | none => rw [hs] at ht; cases ht
    | some s' =>
      rw [hs] at ht
      simp only [Option.map_some, Option.some.injEq, Prod.mk.injEq] at ht
      exact ⟨s, s', reach_exec _ .refl he, hs, ht.1, ht.2.1, by rw [ht.2.2]; simp⟩
end Veri
