import Verif.Node.Sync
import Verif.Process.Model
/-
C90: until when processing uses a source (data/data.go:88, 222-233; data/newsync.go:93-149).
-/
set_option autoImplicit false
namespace Veri
open Net

/-- C90: a source that was not there at time `t`, or had expired, is used by a run of `Process` in second `now` exactly for ten
minutes after it was added; one that was there is used until it would have expired anyway, however often it is added. -/
theorem C90_used_exact (t : Int) (now : Int64) (dt : Data) (m : AMap SourceId Int) (id : SourceId) (h : dt.sources = some m) :
    (id ∈ Proc.liveSources now ((addSource t dt id).sources.getD []) ↔
      match m.get? id with
      | some e => now.toInt * 1000000000 ≤ (if t ≤ e then e else t + 600000000000)
      | none => now.toInt * 1000000000 ≤ t + 600000000000) := by
  have live : ∀ (m : AMap SourceId Int), id ∈ Proc.liveSources now m ↔ ∃ e, m.get? id = some e ∧ now.toInt * 1000000000 ≤ e := by
    intro m
    unfold Proc.liveSources Proc.liveSource
    rw [List.mem_filter]
    constructor
    · rintro ⟨_, h⟩
      cases hg : m.get? id with
      | none => rw [hg] at h; simp at h
      | some e => rw [hg] at h; exact ⟨e, rfl, of_decide_eq_true h⟩
    · rintro ⟨e, hg, he⟩
      refine ⟨List.mem_map.2 ⟨_, AMap.mem_of_get? hg, rfl⟩, ?_⟩
      rw [hg]; exact decide_eq_true he
  rw [live]
  have hm : (10 * minute : Int) = 600000000000 := rfl
  unfold addSource
  cases hg : m.get? id with
  | none => simp [h, hg, hm]
  | some e =>
    by_cases ht : t ≤ e
    · simp [h, hg, ht]
    · simp [h, hg, ht, hm]

/-- C90, an instance: added at second 0, used in second 600 and not in second 601, though it was added again in second 599. -/
theorem C90_used_example (dt : Data) (h : dt.sources = some []) :
    let dt' := addSource 599000000000 (addSource 0 dt "b:1") "b:1"
    "b:1" ∈ Proc.liveSources 600 (dt'.sources.getD []) ∧ "b:1" ∉ Proc.liveSources 601 (dt'.sources.getD []) := by
  have e : (addSource 0 dt "b:1").sources = some [("b:1", 600000000000)] := by
    unfold addSource; simp [h, AMap.get?, AMap.set, AMap.erase, minute]
  intro dt'
  constructor
  · refine (C90_used_exact _ _ _ _ _ e).2 ?_
    show Int64.toInt 600 * 1000000000 ≤ (if (599000000000 : Int) ≤ 600000000000 then (600000000000 : Int) else 599000000000 + 600000000000)
    decide
  · intro x
    have y : Int64.toInt 601 * 1000000000 ≤ (if (599000000000 : Int) ≤ 600000000000 then (600000000000 : Int) else 599000000000 + 600000000000) :=
      (C90_used_exact _ _ _ _ _ e).1 x
    revert y
    decide
end Veri
