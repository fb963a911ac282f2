import Verif.Data.Props

/-!
# When a failed insert leaves nothing behind (C18)

`C18_failed_insert_partial` says what a failed insert does; here is exactly when it can be called without effect.
-/

set_option autoImplicit false

namespace Veri

open Gencoder Store Data

/-- C18, exactly: after an insert that returned an error the key shows what it showed before just if the insert was
refused, or the same value was stored already with an expiry less than ten seconds away from the new one. -/
theorem C18_failed_insert_exact {σ : Type} (now : Int64) (order : List SourceId) (call : RemoteInsert σ) (dt : Data)
    (w : σ) (k : DatumKey) (v : DatumValue) (config : Option InsertConfig) (out : InsertOut σ) (e : Err)
    (hwf : WF dt.dbMap)
    (h : Data.insert now order call dt w (some ⟨some k, some v⟩) config = .ok out) (he : out.err = some e) :
    Store.abs out.data.dbMap k = Store.abs dt.dbMap k ↔
      e = .overTarget ∨ ∃ old, Store.abs dt.dbMap k = some old ∧ old.value = v ∧
        ((Ref.expiry now config) - old.expireAt).toInt.natAbs < 10 := by
  rcases insert_cases now order call dt w _ config out h with ⟨_, rfl⟩ | ⟨_, d, dc, m, b, hd, hdc, hi, hdata, h2⟩
  · simp at he
    simp [he.symm]
  · obtain ⟨m', b', hm, _, habs⟩ := insertBDMap_spec hwf now k v config
    rw [hm] at hi
    injection hi with hi
    injection hi with hi1 hi2
    subst hi1
    have hne : e ≠ .overTarget := by
      rcases h2 with ⟨_, _, _, h3⟩ | ⟨_, _, _, _, _, _, _, _, h3⟩
      · rw [he] at h3; cases h3
      · rw [he] at h3
        split at h3
        · injection h3 with h3
          rw [h3]
          decide
        · cases h3
    rw [hdata]
    simp only [habs]
    rw [ref_insert_self]
    cases ho : Store.abs dt.dbMap k with
    | none => simp [hne]
    | some old =>
      simp only [Option.some.injEq, exists_eq_left', hne, false_or]
      split
      · rename_i hc
        exact ⟨fun _ => hc, fun _ => rfl⟩
      · rename_i hc
        constructor
        · intro hx
          cases hx
          exact absurd ⟨rfl, by simp [Ref.near]⟩ hc
        · intro hx
          exact absurd hx hc

/-- Non-vacuity of `C18_failed_insert_exact`: both sides occur.  The first insert with too few replicas leaves the datum,
the same insert again leaves things as they are. -/
theorem C18_failed_example :
    ∃ out out2 : InsertOut Unit,
      Data.insert 1000 [] exRefuse (newData exConfig) () (some ⟨some (exKey 1), some (exVal 1)⟩) (some ⟨60, 0⟩) = .ok out ∧
      out.err = some .tooFewReplicas ∧ Store.abs out.data.dbMap (exKey 1) ≠ Store.abs (newData exConfig).dbMap (exKey 1) ∧
      WF out.data.dbMap ∧
      Data.insert 1000 [] exRefuse out.data () (some ⟨some (exKey 1), some (exVal 1)⟩) (some ⟨60, 0⟩) = .ok out2 ∧
      out2.err = some .tooFewReplicas ∧ Store.abs out2.data.dbMap (exKey 1) = Store.abs out.data.dbMap (exKey 1) := by
  have hi : Store.insertBDMap 1000 (exMap (expireAtOf 1000 (some ⟨60, 0⟩))) (some ⟨some (exKey 1), some (exVal 1)⟩)
      (some ⟨60, 0⟩) = .ok (exMap (expireAtOf 1000 (some ⟨60, 0⟩)), false) := by
    have hc : closeEnough (expireAtOf 1000 (some ⟨60, 0⟩)) (expireAtOf 1000 (some ⟨60, 0⟩)) = true := by decide
    simp [insertBDMap, exMap, getKeyAsBytes_some, getValueAsBytes_some, encodeToString, get?_single, hc]
  refine ⟨_, ⟨{ newData exConfig with dbMap := exMap (expireAtOf 1000 (some ⟨60, 0⟩)), recentInsertCount := 1, dirty := true },
    (), some ⟨60, 1⟩, some .tooFewReplicas⟩, insert_new_example exRefuse [] ⟨60, 0⟩ rfl, rfl, ?_, ?_, ?_, rfl, rfl⟩
  · have e1 : Store.abs (newData exConfig).dbMap (exKey 1) = none := rfl
    rw [e1]
    simp [Store.abs, exMap, get?_single]
  · exact (step_sound (m := []) wf_nil (.insert (insert_empty 1000 (exKey 1) (exVal 1) (some ⟨60, 0⟩)))).1
  · have hf : ({ newData exConfig with dbMap := exMap (expireAtOf 1000 (some ⟨60, 0⟩)), recentInsertCount := 1, dirty := true } : Data).overTarget = false := rfl
    have hd : ({ newData exConfig with dbMap := exMap (expireAtOf 1000 (some ⟨60, 0⟩)), recentInsertCount := 1, dirty := true } : Data).initData =
      { newData exConfig with dbMap := exMap (expireAtOf 1000 (some ⟨60, 0⟩)), recentInsertCount := 1, dirty := true } := rfl
    simp only [Data.insert, hf, hd, hi, Res.bind_ok, if_false, Bool.false_eq_true]
    rfl

end Veri
