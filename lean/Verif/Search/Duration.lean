import Verif.Search.Cache
/-
C36: how long an answer that was put into the query cache is found there (data/search.go:235-239, data/data.go:89).
-/
set_option autoImplicit false
namespace Veri
open QCache

namespace QCache

theorem live_new (now t d : Int) (r : List ScoredDatum) :
    QCache.live t (newItem now r d) = true ↔
      (d < 0 ∨ (d = 0 ∧ t ≤ now + 300000000000) ∨ (0 < d ∧ t ≤ now + d)) := by
  rcases Int.lt_trichotomy d 0 with h | h | h
  · have h1 : ¬ d = 0 := by omega
    have h2 : ¬ d > 0 := by omega
    have : newItem now r d = ⟨r, none⟩ := by unfold newItem; simp only [h1, h2, if_false]
    rw [this]
    exact ⟨fun _ => Or.inl h, fun _ => rfl⟩
  · have h3 : (300000000000 : Int) > 0 := by omega
    have : newItem now r d = ⟨r, some (now + 300000000000)⟩ := by unfold newItem; simp only [h, if_true, h3]
    rw [this]
    unfold QCache.live
    rw [decide_eq_true_iff]
    omega
  · have h1 : ¬ d = 0 := by omega
    have h2 : d > 0 := h
    have : newItem now r d = ⟨r, some (now + d)⟩ := by unfold newItem; simp only [h1, h2, if_false, if_true]
    rw [this]
    unfold QCache.live
    rw [decide_eq_true_iff]
    omega

end QCache

/-- C36: an answer put into the cache is found, until it is prolonged or replaced, exactly as long as the duration `d` in
nanoseconds says, which is computed in int64: if that is 0 five minutes, if it is negative for ever. -/
theorem C36_kept_exact (now t d : Int) (c : Cache) (k : Bytes) (config : SearchConfig) (r : List ScoredDatum)
    (hc : config.cacheDuration > 0) (hd : (config.cacheDuration.toInt64 * 1000000000).toInt = d) :
    ((∃ i, QCache.lookup t (finishSearch now c k config r) k = some i ∧ i.result = r) ↔
      (d < 0 ∨ (d = 0 ∧ t ≤ now + 300000000000) ∨ (0 < d ∧ t ≤ now + d))) := by
  have hn : nanos config.cacheDuration = d := hd
  rw [← live_new now t d r]
  unfold finishSearch QCache.lookup
  rw [if_pos hc, AMap.get?_set_self, hn]
  have hr : (newItem now r d).result = r := rfl
  cases hl : QCache.live t (newItem now r d) with
  | true => simp [hl, hr]
  | false => simp [hl]

/-- C36, instances: with a duration of 10^10 seconds it is kept for ever, with one of 2^55 seconds for five minutes. -/
theorem C36_kept_example (c : Cache) (k : Bytes) (config : SearchConfig) (r : List ScoredDatum) :
    (config.cacheDuration = 10000000000 →
      ∀ t, ∃ i, QCache.lookup t (finishSearch 0 c k config r) k = some i ∧ i.result = r) ∧
    (config.cacheDuration = 36028797018963968 →
      (∃ i, QCache.lookup 300000000000 (finishSearch 0 c k config r) k = some i ∧ i.result = r) ∧
      ¬ ∃ i, QCache.lookup 300000000001 (finishSearch 0 c k config r) k = some i ∧ i.result = r) := by
  have e1 : ((10000000000 : UInt64).toInt64 * 1000000000).toInt = -8446744073709551616 := by decide
  have e2 : ((36028797018963968 : UInt64).toInt64 * 1000000000).toInt = 0 := by decide
  constructor
  · intro h t
    exact (C36_kept_exact 0 t _ c k config r (by rw [h]; decide) ((congrArg (fun x : UInt64 => (x.toInt64 * 1000000000).toInt) h).trans e1)).2 (Or.inl (by omega))
  · intro h
    have hk : ∀ t, _ := fun t => C36_kept_exact 0 t _ c k config r (by rw [h]; decide) ((congrArg (fun x : UInt64 => (x.toInt64 * 1000000000).toInt) h).trans e2)
    exact ⟨(hk _).2 (Or.inr (Or.inl ⟨rfl, by omega⟩)), fun x => by have := (hk _).1 x; omega⟩
end Veri
