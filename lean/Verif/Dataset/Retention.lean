import Verif.Dataset.Conc
/-
How long a data set that is not used is kept (data/dataset.go:34, 58-63, 70-72, 107-116).
-/
set_option autoImplicit false
namespace Veri
namespace Ref

/-- The retention a configuration asks for, in nanoseconds: a number of seconds, or two weeks if there is none. -/
def retention (seconds : Nat) : Int := if seconds = 0 then 14 * 24 * 60 * 60 * 1000000000 else seconds * 1000000000

end Ref

namespace DS

theorem getRetention_eq {r : UInt64} (h : r ≠ 0) : getRetention r = ((r.toNat : Int) * 1000000000).bmod (2^64) := by
  unfold getRetention
  rw [if_neg h, Int64.toInt_mul, Store.toInt_toInt64]
  show ((r.toNat : Int).bmod (2^64) * 1000000000).bmod (2^64) = _
  exact Int.bmod_mul_bmod ..

/-- In time: the number of seconds fits into a `time.Duration`. -/
theorem getRetention_small {r : UInt64} (h : r.toNat ≤ 9223372036) : getRetention r = Ref.retention r.toNat := by
  by_cases h0 : r = 0
  · subst h0; decide
  · have h1 : r.toNat ≠ 0 := fun e => h0 (UInt64.toNat_inj.1 e)
    rw [getRetention_eq h0, Ref.retention, if_neg h1]
    exact Int.bmod_eq_of_le (by omega) (by omega)

theorem getRetention_lt (r : UInt64) : getRetention r < 2^63 := by
  by_cases h0 : r = 0
  · subst h0; decide
  · rw [getRetention_eq h0]
    have := Int.bmod_lt (x := (r.toNat : Int) * 1000000000) (m := 2^64) (by decide)
    omega

theorem retention_large {r : UInt64} (h : ¬ r.toNat ≤ 9223372036) : 2^63 ≤ Ref.retention r.toNat := by
  unfold Ref.retention
  split <;> omega

theorem retention_pos' (n : Nat) : 0 < Ref.retention n := by
  unfold Ref.retention
  split <;> omega

/-- The expiry time of a data set that is made now. -/
theorem create_expires (now : Int) (m : DL) (c : DataConfig) (h : lookup now m c.name = none) :
    ∃ m' s, createIfNotExists now m c = .ok m' ∧ m'.get? c.name = some s ∧ s.data.config = some c ∧ s.data.n = 0 ∧
      s.expires = expiry now (getRetention c.retention) :=
  ⟨_, _, create_new h, AMap.get?_set_self _ _ _, rfl, rfl, rfl⟩

end DS
open DS

/-- C153, full statement: a data set that nobody uses after its creation is there exactly as long as its configuration says. -/
def C153_retention_statement : Prop := ∀ (now : Int) (m : DL) (c : DataConfig), lookup now m c.name = none →
  ∃ m', createIfNotExists now m c = .ok m' ∧ ∀ t, (lookup t m' c.name).isSome = true ↔ t ≤ now + Ref.retention c.retention.toNat

/-- C153, exactly: this holds if the retention is at most 9223372036 seconds, and for no other. -/
theorem C153_retention_exact (now : Int) (m : DL) (c : DataConfig) (h : lookup now m c.name = none) :
    ∃ m', createIfNotExists now m c = .ok m' ∧ ((∀ t, (lookup t m' c.name).isSome = true ↔ t ≤ now + Ref.retention c.retention.toNat) ↔
      c.retention.toNat ≤ 9223372036) := by
  obtain ⟨m', s, h1, h2, -, -, h5⟩ := create_expires now m c h
  refine ⟨m', h1, ?_⟩
  have hl : ∀ t, (lookup t m' c.name).isSome = live t s := by
    intro t
    unfold lookup
    rw [h2]
    by_cases hh : live t s = true
    · simp [hh]
    · simp [hh]
  constructor
  · intro H
    apply Classical.byContradiction
    intro hr
    have hbig := retention_large hr
    have hlt := getRetention_lt c.retention
    have := (H (now + Ref.retention c.retention.toNat)).2 (Int.le_refl _)
    rw [hl, live, h5, expiry] at this
    by_cases h0 : getRetention c.retention = 0
    · rw [if_pos h0] at this
      have := of_decide_eq_true this
      unfold second at this
      omega
    · rw [if_neg h0] at this
      by_cases hp : 0 < getRetention c.retention
      · rw [if_pos hp] at this
        have := of_decide_eq_true this
        omega
      · have := (H (now + Ref.retention c.retention.toNat + 1)).1 (by
          rw [hl, live, h5, expiry, if_neg h0, if_neg hp])
        omega
  · intro hr t
    have hp := retention_pos' c.retention.toNat
    rw [hl, live, h5, getRetention_small hr, expiry, if_neg (by omega), if_pos hp]
    simp

/-- C153, longer is not shorter, in the same range. -/
theorem C153_longer_partial (now t : Int) (m : DL) (c c' : DataConfig) (hn : c.name = c'.name) (h : lookup now m c.name = none)
    (h0 : c.retention ≠ 0) (h1 : c.retention ≤ c'.retention) (h2 : c'.retention.toNat ≤ 9223372036) :
    ∃ m1 m2, createIfNotExists now m c = .ok m1 ∧ createIfNotExists now m c' = .ok m2 ∧
      ((lookup t m1 c.name).isSome = true → (lookup t m2 c'.name).isSome = true) := by
  have hle := UInt64.le_iff_toNat_le.1 h1
  obtain ⟨m1, a1, a2⟩ := C153_retention_exact now m c h
  obtain ⟨m2, b1, b2⟩ := C153_retention_exact now m c' (hn ▸ h)
  refine ⟨m1, m2, a1, b1, fun H => (b2.2 h2 t).2 (Int.le_trans ((a2.2 (by omega) t).1 H) ?_)⟩
  have : c.retention.toNat ≠ 0 := fun e => h0 (UInt64.toNat_inj.1 e)
  unfold Ref.retention
  rw [if_neg this, if_neg (by omega)]
  omega

/-- C153, a use in time keeps it for another retention from then on, and for no more than that after its old time. -/
theorem C153_use_partial {X : XEnv} (hX : X.Ok) (now t e : Int) (m : DL) (name : String) (s : Slot) (c : DataConfig)
    (h : lookup now m name = some s) (hc : s.data.config = some c) (he : s.expires = some e) (hr : c.retention.toNat ≤ 9223372036) :
    ∃ m', get X now m name = .ok (m', s.data) ∧ (t ≤ now + Ref.retention c.retention.toNat → (lookup t m' name).isSome = true) ∧
      (e + Ref.retention c.retention.toNat < t → lookup t m' name = none) := by
  have hlive : now ≤ e := by
    have h' := h
    unfold lookup at h'
    rw [Option.filter_eq_some_iff] at h'
    have := h'.2
    rw [live, he] at this
    simpa using this
  obtain ⟨e', g1, g2, g3⟩ := hX.extend e now _ hlive (retention_pos' c.retention.toNat)
  refine ⟨_, get_old h hc, ?_, ?_⟩
  all_goals
    intro ht
    rw [lookup, AMap.get?_set_self, getRetention_small hr, he, g1]
    simp only [Option.filter]
  · rw [if_pos (show live t { s with expires := some e' } = true from decide_eq_true (by omega))]; rfl
  · rw [if_neg (show ¬ live t { s with expires := some e' } = true from fun h => absurd (of_decide_eq_true (p := t ≤ e') h) (by omega))]

namespace DS
/-- Is the data set made at time 0 there at time `t`? -/
def keptUntil (c : DataConfig) (t : Int) : Bool :=
  match createIfNotExists 0 [] c with
  | .ok m => (lookup t m c.name).isSome
  | _ => false
def exYears (r : UInt64) : DataConfig := { exA 1 with retention := r }
end DS

/-- A year is in the range; `2^55` seconds, a thousand million years, are not: that data set is gone after a day. -/
theorem C153_example : (31536000 : UInt64).toNat ≤ 9223372036 ∧ Ref.retention 31536000 = 31536000000000000 ∧
    keptUntil (exYears 31536000) 31536000000000000 = true ∧ keptUntil (exYears 31536000) 31536000000000001 = false ∧
    keptUntil (exYears 36028797018963968) 86400000000000 = true ∧ keptUntil (exYears 36028797018963968) 86400000000001 = false := by
  decide +kernel

theorem C153_retention_fails : ¬ C153_retention_statement := by
  intro h
  obtain ⟨m', h1, h2⟩ := h 0 [] (exYears 36028797018963968) rfl
  have := C153_example.2.2.2.2.2
  rw [keptUntil, h1] at this
  exact absurd ((h2 86400000000001).2 (by decide)) (ne_true_of_eq_false this)

end Veri
