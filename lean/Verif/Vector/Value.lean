import Verif.Vector.RoundErr
/-
The numbers that bit patterns stand for (IEEE 754-2008, 3.4), and their relation to the soft-float model.
-/
set_option autoImplicit false
namespace Veri
set_option exponentiation.threshold 4000

namespace Ref

/-- The value of a finite binary32 number (IEEE 754-2008, 3.4): sign, 8 exponent bits, 23 fraction bits. -/
def binary32 (x : F32) : Rat :=
  let e := x.toNat / 2^23 % 2^8
  let m := x.toNat % 2^23
  let v : Nat := if e = 0 then m else (2^23 + m) * 2^(e - 1)
  if 2^31 ≤ x.toNat then -(v : Rat) / 2^149 else (v : Rat) / 2^149

/-- Neither an infinity nor a NaN. -/
def finite32 (x : F32) : Prop := x.toNat / 2^23 % 2^8 ≠ 255

/-- The value of a finite binary64 number: sign, 11 exponent bits, 52 fraction bits. -/
def binary64 (x : F64) : Rat :=
  let e := x.toNat / 2^52 % 2^11
  let m := x.toNat % 2^52
  let v : Nat := if e = 0 then m else (2^52 + m) * 2^(e - 1)
  if 2^63 ≤ x.toNat then -(v : Rat) / 2^1074 else (v : Rat) / 2^1074

/-- Neither an infinity nor a NaN. -/
def finite64 (x : F64) : Prop := x.toNat / 2^52 % 2^11 ≠ 2047

/-- `a` and `b` differ by at most `e`. -/
def within (e a b : Rat) : Prop := a - b ≤ e ∧ b - a ≤ e

end Ref

namespace SF

theorem finite_iff (x : F32) : Ref.finite32 x ↔ Fin32 x := by
  unfold Ref.finite32 Fin32
  rw [inf32]
  unfold un32
  have := x.toNat_lt
  simp only
  omega

theorem val_bits (x : F32) : val f32 (un32 x).mag =
    if x.toNat / 2^23 % 2^8 = 0 then x.toNat % 2^23 else (2^23 + x.toNat % 2^23) * 2^(x.toNat / 2^23 % 2^8 - 1) := by
  have hx := x.toNat_lt
  unfold val un32
  simp only [show f32.mb = 23 from rfl]
  have h1 : x.toNat % 2^31 / 2^23 = x.toNat / 2^23 % 2^8 := by omega
  have h2 : x.toNat % 2^31 % 2^23 = x.toNat % 2^23 := by omega
  rw [h1, h2]
  by_cases h : x.toNat % 2^31 < 2^23
  · rw [if_pos h, if_pos (by omega)]; omega
  · rw [if_neg h, if_neg (by omega)]

theorem binary32_eq (x : F32) : Ref.binary32 x = (sv x : Rat) / 2^149 := by
  unfold Ref.binary32 sv Num.sval
  rw [val_bits x]
  simp only [un32, decide_eq_true_eq]
  split <;> push_cast <;> rfl

theorem finite64_iff (x : F64) : Ref.finite64 x ↔ (un64 x).mag < f64.inf := by
  unfold Ref.finite64
  rw [inf64]
  unfold un64
  have := x.toNat_lt
  simp only
  omega

theorem val_bits64 (x : F64) : val f64 (un64 x).mag =
    if x.toNat / 2^52 % 2^11 = 0 then x.toNat % 2^52 else (2^52 + x.toNat % 2^52) * 2^(x.toNat / 2^52 % 2^11 - 1) := by
  have hx := x.toNat_lt
  unfold val un64
  simp only [show f64.mb = 52 from rfl]
  have h1 : x.toNat % 2^63 / 2^52 = x.toNat / 2^52 % 2^11 := by omega
  have h2 : x.toNat % 2^63 % 2^52 = x.toNat % 2^52 := by omega
  rw [h1, h2]
  by_cases h : x.toNat % 2^63 < 2^52
  · rw [if_pos h, if_pos (by omega)]; omega
  · rw [if_neg h, if_neg (by omega)]

theorem binary64_eq (x : F64) : Ref.binary64 x = ((un64 x).sval f64 : Rat) / 2^1074 := by
  unfold Ref.binary64 Num.sval
  rw [val_bits64 x]
  simp only [un64, decide_eq_true_eq]
  split <;> push_cast <;> rfl

end SF
end Veri
