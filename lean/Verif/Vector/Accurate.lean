import Verif.Vector.NumErr
/-
What the accuracy theorems assume of the arithmetic: the error bounds of IEEE-754 operations rounded to nearest.  They hold with
and without fused multiply-add (the Go specification allows both) and for any implementation of `math32.Pow(x, 2)` and
`math32.Sqrt` that is good to the last place.  The soft-float arithmetic meets them.
-/
set_option autoImplicit false
namespace Veri
set_option exponentiation.threshold 4000

namespace Ref

/-- Error bounds of the operations, on finite numbers and results that are not too large: relative error `2^-24` (float32) or
`2^-53` (float64), and `2^-149`, the least positive float32, where a result can be subnormal. -/
structure Accurate (o : FOps F32 F64) : Prop where
  zero : finite32 o.zero ∧ binary32 o.zero = 0
  isZero : ∀ x, finite32 x → (o.isZero x = true ↔ binary32 x = 0)
  add : ∀ a b, finite32 a → finite32 b → |binary32 a + binary32 b| ≤ 3 * 2^126 →
    finite32 (o.add a b) ∧ |binary32 (o.add a b) - (binary32 a + binary32 b)| ≤ |binary32 a + binary32 b| / 2^24
  sub : ∀ a b, finite32 a → finite32 b → |binary32 a - binary32 b| ≤ 3 * 2^126 →
    finite32 (o.sub a b) ∧ |binary32 (o.sub a b) - (binary32 a - binary32 b)| ≤ |binary32 a - binary32 b| / 2^24
  mul : ∀ a b, finite32 a → finite32 b → |binary32 a * binary32 b| ≤ 3 * 2^126 →
    finite32 (o.mul a b) ∧
    |binary32 (o.mul a b) - binary32 a * binary32 b| ≤ |binary32 a * binary32 b| / 2^24 + 1 / 2^149
  sq : ∀ a, finite32 a → binary32 a * binary32 a ≤ 3 * 2^126 →
    finite32 (o.sq a) ∧ 0 ≤ binary32 (o.sq a) ∧ (binary32 a = 0 → binary32 (o.sq a) = 0) ∧
    |binary32 (o.sq a) - binary32 a * binary32 a| ≤ binary32 a * binary32 a / 2^24 + 1 / 2^149
  madd : ∀ c a b, finite32 c → finite32 a → finite32 b → |binary32 c| + |binary32 a * binary32 b| ≤ 2^126 →
    finite32 (o.madd c a b) ∧
    |binary32 (o.madd c a b) - (binary32 c + binary32 a * binary32 b)| ≤
      |binary32 c + binary32 a * binary32 b| / 2^24 + 2 * (|binary32 a * binary32 b| / 2^24) + 2 / 2^149
  madd0 : ∀ c a b, finite32 c → finite32 a → finite32 b → binary32 c = 0 → binary32 b = 0 →
    finite32 (o.madd c a b) ∧ binary32 (o.madd c a b) = 0
  div : ∀ a b, finite32 a → finite32 b → binary32 b ≠ 0 → |binary32 a / binary32 b| ≤ 3 * 2^126 →
    finite32 (o.div a b) ∧
    |binary32 (o.div a b) - binary32 a / binary32 b| ≤ |binary32 a / binary32 b| / 2^24 + 1 / 2^149
  abs : ∀ a, finite32 a → finite32 (o.abs a) ∧ binary32 (o.abs a) = |binary32 a|
  sqrt : ∀ a, finite32 a → 0 ≤ binary32 a →
    finite32 (o.sqrt a) ∧ 0 ≤ binary32 (o.sqrt a) ∧
    (1 - 1 / 2^24)^2 * binary32 a ≤ binary32 (o.sqrt a)^2 ∧ binary32 (o.sqrt a)^2 ≤ (1 + 1 / 2^24)^2 * binary32 a
  widen : ∀ a, finite32 a → finite64 (o.widen a) ∧ binary64 (o.widen a) = binary32 a
  zeroD : finite64 o.zeroD ∧ binary64 o.zeroD = 0
  oneD : finite64 o.oneD ∧ binary64 o.oneD = 1
  negOneD : finite64 o.negOneD ∧ binary64 o.negOneD = -1
  ltD : ∀ a b, finite64 a → finite64 b → (o.ltD a b = true ↔ binary64 a < binary64 b)
  addD : ∀ a b, finite64 a → finite64 b → |binary64 a + binary64 b| ≤ 2^1023 →
    finite64 (o.addD a b) ∧ |binary64 (o.addD a b) - (binary64 a + binary64 b)| ≤ |binary64 a + binary64 b| / 2^53
  sqrtD : ∀ a, finite64 a → 0 ≤ binary64 a →
    finite64 (o.sqrtD a) ∧ 0 ≤ binary64 (o.sqrtD a) ∧
    (1 - 1 / 2^53)^2 * binary64 a ≤ binary64 (o.sqrtD a)^2 ∧ binary64 (o.sqrtD a)^2 ≤ (1 + 1 / 2^53)^2 * binary64 a

end Ref

namespace SF

theorem unit32 : f32.unit = 149 := by decide
theorem unit64 : f64.unit = 1074 := by decide

theorem b32 (x : F32) : Ref.binary32 x = nv f32 (un32 x) := by
  rw [binary32_eq]; unfold sv nv; rw [unit32]

theorem b64 (x : F64) : Ref.binary64 x = nv f64 (un64 x) := by
  rw [binary64_eq]; unfold nv; rw [unit64]

/-- A packed number. -/
theorem pk32_spec {x : Num} (h : x.mag < f32.inf) : Ref.finite32 (pk32 x) ∧ Ref.binary32 (pk32 x) = nv f32 x := by
  have h2 : x.mag < 2^31 := by have := inf32; omega
  rw [finite_iff, b32]
  unfold Fin32
  rw [un_pk32 x h2]
  exact ⟨h, rfl⟩

theorem pk64_spec {x : Num} (h : x.mag < f64.inf) : Ref.finite64 (pk64 x) ∧ Ref.binary64 (pk64 x) = nv f64 x := by
  have h2 : x.mag < 2^63 := by have := inf64; omega
  rw [finite64_iff, b64, un_pk64 x h2]
  exact ⟨h, rfl⟩

theorem big32 : (val f32 0x7F400000 : ℚ) / 2^f32.unit = 3 * 2^126 := by
  have : val f32 0x7F400000 = 3 * 2^275 := by decide +kernel
  rw [this, unit32]; norm_num

theorem big32_lt : 0x7F400000 < f32.inf := by decide

theorem big64 : (val f64 0x7FE0000000000000 : ℚ) / 2^f64.unit = 2^1023 := by
  have : val f64 0x7FE0000000000000 = 2^2097 := by decide +kernel
  rw [this, unit64]
  norm_num

theorem big64_lt : 0x7FE0000000000000 < f64.inf := by decide

theorem add_acc (acos : F64 → F64) (a b : F32) (ha : Ref.finite32 a) (hb : Ref.finite32 b)
    (h : |Ref.binary32 a + Ref.binary32 b| ≤ 3 * 2^126) :
    Ref.finite32 ((ops acos).add a b) ∧
    |Ref.binary32 ((ops acos).add a b) - (Ref.binary32 a + Ref.binary32 b)| ≤ |Ref.binary32 a + Ref.binary32 b| / 2^24 := by
  rw [finite_iff] at ha hb
  rw [b32 a, b32 b] at h ⊢
  obtain ⟨h1, h2⟩ := addN_err ha hb big32_lt (by rw [big32]; exact h)
  obtain ⟨h3, h4⟩ := pk32_spec h1
  refine ⟨h3, ?_⟩
  show |Ref.binary32 (pk32 _) - _| ≤ _
  rw [h4]; exact h2

theorem sub_acc (acos : F64 → F64) (a b : F32) (ha : Ref.finite32 a) (hb : Ref.finite32 b)
    (h : |Ref.binary32 a - Ref.binary32 b| ≤ 3 * 2^126) :
    Ref.finite32 ((ops acos).sub a b) ∧
    |Ref.binary32 ((ops acos).sub a b) - (Ref.binary32 a - Ref.binary32 b)| ≤ |Ref.binary32 a - Ref.binary32 b| / 2^24 := by
  rw [finite_iff] at ha hb
  rw [b32 a, b32 b] at h ⊢
  obtain ⟨h1, h2⟩ := subN_err ha hb big32_lt (by rw [big32]; exact h)
  obtain ⟨h3, h4⟩ := pk32_spec h1
  refine ⟨h3, ?_⟩
  show |Ref.binary32 (pk32 _) - _| ≤ _
  rw [h4]; exact h2

theorem half_unit : (1 : ℚ) / 2 / 2^f32.unit ≤ 1 / 2^149 := by rw [unit32]; norm_num

theorem mul_acc (acos : F64 → F64) (a b : F32) (ha : Ref.finite32 a) (hb : Ref.finite32 b)
    (h : |Ref.binary32 a * Ref.binary32 b| ≤ 3 * 2^126) :
    Ref.finite32 ((ops acos).mul a b) ∧
    |Ref.binary32 ((ops acos).mul a b) - Ref.binary32 a * Ref.binary32 b| ≤
      |Ref.binary32 a * Ref.binary32 b| / 2^24 + 1 / 2^149 := by
  rw [finite_iff] at ha hb
  rw [b32 a, b32 b] at h ⊢
  obtain ⟨h1, h2⟩ := mulN_err ha hb big32_lt (by rw [big32]; exact h)
  obtain ⟨h3, h4⟩ := pk32_spec h1
  refine ⟨h3, ?_⟩
  show |Ref.binary32 (pk32 _) - _| ≤ _
  rw [h4]
  exact le_trans h2 (add_le_add_right half_unit _)

theorem nv_nonneg {f : Fmt} {x : Num} (h : x.neg = false) : 0 ≤ nv f x := by
  unfold nv; rw [sval_sign, h]; simp; positivity

theorem sq_nonneg (acos : F64 → F64) (a : F32) (ha : Ref.finite32 a) (hf : (mulN f32 (un32 a) (un32 a)).mag < f32.inf) :
    0 ≤ Ref.binary32 ((ops acos).sq a) := by
  show 0 ≤ Ref.binary32 (pk32 (mulN f32 (un32 a) (un32 a)))
  rw [(pk32_spec hf).2]
  apply nv_nonneg
  rw [finite_iff] at ha
  obtain ⟨a1, a2⟩ := not_special ha
  unfold mulN
  simp [a1, a2]

theorem nv_eq_zero {f : Fmt} {x : Num} : nv f x = 0 ↔ x.mag = 0 := by
  have hU := unit_pos (f := f)
  rw [← abs_eq_zero, abs_nv, div_eq_zero_iff]
  constructor
  · rintro (h | h)
    · by_contra hc
      exact val_pos hc (by exact_mod_cast h)
    · exact absurd h hU.ne'
  · intro h
    rw [h, val_zero]; simp

theorem sq_zero (acos : F64 → F64) (a : F32) (ha : Ref.finite32 a) (h : Ref.binary32 a = 0) :
    Ref.binary32 ((ops acos).sq a) = 0 := by
  show Ref.binary32 (pk32 (mulN f32 (un32 a) (un32 a))) = 0
  rw [b32, nv_eq_zero] at h
  rw [finite_iff] at ha
  have := mulN_zero (un32 a) (un32 a) ha h
  rw [(pk32_spec (by rw [this]; decide)).2, nv_eq_zero]
  exact this

theorem madd_bound {c p ab x r : ℚ} (hp : |p - ab| ≤ |ab| / 2^24 + 1 / 2^149) (hx : x = c + p)
    (hr : |r - x| ≤ |x| / 2^24) : |r - (c + ab)| ≤ |c + ab| / 2^24 + 2 * (|ab| / 2^24) + 2 / 2^149 := by
  have h1 : |x| ≤ |c + ab| + |p - ab| := by
    have : x = (c + ab) + (p - ab) := by rw [hx]; ring
    rw [this]; exact abs_add_le _ _
  have h2 : |r - (c + ab)| ≤ |r - x| + |p - ab| := by
    have : r - (c + ab) = (r - x) + (p - ab) := by rw [hx]; ring
    rw [this]; exact abs_add_le _ _
  have h3 : (0 : ℚ) ≤ |ab| := abs_nonneg _
  have h4 : (0 : ℚ) < 1 / 2^149 := by positivity
  have h5 : (2 : ℚ) / 2^149 = 2 * (1 / 2^149) := by ring
  rw [h5]
  generalize (1 : ℚ) / 2^149 = e at *
  linarith

theorem madd_acc (acos : F64 → F64) (c a b : F32) (hc : Ref.finite32 c) (ha : Ref.finite32 a) (hb : Ref.finite32 b)
    (h : |Ref.binary32 c| + |Ref.binary32 a * Ref.binary32 b| ≤ 2^126) :
    Ref.finite32 ((ops acos).madd c a b) ∧
    |Ref.binary32 ((ops acos).madd c a b) - (Ref.binary32 c + Ref.binary32 a * Ref.binary32 b)| ≤
      |Ref.binary32 c + Ref.binary32 a * Ref.binary32 b| / 2^24 + 2 * (|Ref.binary32 a * Ref.binary32 b| / 2^24) + 2 / 2^149 := by
  have hc0 := abs_nonneg (Ref.binary32 c)
  have hab0 := abs_nonneg (Ref.binary32 a * Ref.binary32 b)
  obtain ⟨h1, h2⟩ := mul_acc acos a b ha hb (by linarith)
  have h5 : |Ref.binary32 ((ops acos).mul a b)| ≤ 2 * 2^126 := by
    have : Ref.binary32 ((ops acos).mul a b) =
        (Ref.binary32 ((ops acos).mul a b) - Ref.binary32 a * Ref.binary32 b) + Ref.binary32 a * Ref.binary32 b := by ring
    rw [this]
    refine le_trans (abs_add_le _ _) ?_
    have hs : (1 : ℚ) / 2^149 ≤ 1 := by norm_num
    linarith
  obtain ⟨h3, h4⟩ := add_acc acos c ((ops acos).mul a b) hc h1
    (le_trans (abs_add_le _ _) (by linarith))
  exact ⟨h3, madd_bound h2 rfl h4⟩

theorem madd_zero (acos : F64 → F64) (c a b : F32) (hc : Ref.finite32 c) (ha : Ref.finite32 a) (hb : Ref.finite32 b)
    (hc0 : Ref.binary32 c = 0) (hb0 : Ref.binary32 b = 0) :
    Ref.finite32 ((ops acos).madd c a b) ∧ Ref.binary32 ((ops acos).madd c a b) = 0 := by
  obtain ⟨h1, -⟩ := mul_acc acos a b ha hb (by rw [hb0]; norm_num)
  have h2 : Ref.binary32 ((ops acos).mul a b) = 0 := by
    rw [b32, nv_eq_zero] at hb0
    rw [finite_iff] at ha
    have := mulN_zero (un32 a) (un32 b) ha hb0
    show Ref.binary32 (pk32 (mulN f32 (un32 a) (un32 b))) = 0
    rw [(pk32_spec (by rw [this]; decide)).2, nv_eq_zero]
    exact this
  obtain ⟨h3, h4⟩ := add_acc acos c ((ops acos).mul a b) hc h1 (by rw [hc0, h2]; norm_num)
  refine ⟨h3, ?_⟩
  rw [hc0, h2] at h4
  show Ref.binary32 ((ops acos).add c ((ops acos).mul a b)) = 0
  simpa using h4

theorem div_acc (acos : F64 → F64) (a b : F32) (ha : Ref.finite32 a) (hb : Ref.finite32 b) (hb0 : Ref.binary32 b ≠ 0)
    (h : |Ref.binary32 a / Ref.binary32 b| ≤ 3 * 2^126) :
    Ref.finite32 ((ops acos).div a b) ∧
    |Ref.binary32 ((ops acos).div a b) - Ref.binary32 a / Ref.binary32 b| ≤
      |Ref.binary32 a / Ref.binary32 b| / 2^24 + 1 / 2^149 := by
  rw [finite_iff] at ha hb
  rw [b32 b] at hb0
  rw [b32 a, b32 b] at h ⊢
  obtain ⟨h1, h2⟩ := divN_err ha hb big32_lt hb0 (by rw [big32]; exact h)
  obtain ⟨h3, h4⟩ := pk32_spec h1
  refine ⟨h3, ?_⟩
  show |Ref.binary32 (pk32 _) - _| ≤ _
  rw [h4]
  exact le_trans h2 (add_le_add_right half_unit _)

theorem abs_acc (acos : F64 → F64) (a : F32) (ha : Ref.finite32 a) :
    Ref.finite32 ((ops acos).abs a) ∧ Ref.binary32 ((ops acos).abs a) = |Ref.binary32 a| := by
  rw [finite_iff] at ha
  obtain ⟨h3, h4⟩ := pk32_spec (x := absN (un32 a)) ha
  refine ⟨h3, ?_⟩
  show Ref.binary32 (pk32 (absN (un32 a))) = _
  rw [h4, b32, abs_nv]
  unfold nv absN
  rw [sval_mk]; simp

theorem sqrt_acc (acos : F64 → F64) (a : F32) (ha : Ref.finite32 a) (h : 0 ≤ Ref.binary32 a) :
    Ref.finite32 ((ops acos).sqrt a) ∧ 0 ≤ Ref.binary32 ((ops acos).sqrt a) ∧
    (1 - 1 / 2^24)^2 * Ref.binary32 a ≤ Ref.binary32 ((ops acos).sqrt a)^2 ∧
    Ref.binary32 ((ops acos).sqrt a)^2 ≤ (1 + 1 / 2^24)^2 * Ref.binary32 a := by
  rw [finite_iff] at ha
  rw [b32 a] at h ⊢
  obtain ⟨h1, h2⟩ := sqrtN_err roomy32 ha h
  obtain ⟨h3, h4⟩ := pk32_spec h1
  refine ⟨h3, ?_⟩
  show 0 ≤ Ref.binary32 (pk32 _) ∧ _ ≤ Ref.binary32 (pk32 _)^2 ∧ Ref.binary32 (pk32 _)^2 ≤ _
  rw [h4]; exact h2

theorem sqrtD_acc (acos : F64 → F64) (a : F64) (ha : Ref.finite64 a) (h : 0 ≤ Ref.binary64 a) :
    Ref.finite64 ((ops acos).sqrtD a) ∧ 0 ≤ Ref.binary64 ((ops acos).sqrtD a) ∧
    (1 - 1 / 2^53)^2 * Ref.binary64 a ≤ Ref.binary64 ((ops acos).sqrtD a)^2 ∧
    Ref.binary64 ((ops acos).sqrtD a)^2 ≤ (1 + 1 / 2^53)^2 * Ref.binary64 a := by
  rw [finite64_iff] at ha
  rw [b64 a] at h ⊢
  obtain ⟨h1, h2⟩ := sqrtN_err roomy64 ha h
  obtain ⟨h3, h4⟩ := pk64_spec h1
  refine ⟨h3, ?_⟩
  show 0 ≤ Ref.binary64 (pk64 _) ∧ _ ≤ Ref.binary64 (pk64 _)^2 ∧ Ref.binary64 (pk64 _)^2 ≤ _
  rw [h4]; exact h2

theorem addD_acc (acos : F64 → F64) (a b : F64) (ha : Ref.finite64 a) (hb : Ref.finite64 b)
    (h : |Ref.binary64 a + Ref.binary64 b| ≤ 2^1023) :
    Ref.finite64 ((ops acos).addD a b) ∧
    |Ref.binary64 ((ops acos).addD a b) - (Ref.binary64 a + Ref.binary64 b)| ≤ |Ref.binary64 a + Ref.binary64 b| / 2^53 := by
  rw [finite64_iff] at ha hb
  rw [b64 a, b64 b] at h ⊢
  obtain ⟨h1, h2⟩ := addN_err ha hb big64_lt (by rw [big64]; exact h)
  obtain ⟨h3, h4⟩ := pk64_spec h1
  refine ⟨h3, ?_⟩
  show |Ref.binary64 (pk64 _) - _| ≤ _
  rw [h4]; exact h2

/-- Every float32 is a float64. -/
theorem widen_acc (acos : F64 → F64) (a : F32) (ha : Ref.finite32 a) :
    Ref.finite64 ((ops acos).widen a) ∧ Ref.binary64 ((ops acos).widen a) = Ref.binary32 a := by
  rw [finite_iff] at ha
  obtain ⟨a1, a2⟩ := not_special ha
  have e : widenN (un32 a) = ⟨(un32 a).neg, roundRat f64 (val f32 (un32 a).mag * 2^(f64.unit - f32.unit)) 1⟩ := by
    unfold widenN; simp [a1, a2]
  -- the value is a 24 bit number times a power of two
  have hrep : ∃ m e, val f32 (un32 a).mag = m * 2^e ∧ m < 2^24 := by
    unfold val
    by_cases h : (un32 a).mag < 2^f32.mb
    · exact ⟨(un32 a).mag, 0, by rw [if_pos h]; simp, by have : f32.mb = 23 := rfl; rw [this] at h; omega⟩
    · refine ⟨2^f32.mb + (un32 a).mag % 2^f32.mb, (un32 a).mag / 2^f32.mb - 1, by rw [if_neg h], ?_⟩
      have : f32.mb = 23 := rfl
      rw [this]; omega
  obtain ⟨m, e', hv, hm⟩ := hrep
  have hbound : val f32 (un32 a).mag * 2^(f64.unit - f32.unit) ≤ val f64 0x7FE0000000000000 := by
    have h1 : val f32 (un32 a).mag ≤ val f32 f32.inf := val_le (Nat.le_of_lt ha)
    have h2 : val f32 f32.inf * 2^(f64.unit - f32.unit) ≤ val f64 0x7FE0000000000000 := by decide +kernel
    exact Nat.le_trans (Nat.mul_le_mul_right _ h1) h2
  have hfl : floorPat f64 (val f32 (un32 a).mag * 2^(f64.unit - f32.unit)) ≤ 0x7FE0000000000000 := by
    have := floorPat_mono (f := f64) hbound
    rwa [floorPat_val] at this
  have hval : val f64 (roundRat f64 (val f32 (un32 a).mag * 2^(f64.unit - f32.unit)) 1)
      = val f32 (un32 a).mag * 2^(f64.unit - f32.unit) := by
    rw [hv, Nat.mul_assoc, ← Nat.pow_add] at *
    have h2 := big64_lt
    exact val_round_nat (f := f64) (a := m) (e := e' + (f64.unit - f32.unit))
      (Nat.lt_trans hm (by decide)) (by omega)
  have hfin : roundRat f64 (val f32 (un32 a).mag * 2^(f64.unit - f32.unit)) 1 < f64.inf :=
    Nat.lt_of_le_of_lt (roundRat_le_of (by omega) (by rw [Nat.one_mul]; exact hbound)) big64_lt
  obtain ⟨h3, h4⟩ := pk64_spec (x := widenN (un32 a)) (by rw [e]; exact hfin)
  refine ⟨h3, ?_⟩
  show Ref.binary64 (pk64 (widenN (un32 a))) = _
  rw [h4, b32]
  unfold nv
  rw [e, sval_mk, sval_sign, hval, unit64, unit32]
  push_cast
  have : (2 : ℚ)^1074 = 2^(1074 - 149) * 2^149 := by rw [← pow_add]
  rw [this]
  field_simp
  norm_num

theorem key_lt {a b : F64} : F64.key a < F64.key b ↔ (un64 a).sval f64 < (un64 b).sval f64 := by
  have ka : F64.key a = if (un64 a).neg then -((un64 a).mag : Int) else (un64 a).mag := rfl
  have kb : F64.key b = if (un64 b).neg then -((un64 b).mag : Int) else (un64 b).mag := rfl
  rw [ka, kb]
  unfold Num.sval
  have hlt : ∀ m n, m < n → val f64 m < val f64 n := fun m n h => val_lt h
  have h0 := val_zero f64
  generalize (un64 a).mag = x
  generalize (un64 b).mag = y
  have p1 : val f64 x < val f64 y ↔ x < y := ⟨fun h => by
    by_contra hc
    have := val_le (f := f64) (m := y) (n := x) (by omega); omega, hlt x y⟩
  have p2 : val f64 y < val f64 x ↔ y < x := ⟨fun h => by
    by_contra hc
    have := val_le (f := f64) (m := x) (n := y) (by omega); omega, hlt y x⟩
  have p3 : val f64 x = 0 ↔ x = 0 := ⟨fun h => by
    by_contra hc
    exact val_pos hc h, fun h => by rw [h, h0]⟩
  have p4 : val f64 y = 0 ↔ y = 0 := ⟨fun h => by
    by_contra hc
    exact val_pos hc h, fun h => by rw [h, h0]⟩
  generalize val f64 x = vx at *
  generalize val f64 y = vy at *
  cases (un64 a).neg <;> cases (un64 b).neg <;> simp only [if_true, if_false, Bool.false_eq_true] <;> omega

theorem lt_acc (a b : F64) (ha : Ref.finite64 a) (hb : Ref.finite64 b) :
    F64.lt a b = true ↔ Ref.binary64 a < Ref.binary64 b := by
  have hn : ∀ x, Ref.finite64 x → F64.isNaN x = false := by
    intro x hx
    rw [finite64_iff, inf64] at hx
    unfold F64.isNaN
    have : F64.mag x = (un64 x).mag := rfl
    rw [this]
    simp only [decide_eq_false_iff_not]
    omega
  rw [F64.lt_iff, b64, b64]
  unfold nv
  rw [div_lt_div_iff_of_pos_right unit_pos, Int.cast_lt, ← key_lt]
  simp [hn a ha, hn b hb]

/-- The soft-float arithmetic is accurate. -/
theorem accurate (acos : F64 → F64) : Ref.Accurate (ops acos) where
  zero := by
    refine ⟨by show Ref.finite32 0; unfold Ref.finite32; decide, ?_⟩
    show Ref.binary32 0 = 0
    unfold Ref.binary32; simp
  isZero x hx := by
    show F32.isZero x = true ↔ _
    rw [isZero_iff, b32, nv_eq_zero]
  add := add_acc acos
  sub := sub_acc acos
  mul := mul_acc acos
  sq a ha h := by
    have h0 : 0 ≤ Ref.binary32 a * Ref.binary32 a := mul_self_nonneg _
    obtain ⟨h1, h2⟩ := mul_acc acos a a ha ha (by rw [abs_of_nonneg h0]; exact h)
    rw [abs_of_nonneg h0] at h2
    refine ⟨h1, sq_nonneg acos a ha ?_, sq_zero acos a ha, h2⟩
    have := (finite_iff _).1 h1
    unfold Fin32 at this
    have e : un32 ((ops acos).mul a a) = mulN f32 (un32 a) (un32 a) := un_pk32 _ (mulN_mag_lt _ _)
    rwa [e] at this
  madd := madd_acc acos
  madd0 := madd_zero acos
  div := div_acc acos
  abs := abs_acc acos
  sqrt := sqrt_acc acos
  widen := widen_acc acos
  zeroD := by
    refine ⟨by show Ref.finite64 0; unfold Ref.finite64; decide, ?_⟩
    show Ref.binary64 0 = 0
    unfold Ref.binary64; simp
  oneD := by
    refine ⟨by show Ref.finite64 F64.one; unfold Ref.finite64; decide, ?_⟩
    show Ref.binary64 F64.one = 1
    have : (un64 F64.one).sval f64 = 2^1074 := by decide +kernel
    rw [binary64_eq, this]
    norm_num
  negOneD := by
    refine ⟨by show Ref.finite64 F64.negOne; unfold Ref.finite64; decide, ?_⟩
    show Ref.binary64 F64.negOne = -1
    have : (un64 F64.negOne).sval f64 = -2^1074 := by decide +kernel
    rw [binary64_eq, this]
    norm_num
  ltD := lt_acc
  addD := addD_acc acos
  sqrtD := sqrtD_acc acos

end SF
end Veri
