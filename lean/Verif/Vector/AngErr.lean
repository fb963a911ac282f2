import Verif.Vector.CosErr
import Mathlib.Analysis.SpecialFunctions.Trigonometric.Inverse
import Mathlib.Analysis.Real.Pi.Bounds
/-
How accurate `AngularDistance` of data/util.go is (C141).
-/
set_option autoImplicit false
namespace Veri
set_option exponentiation.threshold 4000

namespace Ref

/-- One minus the angle of two vectors, as a share of π: 1 for the same direction, 0 for opposite directions; 1/2 if a vector is
zero. -/
noncomputable def angular (a b : List F32) : ℝ := 1 - Real.arccos (cosine a b) / Real.pi

/-- What is assumed of float64 subtraction and division, of `math.Pi` and of `math.Acos` (right to a millionth). -/
structure AccurateAcos (o : FOps F32 F64) : Prop where
  subD : ∀ a b, finite64 a → finite64 b → |binary64 a - binary64 b| ≤ 2^1023 →
    finite64 (o.subD a b) ∧ |binary64 (o.subD a b) - (binary64 a - binary64 b)| ≤ |binary64 a - binary64 b| / 2^53
  divD : ∀ a b, finite64 a → finite64 b → binary64 b ≠ 0 → |binary64 a / binary64 b| ≤ 2^1023 →
    finite64 (o.divD a b) ∧ |binary64 (o.divD a b) - binary64 a / binary64 b| ≤ |binary64 a / binary64 b| / 2^53 + 1 / 2^1074
  piD : finite64 o.piD ∧ |(binary64 o.piD : ℝ) - Real.pi| ≤ 1 / 2^50
  acosD : ∀ a, finite64 a → |binary64 a| ≤ 1 →
    finite64 (o.acosD a) ∧ |(binary64 (o.acosD a) : ℝ) - Real.arccos (binary64 a : ℝ)| ≤ 1 / 1000000

end Ref

namespace Vec
open Ref

/-- How fast the angle changes with its cosine. -/
theorem arccos_near {x y : ℝ} (hx : |x| ≤ 1) (hy : |y| ≤ 1) :
    |Real.arccos x - Real.arccos y| ≤ Real.pi * √(|x - y| / 2) := by
  wlog h : x ≤ y generalizing x y with H
  · rw [abs_sub_comm, abs_sub_comm x y]
    exact H hy hx (le_of_lt (not_le.1 h))
  have hx' := abs_le.1 hx
  have hy' := abs_le.1 hy
  have hle : Real.arccos y ≤ Real.arccos x := Real.arccos_le_arccos h
  have ex := Real.cos_arccos hx'.1 hx'.2
  have ey := Real.cos_arccos hy'.1 hy'.2
  have a0 := Real.arccos_nonneg y
  have a1 := Real.arccos_le_pi x
  have hpi := Real.pi_pos
  generalize Real.arccos x = α at *
  generalize Real.arccos y = β at *
  have e := Real.cos_sub_cos β α
  rw [ex, ey] at e
  have e2 : Real.sin ((β - α) / 2) = - Real.sin ((α - β) / 2) := by rw [← Real.sin_neg]; congr 1; ring
  rw [e2] at e
  have hδ0 : 0 ≤ (α - β) / 2 := by linarith
  have hδ1 : (α - β) / 2 ≤ Real.pi / 2 := by linarith
  have hs := Real.mul_le_sin hδ0 hδ1
  have hge : Real.sin ((α - β) / 2) ≤ Real.sin ((β + α) / 2) := by
    rcases le_total ((β + α) / 2) (Real.pi / 2) with hc | hc
    · exact Real.sin_le_sin_of_le_of_le_pi_div_two (by linarith) hc (by linarith)
    · rw [← Real.sin_pi_sub ((β + α) / 2)]
      exact Real.sin_le_sin_of_le_of_le_pi_div_two (by linarith) (by linarith) (by linarith)
  have ht0 : 0 ≤ 2 / Real.pi * ((α - β) / 2) := by positivity
  have key : (2 / Real.pi * ((α - β) / 2))^2 ≤ (y - x) / 2 := by
    have h1 : (2 / Real.pi * ((α - β) / 2))^2 ≤ Real.sin ((β + α) / 2) * Real.sin ((α - β) / 2) := by
      rw [pow_two]
      exact mul_le_mul (le_trans hs hge) hs ht0 (le_trans ht0 (le_trans hs hge))
    nlinarith
  have hroot := Real.le_sqrt_of_sq_le key
  rw [abs_of_nonneg (by linarith), abs_of_nonpos (by linarith : x - y ≤ 0), neg_sub]
  have e3 : α - β = Real.pi * (2 / Real.pi * ((α - β) / 2)) := by field_simp
  rw [e3]
  exact mul_le_mul_of_nonneg_left hroot hpi.le

/-- The similarity is between -1 and 1 if it is a number. -/
theorem cos_le_one {o : FOps F32 F64} (hA : Accurate o) (a b : List F32) (h : finite64 (cosineSimilarity o a b)) :
    |binary64 (cosineSimilarity o a b)| ≤ 1 := by
  rw [cosine_eq] at h ⊢
  split
  · rw [hA.zeroD.2]; norm_num
  · rename_i hz
    rw [if_neg hz] at h
    generalize o.widen _ = v at *
    unfold clamp at h ⊢
    split
    · rw [hA.oneD.2]; norm_num
    · rename_i h1
      rw [if_neg h1] at h
      split
      · rw [hA.negOneD.2]; norm_num
      · rename_i h2
        rw [if_neg h2] at h
        rw [hA.ltD _ _ hA.oneD.1 h, hA.oneD.2, not_lt] at h1
        rw [hA.ltD _ _ h hA.negOneD.1, hA.negOneD.2, not_lt] at h2
        exact abs_le.2 ⟨h2, h1⟩

/-- The arithmetic after the cosine. -/
theorem angle_err {o : FOps F32 F64} (hA : Accurate o) (hB : AccurateAcos o) (c : F64) (hc : finite64 c) (h1 : |binary64 c| ≤ 1) :
    finite64 (o.subD o.oneD (o.divD (o.acosD c) o.piD)) ∧
    |(binary64 (o.subD o.oneD (o.divD (o.acosD c) o.piD)) : ℝ) - (1 - Real.arccos (binary64 c : ℝ) / Real.pi)| ≤ 1 / 100000 := by
  obtain ⟨fa, ea⟩ := hB.acosD c hc h1
  obtain ⟨fp, ep⟩ := hB.piD
  have p1 := Real.pi_gt_three
  have p2 := Real.pi_le_four
  have a0 := Real.arccos_nonneg (binary64 c : ℝ)
  have a1 := Real.arccos_le_pi (binary64 c : ℝ)
  obtain ⟨ea1, ea2⟩ := abs_le.1 ea
  obtain ⟨ep1, ep2⟩ := abs_le.1 ep
  have h50 : (1 : ℝ) / 2^50 ≤ 1 / 1000000 := by norm_num
  have hP : (2 : ℝ) < (binary64 o.piD : ℝ) := by linarith
  have hPq : (2 : ℚ) < binary64 o.piD := by exact_mod_cast hP
  -- the quotient
  have hd : |(binary64 (o.acosD c) : ℝ) / (binary64 o.piD : ℝ) - Real.arccos (binary64 c : ℝ) / Real.pi| ≤ 1 / 500000 := by
    generalize (binary64 (o.acosD c) : ℝ) = A at *
    generalize (binary64 o.piD : ℝ) = P at *
    generalize Real.arccos (binary64 c : ℝ) = θ at *
    rw [div_sub_div _ _ (by linarith : P ≠ 0) Real.pi_pos.ne', abs_div, abs_of_pos (mul_pos (by linarith) Real.pi_pos),
      div_le_iff₀ (mul_pos (by linarith) Real.pi_pos)]
    have e : A * Real.pi - P * θ = (A - θ) * Real.pi - θ * (P - Real.pi) := by ring
    rw [e]
    refine le_trans (abs_sub _ _) ?_
    rw [abs_mul, abs_mul, abs_of_pos Real.pi_pos, abs_of_nonneg a0]
    have g1 := mul_le_mul_of_nonneg_right ea Real.pi_pos.le
    have g2 := mul_le_mul a1 (le_trans ep h50) (abs_nonneg _) Real.pi_pos.le
    have g3 : 2 * Real.pi ≤ P * Real.pi := mul_le_mul_of_nonneg_right hP.le Real.pi_pos.le
    nlinarith
  have hθ : 0 ≤ Real.arccos (binary64 c : ℝ) / Real.pi ∧ Real.arccos (binary64 c : ℝ) / Real.pi ≤ 1 :=
    ⟨div_nonneg a0 Real.pi_pos.le, (div_le_one Real.pi_pos).2 a1⟩
  obtain ⟨hd1, hd2⟩ := abs_le.1 hd
  have hq : |(binary64 (o.acosD c) : ℝ) / (binary64 o.piD : ℝ)| ≤ 2 := abs_le.2 ⟨by linarith, by linarith⟩
  have hqq : |binary64 (o.acosD c) / binary64 o.piD| ≤ 2 := by exact_mod_cast hq
  obtain ⟨fd, ed⟩ := hB.divD _ _ fa fp (by linarith) (le_trans hqq (by norm_num))
  have ed' : |(binary64 (o.divD (o.acosD c) o.piD) : ℝ) - (binary64 (o.acosD c) : ℝ) / (binary64 o.piD : ℝ)| ≤ 1 / 1000000 := by
    have : |binary64 (o.divD (o.acosD c) o.piD) - binary64 (o.acosD c) / binary64 o.piD| ≤ 1 / 1000000 := by
      refine le_trans ed ?_
      have g1 : |binary64 (o.acosD c) / binary64 o.piD| / 2^53 ≤ 2 / 2^53 := div_le_div_of_nonneg_right hqq (by positivity)
      have g2 : (2 : ℚ) / 2^53 + 1 / 2^1074 ≤ 1 / 1000000 := by norm_num
      linarith
    have := (Rat.cast_le (K := ℝ)).2 this
    push_cast at this
    exact this
  obtain ⟨ed1, ed2⟩ := abs_le.1 ed'
  have hr : |binary64 o.oneD - binary64 (o.divD (o.acosD c) o.piD)| ≤ 4 := by
    have : |(binary64 o.oneD : ℝ) - (binary64 (o.divD (o.acosD c) o.piD) : ℝ)| ≤ 4 := by
      rw [hA.oneD.2]
      push_cast
      exact abs_le.2 ⟨by linarith, by linarith⟩
    exact_mod_cast this
  obtain ⟨fs, es⟩ := hB.subD _ _ hA.oneD.1 fd (le_trans hr (by norm_num))
  refine ⟨fs, ?_⟩
  have es' : |(binary64 (o.subD o.oneD (o.divD (o.acosD c) o.piD)) : ℝ) - (1 - (binary64 (o.divD (o.acosD c) o.piD) : ℝ))| ≤ 1 / 1000000 := by
    have : |binary64 (o.subD o.oneD (o.divD (o.acosD c) o.piD)) - (binary64 o.oneD - binary64 (o.divD (o.acosD c) o.piD))| ≤ 1 / 1000000 := by
      refine le_trans es ?_
      have g1 := div_le_div_of_nonneg_right hr (show (0 : ℚ) ≤ 2^53 by positivity)
      refine le_trans g1 (by norm_num)
    rw [hA.oneD.2] at this
    have := (Rat.cast_le (K := ℝ)).2 this
    push_cast at this
    exact this
  obtain ⟨es1, es2⟩ := abs_le.1 es'
  exact abs_le.2 ⟨by linarith, by linarith⟩

end Vec

namespace SF
open Ref

theorem subD_acc (acos : F64 → F64) (a b : F64) (ha : finite64 a) (hb : finite64 b)
    (h : |binary64 a - binary64 b| ≤ 2^1023) :
    finite64 ((ops acos).subD a b) ∧
    |binary64 ((ops acos).subD a b) - (binary64 a - binary64 b)| ≤ |binary64 a - binary64 b| / 2^53 := by
  rw [finite64_iff] at ha hb
  rw [b64 a, b64 b] at h ⊢
  obtain ⟨h1, h2⟩ := subN_err ha hb big64_lt (by rw [big64]; exact h)
  obtain ⟨h3, h4⟩ := pk64_spec h1
  refine ⟨h3, ?_⟩
  show |binary64 (pk64 _) - _| ≤ _
  rw [h4]; exact h2

theorem divD_acc (acos : F64 → F64) (a b : F64) (ha : finite64 a) (hb : finite64 b) (hb0 : binary64 b ≠ 0)
    (h : |binary64 a / binary64 b| ≤ 2^1023) :
    finite64 ((ops acos).divD a b) ∧
    |binary64 ((ops acos).divD a b) - binary64 a / binary64 b| ≤ |binary64 a / binary64 b| / 2^53 + 1 / 2^1074 := by
  rw [finite64_iff] at ha hb
  rw [b64 b] at hb0
  rw [b64 a, b64 b] at h ⊢
  obtain ⟨h1, h2⟩ := divN_err ha hb big64_lt hb0 (by rw [big64]; exact h)
  obtain ⟨h3, h4⟩ := pk64_spec h1
  refine ⟨h3, ?_⟩
  show |binary64 (pk64 _) - _| ≤ _
  rw [h4]
  refine le_trans h2 (add_le_add_right ?_ _)
  rw [unit64, div_div]
  exact one_div_le_one_div_of_le (by positivity) (by linarith [show (0 : ℚ) < 2^1074 by positivity])

/-- There is a float64 near every real number between 0 and 4. -/
theorem near (r : ℝ) (h0 : 0 ≤ r) (h4 : r ≤ 4) : ∃ y : F64, finite64 y ∧ |(binary64 y : ℝ) - r| ≤ 1 / 1000000 := by
  let k := ⌊r * 2^30⌋₊
  have k1 : (k : ℝ) ≤ r * 2^30 := Nat.floor_le (by positivity)
  have k2 : r * 2^30 < k + 1 := Nat.lt_floor_add_one _
  have k3 : k ≤ 2^32 := by
    have : (k : ℝ) ≤ ((2^32 : ℕ) : ℝ) := by push_cast; linarith
    exact_mod_cast this
  have hfin : roundRat f64 (k * 2^1044) 1 < f64.inf := by
    refine lt_of_le_of_lt ?_ big64_lt
    refine roundRat_le_of (by omega) ?_
    have e : val f64 0x7FE0000000000000 = 2^2097 := by decide +kernel
    rw [Nat.one_mul, e]
    refine le_trans (Nat.mul_le_mul_right _ k3) ?_
    rw [← Nat.pow_add]
    exact Nat.pow_le_pow_right (by omega) (by omega)
  obtain ⟨f1, f2⟩ := pk64_spec (x := ⟨false, roundRat f64 (k * 2^1044) 1⟩) hfin
  refine ⟨_, f1, ?_⟩
  rw [f2]
  have hr := round_int_q hfin
  have e : nv f64 ⟨false, roundRat f64 (k * 2^1044) 1⟩ = (val f64 (roundRat f64 (k * 2^1044) 1) : ℚ) / 2^1074 := by
    unfold nv Num.sval
    simp [unit64]
  rw [e]
  have hb : |(val f64 (roundRat f64 (k * 2^1044) 1) : ℚ) / 2^1074 - k / 2^30| ≤ 1 / 2000000 := by
    have e1 : (k : ℚ) / 2^30 = ((k * 2^1044 : ℕ) : ℚ) / 2^1074 := by
      push_cast
      rw [div_eq_div_iff (by positivity) (by positivity)]
      rw [mul_assoc]
      norm_num
    rw [e1, ← sub_div, abs_div, abs_of_pos (show (0 : ℚ) < 2^1074 by positivity), div_le_iff₀ (by positivity)]
    refine le_trans hr ?_
    have k3' : (k : ℚ) ≤ 4294967296 := by exact_mod_cast k3
    have e2 : f64.mb + 1 = 53 := rfl
    rw [e2]
    push_cast
    rw [div_le_iff₀ (by positivity)]
    calc (k : ℚ) * 2^1044 ≤ 4294967296 * 2^1044 := mul_le_mul_of_nonneg_right k3' (by positivity)
      _ ≤ 1 / 2000000 * 2^1074 * 2^53 := by norm_num
  have hb' := (Rat.cast_le (K := ℝ)).2 hb
  push_cast at hb' ⊢
  obtain ⟨b1, b2⟩ := abs_le.1 hb'
  have r1 : (k : ℝ) / 2^30 ≤ r := by rw [div_le_iff₀ (by positivity)]; exact k1
  have r2 : r ≤ (k : ℝ) / 2^30 + 1 / 2^30 := by rw [← add_div, le_div_iff₀ (by positivity)]; exact k2.le
  have r3 : (1 : ℝ) / 2^30 ≤ 1 / 2000000 := by norm_num
  exact abs_le.2 ⟨by linarith, by linarith⟩

/-- An arc cosine. -/
noncomputable def acosR (x : F64) : F64 :=
  Classical.choose (near (Real.arccos (binary64 x : ℝ)) (Real.arccos_nonneg _) (le_trans (Real.arccos_le_pi _) Real.pi_le_four))

theorem acos_acc : AccurateAcos (ops acosR) where
  subD := subD_acc _
  divD := divD_acc _
  piD := by
    refine ⟨by show finite64 0x400921FB54442D18; unfold finite64; decide, ?_⟩
    have e : binary64 0x400921FB54442D18 = 884279719003555 / 281474976710656 := by decide +kernel
    show |(binary64 0x400921FB54442D18 : ℝ) - Real.pi| ≤ _
    rw [e]
    have h1 := Real.pi_gt_d20
    have h2 := Real.pi_lt_d20
    push_cast
    exact abs_le.2 ⟨by norm_num at *; linarith, by norm_num at *; linarith⟩
  acosD a _ _ := Classical.choose_spec (near (Real.arccos (binary64 a : ℝ)) (Real.arccos_nonneg _)
    (le_trans (Real.arccos_le_pi _) Real.pi_le_four))

end SF

open Vec Ref

/-- C141, full statement: the angular similarity of two vectors of finite numbers with up to 2^15 components is within 71/1000 of the
true one.  FALSE of the code. -/
def C141_angular_accurate_statement : Prop :=
  ∀ o : FOps F32 F64, Accurate o → AccurateAcos o → ∀ a b : List F32, (∀ x ∈ a, finite32 x) → (∀ x ∈ b, finite32 x) →
    a.length ≤ 2^15 → b.length ≤ 2^15 →
    finite64 (angularDistance o a b) ∧ |(binary64 (angularDistance o a b) : ℝ) - angular a b| ≤ 71 / 1000

/-- C141, partial: it is if each vector is zero or has a length between 2^-60 and 2^60. -/
theorem C141_angular_accurate_partial {o : FOps F32 F64} (hA : Accurate o) (hB : AccurateAcos o) (a b : List F32)
    (ha : ∀ x ∈ a, finite32 x) (hb : ∀ x ∈ b, finite32 x) (hna : a.length ≤ 2^15) (hnb : b.length ≤ 2^15)
    (hma : Moderate a) (hmb : Moderate b) :
    finite64 (angularDistance o a b) ∧ |(binary64 (angularDistance o a b) : ℝ) - angular a b| ≤ 71 / 1000 := by
  obtain ⟨fc, ec⟩ := C138_cosine_accurate_partial hA a b ha hb hna hnb hma hmb
  have h1 := cos_le_one hA a b fc
  obtain ⟨fs, es⟩ := angle_err hA hB _ fc h1
  refine ⟨fs, ?_⟩
  have h1' : |(binary64 (cosineSimilarity o a b) : ℝ)| ≤ 1 := by exact_mod_cast h1
  have hn := arccos_near h1' (cosine_le a b)
  have hroot : √(|(binary64 (cosineSimilarity o a b) : ℝ) - cosine a b| / 2) ≤ 7072 / 100000 := by
    rw [Real.sqrt_le_left (by norm_num)]
    have : (1 : ℝ) / 100 / 2 ≤ (7072 / 100000)^2 := by norm_num
    linarith
  have hdiff : |Real.arccos (binary64 (cosineSimilarity o a b) : ℝ) / Real.pi - Real.arccos (cosine a b) / Real.pi| ≤ 7072 / 100000 := by
    rw [← sub_div, abs_div, abs_of_pos Real.pi_pos, div_le_iff₀ Real.pi_pos, mul_comm]
    exact le_trans hn (mul_le_mul_of_nonneg_left hroot Real.pi_pos.le)
  unfold angular
  show |(binary64 (o.subD o.oneD (o.divD (o.acosD (cosineSimilarity o a b)) o.piD)) : ℝ) - _| ≤ _
  obtain ⟨e1, e2⟩ := abs_le.1 es
  obtain ⟨d1, d2⟩ := abs_le.1 hdiff
  exact abs_le.2 ⟨by linarith, by linarith⟩

/-- C141, counterexample: the vector (2^-80) is at a right angle to itself. -/
theorem C141_angular_accurate_fails : ¬ C141_angular_accurate_statement := by
  intro h
  have hv : binary32 0x17800000 = (2^80)⁻¹ := by decide +kernel
  have ha : ∀ x ∈ [(0x17800000 : F32)], finite32 x := by unfold finite32; decide
  have hz := C138_short SF.acosR [0x17800000] [0x17800000] ha (by
    intro p hp
    simp only [List.mem_singleton] at hp
    subst hp
    rw [hv, abs_of_pos (by positivity)]
    norm_num)
  have := (h (SF.ops SF.acosR) (SF.accurate _) SF.acos_acc [0x17800000] [0x17800000] ha ha (by decide) (by decide)).2
  have b0 : binary64 0 = 0 := by decide +kernel
  have hb := (angle_err (SF.accurate SF.acosR) SF.acos_acc 0 (by unfold finite64; decide) (by rw [b0]; norm_num)).2
  have e : cosine [0x17800000] [0x17800000] = 1 := by
    unfold cosine norm2
    simp only [dot, hv]
    rw [Real.sqrt_mul_self]
    · norm_num
    · norm_num
  unfold angularDistance angular at this
  rw [hz, e, Real.arccos_one] at this
  rw [b0, Rat.cast_zero, Real.arccos_zero] at hb
  have e2 : Real.pi / 2 / Real.pi = 1 / 2 := by
    have := Real.pi_pos.ne'
    field_simp
  rw [e2] at hb
  have g1 := (abs_le.1 this).1
  have g2 := (abs_le.1 hb).2
  norm_num at g1 g2
  linarith

/-- C141: (1, 0) and (0, 1) meet the hypotheses; the angle is a right one. -/
theorem C141_example : AccurateAcos (SF.ops SF.acosR) ∧ Moderate [0x3F800000, 0] ∧ Moderate [0, 0x3F800000] ∧
    angular [0x3F800000, 0] [0, 0x3F800000] = 1 / 2 := by
  have h1 : binary32 0x3F800000 = 1 := by decide +kernel
  have h0 : binary32 0 = 0 := by decide +kernel
  refine ⟨SF.acos_acc, Or.inr ?_, Or.inr ?_, ?_⟩
  · unfold norm2; simp only [dot, h1, h0]; norm_num
  · unfold norm2; simp only [dot, h1, h0]; norm_num
  · unfold angular cosine
    simp only [dot, h1, h0]
    have := Real.pi_pos.ne'
    norm_num [Real.arccos_zero]
    field_simp
    norm_num

end Veri
