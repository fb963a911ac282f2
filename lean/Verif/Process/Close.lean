import Verif.Process.Exchange
import Verif.Vector.Accuracy
import Mathlib.Analysis.Real.Sqrt
/-
What "close statistics" (data/data.go:185) means, in real numbers: the distance of the averages and the distance of the
histograms add up to at most one per cent of the largest distance seen, up to the error of the float arithmetic.
-/
set_option autoImplicit false
namespace Veri

namespace SF

/-- Go's `<=` on finite numbers is the comparison of their values. -/
theorem le_acc (a b : F64) (ha : Ref.finite64 a) (hb : Ref.finite64 b) :
    F64.le a b = true ↔ Ref.binary64 a ≤ Ref.binary64 b := by
  have hn : ∀ x, Ref.finite64 x → F64.isNaN x = false := by
    intro x hx
    rw [finite64_iff, inf64] at hx
    unfold F64.isNaN
    have : F64.mag x = (un64 x).mag := rfl
    rw [this]
    simp only [decide_eq_false_iff_not]
    omega
  have h := lt_acc b a hb ha
  rw [F64.lt_iff] at h
  simp only [hn a ha, hn b hb, true_and] at h
  unfold F64.le
  simp only [hn a ha, hn b hb, Bool.not_false, Bool.true_and, decide_eq_true_eq]
  rw [← not_lt, ← not_lt, h]

/-- The error of a float64 product. -/
theorem mulD_acc (acos : F64 → F64) (a b : F64) (ha : Ref.finite64 a) (hb : Ref.finite64 b)
    (h : |Ref.binary64 a * Ref.binary64 b| ≤ 2^1023) :
    Ref.finite64 ((ops acos).mulD a b) ∧
    |Ref.binary64 ((ops acos).mulD a b) - Ref.binary64 a * Ref.binary64 b| ≤
      |Ref.binary64 a * Ref.binary64 b| / 2^53 + 1 / 2^1075 ∧
    (Ref.binary64 b = 0 → Ref.binary64 ((ops acos).mulD a b) = 0) := by
  rw [finite64_iff] at ha hb
  rw [b64 a, b64 b] at h ⊢
  obtain ⟨h1, h2⟩ := mulN_err ha hb big64_lt (by rw [big64]; exact h)
  obtain ⟨h3, h4⟩ := pk64_spec h1
  refine ⟨h3, ?_⟩
  show |Ref.binary64 (pk64 _) - _| ≤ _ ∧ (_ → Ref.binary64 (pk64 _) = 0)
  rw [h4]
  have e : (1 : ℚ) / 2 / 2^f64.unit = 1 / 2^1075 := by rw [unit64, div_div, ← pow_succ']
  refine ⟨by rw [← e]; exact h2, fun h0 => ?_⟩
  rw [h0] at h2
  simp only [mul_zero, sub_zero, abs_zero, zero_div, zero_add] at h2
  unfold nv at h2 ⊢
  have hU := unit_pos (f := f64)
  rw [abs_div, abs_of_pos hU, div_le_div_iff_of_pos_right hU] at h2
  have : |(mulN f64 (un64 a) (un64 b)).sval f64| ≤ 0 := by
    by_contra hc
    have h5 : (1 : ℤ) ≤ |(mulN f64 (un64 a) (un64 b)).sval f64| := by omega
    have h6 : (1 : ℚ) ≤ |((mulN f64 (un64 a) (un64 b)).sval f64 : ℚ)| := by exact_mod_cast h5
    linarith
  rw [abs_eq_zero.1 (le_antisymm this (abs_nonneg _))]
  simp

end SF

namespace Ref

/-- A vector and another one that a float can compare: finite components, not too many, and a distance that is zero or of a
usual size. -/
structure Usual (a b : List F32) : Prop where
  left : ∀ x ∈ a, finite32 x
  right : ∀ x ∈ b, finite32 x
  short : min a.length b.length ≤ 2^16
  size : dist2 a b = 0 ∨ (2^60)⁻¹^2 ≤ dist2 a b ∧ dist2 a b ≤ (2^62)^2

/-- How far the statistics of two data sets are apart: the distance of the averages and the distance of the histograms. -/
noncomputable def gap (loc info : DataInfo) : ℝ := √(dist2 loc.avg info.avg : ℝ) + √(dist2 loc.hist info.hist : ℝ)

/-- The computed distance, against the true one. -/
theorem root_bounds {d v : ℚ} (h0 : 0 ≤ v) (h1 : (99 / 100)^2 * d ≤ v^2) (h2 : v^2 ≤ (101 / 100)^2 * d) :
    99 / 100 * √(d : ℝ) ≤ (v : ℝ) ∧ (v : ℝ) ≤ 101 / 100 * √(d : ℝ) := by
  have e0 : (0 : ℝ) ≤ v := by exact_mod_cast h0
  have hd : (0 : ℚ) ≤ d := by nlinarith [sq_nonneg v]
  have hd' : (0 : ℝ) ≤ d := by exact_mod_cast hd
  have e1 : (99 / 100 : ℝ)^2 * d ≤ (v : ℝ)^2 := by
    have := (Rat.cast_le (K := ℝ)).2 h1
    push_cast at this; linarith
  have e2 : (v : ℝ)^2 ≤ (101 / 100 : ℝ)^2 * d := by
    have := (Rat.cast_le (K := ℝ)).2 h2
    push_cast at this; linarith
  have hs := Real.sq_sqrt hd'
  have hs0 := Real.sqrt_nonneg (d : ℝ)
  constructor
  · refine abs_le_of_sq_le_sq' ?_ e0 |>.2
    rw [mul_pow, hs]; exact e1
  · refine abs_le_of_sq_le_sq' ?_ (by positivity) |>.2
    rw [mul_pow, hs]; exact e2

end Ref

open Proc Ref in
/-- C107, what closeness means: statistics not further apart than 0.98 per cent of the largest distance seen are close, and
statistics further apart than 1.02 per cent of it are not. -/
theorem C107_close_partial (acos : F64 → F64) (P : PEnv) (hP : P.o = SF.ops acos) (loc info : DataInfo)
    (ha : Usual loc.avg info.avg) (hh : Usual loc.hist info.hist) (hm : finite64 loc.maxDistance)
    (hm0 : binary64 loc.maxDistance = 0 ∨ (2^900)⁻¹ ≤ binary64 loc.maxDistance ∧ binary64 loc.maxDistance ≤ 2^900) :
    (gap loc info ≤ 98 / 10000 * (binary64 loc.maxDistance : ℝ) → closeStats P loc info = true) ∧
    (102 / 10000 * (binary64 loc.maxDistance : ℝ) < gap loc info → closeStats P loc info = false) := by
  have hA := SF.accurate acos
  obtain ⟨a1, a2, a3, a4⟩ := C134_distance_accurate_partial hA loc.avg info.avg ha.left ha.right ha.short ha.size
  obtain ⟨b1, b2, b3, b4⟩ := C134_distance_accurate_partial hA loc.hist info.hist hh.left hh.right hh.short hh.size
  have hbig : ∀ {d v : ℚ}, 0 ≤ v → v^2 ≤ (101 / 100)^2 * d → d = 0 ∨ (2^60)⁻¹^2 ≤ d ∧ d ≤ (2^62)^2 → v ≤ 2^100 := by
    intro d v h0 h2 h
    have hd : d ≤ (2^62)^2 := by rcases h with h | h; rw [h]; positivity; exact h.2
    refine (abs_le_of_sq_le_sq' ?_ (by positivity)).2
    refine le_trans h2 (le_trans (mul_le_mul_of_nonneg_left hd (by positivity)) (by norm_num))
  have a5 := hbig a2 a4 ha.size
  have b5 := hbig b2 b4 hh.size
  obtain ⟨r1, r2⟩ := root_bounds a2 a3 a4
  obtain ⟨q1, q2⟩ := root_bounds b2 b3 b4
  unfold closeStats
  rw [hP]
  generalize Vec.vectorDistance (SF.ops acos) loc.avg info.avg = x at *
  generalize Vec.vectorDistance (SF.ops acos) loc.hist info.hist = y at *
  obtain ⟨s1, s2⟩ := SF.addD_acc acos x y a1 b1 (by
    rw [abs_of_nonneg (by linarith)]
    refine le_trans (add_le_add a5 b5) ?_
    rw [← two_mul, ← pow_succ']
    exact pow_le_pow_right₀ (by norm_num) (by norm_num))
  have hc : finite64 c001 := by unfold finite64 c001; decide
  have hc1 : |binary64 c001 - 1 / 100| ≤ 1 / 2^50 := by
    have : binary64 c001 = 5764607523034235 / 2^59 := by decide +kernel
    rw [this]; norm_num [abs_le]
  have hM0 : 0 ≤ binary64 loc.maxDistance := by
    rcases hm0 with h | h
    · rw [h]
    · exact le_trans (by positivity) h.1
  have hMle : binary64 loc.maxDistance ≤ 2^900 := by
    rcases hm0 with h | h
    · rw [h]; positivity
    · exact h.2
  have hcl := abs_le.1 hc1
  have hp50 : (1 : ℚ) / 2^50 ≤ 1 / 1000000 := by norm_num
  have hc0 : 0 ≤ binary64 c001 := by linarith
  have hc2 : binary64 c001 ≤ 1 := by linarith
  obtain ⟨m1, m2, m3⟩ := SF.mulD_acc acos c001 loc.maxDistance hc hm (by
    rw [abs_of_nonneg (mul_nonneg hc0 hM0)]
    refine le_trans (mul_le_mul hc2 hMle hM0 (by norm_num)) ?_
    rw [one_mul]
    exact pow_le_pow_right₀ (by norm_num) (by norm_num))
  rw [← Bool.not_eq_true, SF.le_acc _ _ s1 m1]
  generalize (SF.ops acos).addD x y = s at *
  generalize (SF.ops acos).mulD c001 loc.maxDistance = t at *
  -- the bound: one per cent up to a millionth
  have hm4 : |binary64 t - 1 / 100 * binary64 loc.maxDistance| ≤ 1 / 100000 * binary64 loc.maxDistance := by
    rcases hm0 with h | h
    · rw [m3 h, h]; simp
    · rw [abs_of_nonneg (mul_nonneg hc0 hM0)] at m2
      have e : (1 : ℚ) / 2^1075 ≤ 1 / 1000000 * (2^900)⁻¹ := by
        have e1 : (2 : ℚ)^1075 = 2^175 * 2^900 := by rw [← pow_add]
        rw [e1, one_div, mul_inv]
        exact mul_le_mul_of_nonneg_right (by norm_num) (by positivity)
      have e2 : (1 : ℚ) / 2^1075 ≤ 1 / 1000000 * binary64 loc.maxDistance := le_trans e (by linarith [h.1])
      have e3 : binary64 c001 * binary64 loc.maxDistance / 2^53 ≤ 1 / 1000000 * binary64 loc.maxDistance := by
        have : binary64 c001 * binary64 loc.maxDistance ≤ 1 * binary64 loc.maxDistance :=
          mul_le_mul_of_nonneg_right hc2 hM0
        have e4 : binary64 c001 * binary64 loc.maxDistance / 2^53 ≤ binary64 loc.maxDistance / 2^53 := by
          apply div_le_div_of_nonneg_right _ (by positivity); linarith
        refine le_trans e4 ?_
        rw [div_eq_mul_inv, mul_comm]
        exact mul_le_mul_of_nonneg_right (by norm_num) hM0
      have e5 : |binary64 c001 * binary64 loc.maxDistance - 1 / 100 * binary64 loc.maxDistance| ≤
          1 / 1000000 * binary64 loc.maxDistance := by
        rw [← sub_mul, abs_mul, abs_of_nonneg hM0]
        exact mul_le_mul_of_nonneg_right (le_trans hc1 hp50) hM0
      have t2 := abs_le.1 (le_trans m2 (add_le_add e3 e2))
      have t5 := abs_le.1 e5
      rw [abs_le]
      constructor <;> linarith [t2.1, t2.2, t5.1, t5.2]
  have hs4 : |binary64 s - (binary64 x + binary64 y)| ≤ 1 / 1000000 * (binary64 x + binary64 y) := by
    rw [abs_of_nonneg (by linarith : 0 ≤ binary64 x + binary64 y)] at s2
    refine le_trans s2 ?_
    rw [div_eq_mul_inv, mul_comm]
    exact mul_le_mul_of_nonneg_right (by norm_num) (by linarith)
  have u := abs_le.1 hm4
  have w := abs_le.1 hs4
  generalize binary64 loc.maxDistance = M at *
  generalize binary64 s = S at *
  generalize binary64 t = T at *
  generalize binary64 x = X at *
  generalize binary64 y = Y at *
  unfold gap
  generalize √(dist2 loc.avg info.avg : ℝ) = A at *
  generalize √(dist2 loc.hist info.hist : ℝ) = H at *
  have u1 : (T : ℝ) - 1 / 100 * M ≤ 1 / 100000 * M := by
    have := (Rat.cast_le (K := ℝ)).2 (u.2)
    push_cast at this; linarith
  have u2 : -(1 / 100000 * (M : ℝ)) ≤ (T : ℝ) - 1 / 100 * M := by
    have := (Rat.cast_le (K := ℝ)).2 (u.1)
    push_cast at this; linarith
  have w1 : (S : ℝ) - (X + Y) ≤ 1 / 1000000 * (X + Y) := by
    have := (Rat.cast_le (K := ℝ)).2 (w.2)
    push_cast at this; linarith
  have w2 : -(1 / 1000000 * ((X : ℝ) + Y)) ≤ (S : ℝ) - (X + Y) := by
    have := (Rat.cast_le (K := ℝ)).2 (w.1)
    push_cast at this; linarith
  have hM' : (0 : ℝ) ≤ M := by exact_mod_cast hM0
  constructor
  · intro h
    rw [← Rat.cast_le (K := ℝ)]
    linarith
  · intro h
    rw [← Rat.cast_le (K := ℝ), not_le]
    linarith

open Proc Ref in
/-- C107: statistics further apart than 1.02 per cent of the largest distance keep data flowing to the peer. -/
theorem C107_far_partial (acos : F64 → F64) (P : PEnv) (hP : P.o = SF.ops acos) (loc info : DataInfo)
    (ha : Usual loc.avg info.avg) (hh : Usual loc.hist info.hist) (hm : finite64 loc.maxDistance)
    (hm0 : binary64 loc.maxDistance = 0 ∨ (2^900)⁻¹ ≤ binary64 loc.maxDistance ∧ binary64 loc.maxDistance ≤ 2^900)
    (hfar : 102 / 10000 * (binary64 loc.maxDistance : ℝ) < gap loc info) : diffFor P loc info ≠ 0 :=
  C107_goes_on P loc info ((C107_close_partial acos P hP loc info ha hh hm hm0).2 hfar)

open Proc Ref in
/-- C107: of two data sets of the same size, at least a hundred, with statistics at most 0.98 per cent of the largest distance
apart, neither sends anything. -/
theorem C107_near_partial (acos : F64 → F64) (P : PEnv) (hP : P.o = SF.ops acos) (loc info : DataInfo)
    (ha : Usual loc.avg info.avg) (hh : Usual loc.hist info.hist) (hm : finite64 loc.maxDistance)
    (hm0 : binary64 loc.maxDistance = 0 ∨ (2^900)⁻¹ ≤ binary64 loc.maxDistance ∧ binary64 loc.maxDistance ≤ 2^900)
    (hn : 100 ≤ loc.n.toNat) (hn2 : loc.n.toNat + 1 < 2^53) (hi : info.n = loc.n)
    (hnear : gap loc info ≤ 98 / 10000 * (binary64 loc.maxDistance : ℝ)) : diffFor P loc info = 0 :=
  (C107_partial acos P hP loc info hn hn2 hi).2 ((C107_close_partial acos P hP loc info ha hh hm hm0).1 hnear)

/-- C107: a largest distance that is not a number is never close to anything. -/
theorem C107_nan_partial (acos : F64 → F64) (P : Proc.PEnv) (hP : P.o = SF.ops acos) (loc info : DataInfo)
    (h : F64.isNaN loc.maxDistance = true) : Proc.diffFor P loc info ≠ 0 := by
  apply C107_goes_on
  unfold Proc.closeStats F64.le
  have : F64.isNaN (P.o.mulD Proc.c001 loc.maxDistance) = true := by
    rw [hP]
    show F64.isNaN (SF.pk64 (SF.mulN SF.f64 (SF.un64 Proc.c001) (SF.un64 loc.maxDistance))) = true
    have h2 : (SF.un64 loc.maxDistance).isNaN SF.f64 = true := by
      unfold F64.isNaN at h
      unfold SF.Num.isNaN
      rw [SF.inf64]
      exact h
    unfold SF.mulN
    simp only [h2, Bool.or_true, if_true]
    decide
  simp [this]

namespace Proc
/-- The other side: the same average, but one unit away in the histogram. -/
def exFar : DataInfo := { Veri.exInfo 5000 with hist := [0] }
end Proc

open Proc Ref in
/-- Instances: the same statistics are close, statistics one unit apart are not. -/
example : closeStats softP (exInfo 5000) (exInfo 5000) = true ∧ closeStats softP (exInfo 5000) exFar = false ∧
    diffFor softP (exInfo 5000) exFar ≠ 0 := by
  have h1 : binary32 0x3F800000 = 1 := by decide +kernel
  have h0 : binary32 0 = 0 := by decide +kernel
  have hM : binary64 F64.one = 1 := (SF.accurate id).oneD.2
  have hf : ∀ x ∈ [(0x3F800000 : F32), 0], finite32 x := by intro x hx; simp at hx; rcases hx with rfl | rfl <;> (unfold finite32; decide)
  have ha : Usual (exInfo 5000).avg (exInfo 5000).avg :=
    ⟨hf, hf, by decide, Or.inl (by simp [exInfo, dist2])⟩
  have hb : Usual (exInfo 5000).hist (exInfo 5000).hist :=
    ⟨fun x hx => hf x (by simp [exInfo] at hx; simp [hx]), fun x hx => hf x (by simp [exInfo] at hx; simp [hx]), by decide,
      Or.inl (by simp [exInfo, dist2])⟩
  have hd : dist2 (exInfo 5000).hist exFar.hist = 1 := by simp [exInfo, exFar, dist2, h1, h0]
  have hc : Usual (exInfo 5000).hist exFar.hist :=
    ⟨fun x hx => hf x (by simp [exInfo] at hx; simp [hx]), fun x hx => hf x (by simp [exFar] at hx; simp [hx]), by decide,
      Or.inr (by rw [hd]; norm_num)⟩
  have hfin : finite64 (exInfo 5000).maxDistance := (SF.accurate id).oneD.1
  have hm : binary64 (exInfo 5000).maxDistance = 0 ∨
      (2^900)⁻¹ ≤ binary64 (exInfo 5000).maxDistance ∧ binary64 (exInfo 5000).maxDistance ≤ 2^900 := by
    refine Or.inr ⟨?_, ?_⟩
    · show _ ≤ binary64 F64.one
      rw [hM]; exact inv_le_one_of_one_le₀ (one_le_pow₀ (by norm_num))
    · show binary64 F64.one ≤ _
      rw [hM]; exact one_le_pow₀ (by norm_num)
  have hfar : 102 / 10000 * (binary64 (exInfo 5000).maxDistance : ℝ) < gap (exInfo 5000) exFar := by
    show 102 / 10000 * (binary64 F64.one : ℝ) < _
    unfold gap
    rw [hM, hd]
    have : (0 : ℝ) ≤ √(dist2 (exInfo 5000).avg exFar.avg : ℝ) := Real.sqrt_nonneg _
    norm_num
    linarith
  refine ⟨(C107_close_partial id softP rfl _ _ ha hb hfin hm).1 ?_, 
    (C107_close_partial id softP rfl (exInfo 5000) exFar ha hc hfin hm).2 hfar,
    C107_far_partial id softP rfl (exInfo 5000) exFar ha hc hfin hm hfar⟩
  show _ ≤ 98 / 10000 * (binary64 F64.one : ℝ)
  rw [hM]
  unfold gap
  have e1 : dist2 (exInfo 5000).avg (exInfo 5000).avg = 0 := by simp [exInfo, dist2]
  have e2 : dist2 (exInfo 5000).hist (exInfo 5000).hist = 0 := by simp [exInfo, dist2]
  rw [e1, e2]; norm_num

end Veri
