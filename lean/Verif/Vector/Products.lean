import Verif.Vector.Accuracy
/-
How accurate `QuickVectorDistance` (C136) and `VectorMultiplication` (C137) of data/util.go are.
-/
set_option autoImplicit false
namespace Veri
set_option exponentiation.threshold 4000

namespace Ref

/-- The sum of the distances of the components, as far as both vectors have components. -/
def dist1 : List F32 → List F32 → Rat
  | a :: as, b :: bs => |binary32 a - binary32 b| + dist1 as bs
  | _, _ => 0

/-- The inner product, as far as both vectors have components. -/
def dot : List F32 → List F32 → Rat
  | a :: as, b :: bs => binary32 a * binary32 b + dot as bs
  | _, _ => 0

/-- The sum of the magnitudes of its terms. -/
def absDot : List F32 → List F32 → Rat
  | a :: as, b :: bs => |binary32 a * binary32 b| + absDot as bs
  | _, _ => 0

end Ref

namespace Vec
open Ref

theorem dist1_nonneg : ∀ a b : List F32, 0 ≤ dist1 a b
  | [], _ => le_refl _
  | _ :: _, [] => le_refl _
  | a :: as, b :: bs => by
    have := dist1_nonneg as bs
    unfold dist1; positivity

theorem absDot_nonneg : ∀ a b : List F32, 0 ≤ absDot a b
  | [], _ => le_refl _
  | _ :: _, [] => le_refl _
  | a :: as, b :: bs => by
    have := absDot_nonneg as bs
    unfold absDot; positivity

theorem dot_le : ∀ a b : List F32, |dot a b| ≤ absDot a b
  | [], _ => by simp [dot, absDot]
  | _ :: _, [] => by simp [dot, absDot]
  | a :: as, b :: bs => by
    unfold dot absDot
    exact le_trans (abs_add_le _ _) (add_le_add_right (dot_le as bs) _)

/-! ### Inner product -/

theorem madd_step {r D A p r' u e : ℚ} {k : ℕ} (hu0 : 0 ≤ u) (hk : (3 * k + 4) * u ≤ 1) (he : 0 ≤ e) (hA : 0 ≤ A) (hD : |D| ≤ A)
    (hr : |r - D| ≤ (2 * k + 4) * u * A + 3 * k * e)
    (hr' : |r' - (r + p)| ≤ |r + p| * u + 2 * (|p| * u) + 2 * e) :
    |r' - (D + p)| ≤ (2 * ((k + 1 : ℕ) : ℚ) + 4) * u * (A + |p|) + 3 * ((k + 1 : ℕ) : ℚ) * e := by
  have hk0 : (0 : ℚ) ≤ k := by positivity
  have hp := abs_nonneg p
  have h1 : |r + p| ≤ A + |r - D| + |p| := by
    have : r + p = D + (r - D) + p := by ring
    rw [this]
    refine le_trans (abs_add_le _ _) (add_le_add_left ?_ _)
    exact le_trans (abs_add_le _ _) (add_le_add_left hD _)
  have h2 : |r' - (D + p)| ≤ |r' - (r + p)| + |r - D| := by
    have : r' - (D + p) = (r' - (r + p)) + (r - D) := by ring
    rw [this]
    exact abs_add_le _ _
  generalize |p| = P at *
  generalize |r - D| = B at *
  generalize |r + p| = C at *
  push_cast
  have h3 : C * u ≤ (A + B + P) * u := mul_le_mul_of_nonneg_right h1 hu0
  have h4 : B * u ≤ ((2 * k + 4) * u * A + 3 * k * e) * u := mul_le_mul_of_nonneg_right hr hu0
  have h6 : (2 * (k : ℚ) + 4) * u * (u * A) ≤ 1 * (u * A) :=
    mul_le_mul_of_nonneg_right (by nlinarith) (mul_nonneg hu0 hA)
  have h7 : (3 * (k : ℚ)) * u * e ≤ 1 * e := mul_le_mul_of_nonneg_right (by nlinarith) he
  have h8 : 0 ≤ (2 * (k : ℚ) + 3) * (u * P) := by positivity
  nlinarith

theorem mult_err {o : FOps F32 F64} (hA : Accurate o) : ∀ (a b : List F32) (r : F32) (k : ℕ) (D A : ℚ),
    (∀ x ∈ a, finite32 x) → (∀ x ∈ b, finite32 x) → finite32 r → 0 ≤ A → |D| ≤ A →
    k + min a.length b.length ≤ 2^20 → A + absDot a b ≤ 2^125 →
    |binary32 r - D| ≤ (2 * k + 4) * (1 / 2^24) * A + 3 * k * (1 / 2^149) →
    finite32 (multLoop o r a b) ∧
    |binary32 (multLoop o r a b) - (D + dot a b)| ≤
      (2 * ((k + min a.length b.length : ℕ) : ℚ) + 4) * (1 / 2^24) * (A + absDot a b) +
      3 * ((k + min a.length b.length : ℕ) : ℚ) * (1 / 2^149)
  | [], b, r, k, D, A, _, _, hr, _, _, _, _, he => by
    refine ⟨by simpa [multLoop] using hr, ?_⟩
    simpa [multLoop, dot, absDot] using he
  | a :: as, [], r, k, D, A, _, _, hr, _, _, _, _, he => by
    refine ⟨by simpa [multLoop] using hr, ?_⟩
    simpa [multLoop, dot, absDot] using he
  | a :: as, b :: bs, r, k, D, A, ha, hb, hr, hA0, hDA, hk, hbig, he => by
    have hd0 := absDot_nonneg as bs
    simp only [dot, absDot] at hbig ⊢
    simp only [List.length_cons] at hk ⊢
    have hmin : min (as.length + 1) (bs.length + 1) = min as.length bs.length + 1 := by omega
    rw [hmin] at hk ⊢
    have hkq : (k : ℚ) ≤ 1048576 := by exact_mod_cast (show k ≤ 1048576 by omega)
    have hk' : (3 * (k : ℚ) + 4) * (1 / 2^24) ≤ 1 := by
      rw [mul_one_div, div_le_one (by positivity)]
      norm_num
      linarith
    have hP := abs_nonneg (binary32 a * binary32 b)
    have hrle : |binary32 r| + |binary32 a * binary32 b| ≤ 2^126 := by
      have h1 : |binary32 r| ≤ |binary32 r - D| + |D| := by
        have : binary32 r = (binary32 r - D) + D := by ring
        calc |binary32 r| = |(binary32 r - D) + D| := by rw [← this]
          _ ≤ _ := abs_add_le _ _
      have h3 : (2 * (k : ℚ) + 4) * (1 / 2^24) * A ≤ 1 / 2 * A := mul_le_mul_of_nonneg_right (by
        rw [mul_one_div, div_le_iff₀ (by positivity)]; norm_num; linarith) hA0
      have h4 : 3 * (k : ℚ) * (1 / 2^149) ≤ 1 := by
        rw [mul_one_div, div_le_one (by positivity)]
        norm_num
        linarith
      have h7 : (3 : ℚ) / 2 * 2^125 + 1 ≤ 2^126 := by norm_num
      linarith
    obtain ⟨hmf, hme⟩ := hA.madd r a b hr (ha a List.mem_cons_self) (hb b List.mem_cons_self) hrle
    have hstep := madd_step (k := k) (u := 1 / 2^24) (e := 1 / 2^149) (by positivity) hk' (by positivity) hA0 hDA he (by
      rw [mul_one_div, mul_one_div, mul_one_div]; exact hme)
    generalize hx : binary32 a * binary32 b = p at *
    obtain ⟨g1, g3⟩ := mult_err hA as bs (o.madd r a b) (k + 1) (D + p) (A + |p|)
      (fun y hy => ha y (List.mem_cons_of_mem _ hy)) (fun y hy => hb y (List.mem_cons_of_mem _ hy)) hmf (by linarith)
      (le_trans (abs_add_le _ _) (by linarith)) (by omega) (by linarith) hstep
    rw [show k + 1 + min as.length bs.length = k + (min as.length bs.length + 1) by omega, add_assoc, add_assoc] at g3
    exact ⟨g1, g3⟩

/-! ### The sum of the differences -/

theorem quick_step {r T s x r' v u : ℚ} {k : ℕ} (hv0 : 0 ≤ v) (hu0 : 0 ≤ u) (hu1 : u ≤ 1) (hk : (2 * k + 1) * v ≤ 1) (hT : 0 ≤ T)
    (hx : 0 ≤ x) (hr : |r - T| ≤ (u + 4 * k * v) * T) (hs : |s - x| ≤ x * u) (hr' : |r' - (r + s)| ≤ |r + s| * v) :
    |r' - (T + x)| ≤ (u + 4 * ((k + 1 : ℕ) : ℚ) * v) * (T + x) := by
  have hk0 : (0 : ℚ) ≤ k := by positivity
  have h1 : |r + s| ≤ (T + x) + |r - T| + |s - x| := by
    have : r + s = (T + x) + (r - T) + (s - x) := by ring
    rw [this]
    refine le_trans (abs_add_le _ _) (add_le_add_left ?_ _)
    refine le_trans (abs_add_le _ _) ?_
    rw [abs_of_nonneg (show 0 ≤ T + x by linarith)]
  have h2 : |r' - (T + x)| ≤ |r' - (r + s)| + |r - T| + |s - x| := by
    have : r' - (T + x) = (r' - (r + s)) + (r - T) + (s - x) := by ring
    rw [this]
    exact le_trans (abs_add_le _ _) (add_le_add_left (abs_add_le _ _) _)
  generalize |r - T| = A at *
  generalize |s - x| = B at *
  generalize |r + s| = C at *
  push_cast
  have h3 : C * v ≤ ((T + x) + A + B) * v := mul_le_mul_of_nonneg_right h1 hv0
  have h4 : A * v ≤ ((u + 4 * k * v) * T) * v := mul_le_mul_of_nonneg_right hr hv0
  have h5 : B * v ≤ x * u * v := mul_le_mul_of_nonneg_right hs hv0
  have h6 : x * v * u ≤ x * v * 1 := mul_le_mul_of_nonneg_left hu1 (mul_nonneg hx hv0)
  have h7 : T * v * u ≤ T * v * 1 := mul_le_mul_of_nonneg_left hu1 (mul_nonneg hT hv0)
  have h8 : T * v * (2 * k * v) ≤ T * v * 1 := mul_le_mul_of_nonneg_left (by nlinarith) (mul_nonneg hT hv0)
  have h9 : 0 ≤ k * v * x := by positivity
  have h10 : 0 ≤ v * x := by positivity
  have h11 : 0 ≤ v * T := by positivity
  nlinarith

theorem quick_err {o : FOps F32 F64} (hA : Accurate o) : ∀ (a b : List F32) (r : F64) (k : ℕ) (T : ℚ),
    (∀ x ∈ a, finite32 x) → (∀ x ∈ b, finite32 x) → finite64 r → 0 ≤ T → T ≤ k * (3 * 2^126) →
    k + min a.length b.length ≤ 2^40 → (∀ p ∈ a.zip b, |binary32 p.1 - binary32 p.2| ≤ 3 * 2^126) →
    |binary64 r - T| ≤ (1 / 2^24 + 4 * k * (1 / 2^53)) * T →
    finite64 (quickLoop o r a b) ∧
    |binary64 (quickLoop o r a b) - (T + dist1 a b)| ≤
      (1 / 2^24 + 4 * ((k + min a.length b.length : ℕ) : ℚ) * (1 / 2^53)) * (T + dist1 a b)
  | [], b, r, k, T, _, _, hr, _, _, _, _, he => by
    refine ⟨by simpa [quickLoop] using hr, ?_⟩
    simpa [quickLoop, dist1] using he
  | a :: as, [], r, k, T, _, _, hr, _, _, _, _, he => by
    refine ⟨by simpa [quickLoop] using hr, ?_⟩
    simpa [quickLoop, dist1] using he
  | a :: as, b :: bs, r, k, T, ha, hb, hr, hT, hTk, hk, hbig, he => by
    simp only [dist1]
    simp only [List.length_cons] at hk ⊢
    have hmin : min (as.length + 1) (bs.length + 1) = min as.length bs.length + 1 := by omega
    rw [hmin] at hk ⊢
    have hx := hbig (a, b) (by simp)
    simp only at hx
    obtain ⟨hdf, hde⟩ := hA.sub a b (ha a List.mem_cons_self) (hb b List.mem_cons_self) hx
    obtain ⟨haf, hae⟩ := hA.abs _ hdf
    obtain ⟨hwf, hwe⟩ := hA.widen _ haf
    have hs : |binary64 (o.widen (o.abs (o.sub a b))) - (|binary32 a - binary32 b|)| ≤ (|binary32 a - binary32 b|) * (1 / 2^24) := by
      rw [hwe, hae, mul_one_div]
      exact le_trans (abs_abs_sub_abs_le_abs_sub _ _) hde
    have hx0 := abs_nonneg (binary32 a - binary32 b)
    generalize |binary32 a - binary32 b| = x at *
    have hun : quickLoop o r (a :: as) (b :: bs) = quickLoop o (o.addD r (o.widen (o.abs (o.sub a b)))) as bs := rfl
    rw [hun]
    generalize o.widen (o.abs (o.sub a b)) = s at *
    have hkq : (k : ℚ) ≤ 1099511627776 := by exact_mod_cast (show k ≤ 1099511627776 by omega)
    have hk0 : (0 : ℚ) ≤ k := by positivity
    have hk' : (2 * (k : ℚ) + 1) * (1 / 2^53) ≤ 1 := by
      rw [mul_one_div, div_le_one (by positivity)]
      norm_num
      linarith
    have hTb : T ≤ 2^170 := by
      refine le_trans hTk ?_
      have : (k : ℚ) * (3 * 2^126) ≤ 1099511627776 * (3 * 2^126) := mul_le_mul_of_nonneg_right hkq (by positivity)
      refine le_trans this (by norm_num)
    have hsum : |binary64 r + binary64 s| ≤ 2^1023 := by
      have h1 : |binary64 r + binary64 s| ≤ |binary64 r - T| + |binary64 s - x| + (T + x) := by
        have : binary64 r + binary64 s = (binary64 r - T) + (binary64 s - x) + (T + x) := by ring
        rw [this]
        refine le_trans (abs_add_le _ _) ?_
        rw [abs_of_nonneg (show 0 ≤ T + x by linarith)]
        exact add_le_add_left (abs_add_le _ _) _
      have h2 : (1 / 2^24 + 4 * (k : ℚ) * (1 / 2^53)) * T ≤ 1 * T := mul_le_mul_of_nonneg_right (by
        have : 4 * (k : ℚ) * (1 / 2^53) ≤ 1 / 2 := by
          rw [mul_one_div, div_le_iff₀ (by positivity)]; norm_num; linarith
        have : (1 : ℚ) / 2^24 ≤ 1 / 2 := by norm_num
        linarith) hT
      have h3 : x * (1 / 2^24) ≤ x * 1 := mul_le_mul_of_nonneg_left (by norm_num) hx0
      have h4 : (2 : ℚ) * 2^170 + 2 * (3 * 2^126) ≤ 2^1023 := by norm_num
      linarith
    obtain ⟨hrf, hre⟩ := hA.addD r s hr hwf hsum
    have hstep := quick_step (k := k) (v := 1 / 2^53) (u := 1 / 2^24) (by positivity) (by positivity) (by norm_num) hk' hT hx0 he hs
      (by rw [mul_one_div]; exact hre)
    obtain ⟨g1, g2⟩ := quick_err hA as bs (o.addD r s) (k + 1) (T + x)
      (fun y hy => ha y (List.mem_cons_of_mem _ hy)) (fun y hy => hb y (List.mem_cons_of_mem _ hy)) hrf (by linarith)
      (by push_cast; linarith) (by omega) (fun p hp => hbig p (by rw [List.zip_cons_cons]; exact List.mem_cons_of_mem _ hp)) hstep
    rw [show k + 1 + min as.length bs.length = k + (min as.length bs.length + 1) by omega, add_assoc] at g2
    exact ⟨g1, g2⟩

end Vec

open Vec Ref

/-- C136, full statement: `QuickVectorDistance` of two vectors of finite numbers is the sum of the differences of their common
components, to one part in a million.  FALSE of the code. -/
def C136_quick_accurate_statement : Prop :=
  ∀ o : FOps F32 F64, Accurate o → ∀ a b : List F32, (∀ x ∈ a, finite32 x) → (∀ x ∈ b, finite32 x) →
    min a.length b.length ≤ 2^30 →
    finite64 (quickVectorDistance o a b) ∧
    |binary64 (quickVectorDistance o a b) - dist1 a b| ≤ dist1 a b / 1000000

/-- C136, partial: it is if no two components are farther apart than `3 * 2^126`. -/
theorem C136_quick_accurate_partial {o : FOps F32 F64} (hA : Accurate o) (a b : List F32)
    (ha : ∀ x ∈ a, finite32 x) (hb : ∀ x ∈ b, finite32 x) (hn : min a.length b.length ≤ 2^30)
    (hd : ∀ p ∈ a.zip b, |binary32 p.1 - binary32 p.2| ≤ 3 * 2^126) :
    finite64 (quickVectorDistance o a b) ∧
    |binary64 (quickVectorDistance o a b) - dist1 a b| ≤ dist1 a b / 1000000 := by
  obtain ⟨z1, z2⟩ := hA.zeroD
  obtain ⟨g1, g2⟩ := quick_err hA a b o.zeroD 0 0 ha hb z1 (le_refl _) (by simp) (by omega) hd (by rw [z2]; simp)
  rw [zero_add, Nat.zero_add] at g2
  refine ⟨g1, le_trans g2 ?_⟩
  have hd0 := dist1_nonneg a b
  have hn' : ((min a.length b.length : ℕ) : ℚ) ≤ 1073741824 := by exact_mod_cast (show min a.length b.length ≤ 1073741824 by omega)
  generalize ((min a.length b.length : ℕ) : ℚ) = n at *
  have h1 : 4 * n * (1 / (2 : ℚ)^53) ≤ 1 / 2000000 := by
    rw [mul_one_div, div_le_iff₀ (by positivity)]; norm_num; linarith
  have h2 : (1 : ℚ) / 2^24 ≤ 1 / 2000000 := by norm_num
  have := mul_le_mul_of_nonneg_right (show (1 / (2 : ℚ)^24 + 4 * n * (1 / 2^53)) ≤ 1 / 1000000 by linarith) hd0
  linarith

/-- C136, counterexample: the difference of the largest number and the smallest is infinite. -/
theorem C136_quick_accurate_fails : ¬ C136_quick_accurate_statement := by
  intro h
  have := (h (SF.ops id) (SF.accurate id) [0x7F7FFFFF] [0xFF7FFFFF] (by unfold finite32; decide) (by unfold finite32; decide)
    (by decide)).1
  have e : quickVectorDistance (SF.ops id) [0x7F7FFFFF] [0xFF7FFFFF] = 0x7FF0000000000000 := by decide +kernel
  rw [e] at this
  unfold finite64 at this
  revert this
  decide

/-- C136: (1, 2^-140) and (-2, 0) meet the hypotheses; the tiny component counts. -/
theorem C136_example :
    (∀ p ∈ [(0x3F800000 : F32), 0x00000200].zip [0xC0000000, 0], |binary32 p.1 - binary32 p.2| ≤ 3 * 2^126) ∧
    dist1 [0x3F800000, 0x00000200] [0xC0000000, 0] = 3 + (2^140)⁻¹ ∧
    quickVectorDistance (SF.ops id) [0x00000200] [0] = 0x3730000000000000 ∧ binary64 0x3730000000000000 = (2^140)⁻¹ := by
  have h1 : binary32 0x3F800000 = 1 := by decide +kernel
  have h2 : binary32 0x00000200 = (2^140)⁻¹ := by decide +kernel
  have h3 : binary32 0xC0000000 = -2 := by decide +kernel
  have h0 : binary32 0 = 0 := by decide +kernel
  refine ⟨?_, ?_, by decide +kernel, by decide +kernel⟩
  · intro p hp
    simp only [List.zip_cons_cons, List.zip_nil_right, List.mem_cons, List.not_mem_nil, or_false] at hp
    rcases hp with rfl | rfl
    · simp only [h1, h3]; norm_num
    · simp only [h2, h0]
      rw [sub_zero, abs_of_pos (by positivity)]
      norm_num
  · simp only [dist1, h0, h1, h2, h3]
    rw [sub_zero, abs_of_pos (show (0 : ℚ) < (2^140)⁻¹ by positivity)]
    norm_num

/-- C137, full statement: `VectorMultiplication` of two vectors of finite numbers is the inner product of their common
components, within one per cent.  FALSE of the code. -/
def C137_product_accurate_statement : Prop :=
  ∀ o : FOps F32 F64, Accurate o → ∀ a b : List F32, (∀ x ∈ a, finite32 x) → (∀ x ∈ b, finite32 x) →
    min a.length b.length ≤ 2^16 →
    finite64 (vectorMultiplication o a b) ∧
    |binary64 (vectorMultiplication o a b) - dot a b| ≤ |dot a b| / 100

/-- C137, the error of the inner product: a share of `(2n + 4) / 2^24` of the magnitudes of its terms, and `3n / 2^149`. -/
theorem C137_product_error_partial {o : FOps F32 F64} (hA : Accurate o) (a b : List F32)
    (ha : ∀ x ∈ a, finite32 x) (hb : ∀ x ∈ b, finite32 x) (hn : min a.length b.length ≤ 2^20) (hbig : absDot a b ≤ 2^125) :
    finite64 (vectorMultiplication o a b) ∧
    |binary64 (vectorMultiplication o a b) - dot a b| ≤
      (2 * (min a.length b.length : ℕ) + 4) / 2^24 * absDot a b + 3 * (min a.length b.length : ℕ) / 2^149 := by
  obtain ⟨z1, z2⟩ := hA.zero
  obtain ⟨g1, g2⟩ := mult_err hA a b o.zero 0 0 0 ha hb z1 (le_refl _) (by simp) (by omega) (by linarith) (by rw [z2]; simp)
  rw [zero_add, Nat.zero_add, zero_add, mul_one_div, mul_one_div] at g2
  obtain ⟨w1, w2⟩ := hA.widen _ g1
  refine ⟨w1, ?_⟩
  unfold vectorMultiplication
  rw [w2]
  exact g2

namespace Vec

theorem absDot_eq : ∀ a b : List F32, (∀ p ∈ a.zip b, 0 ≤ binary32 p.1 * binary32 p.2) → absDot a b = dot a b
  | [], _, _ => by simp [dot, absDot]
  | _ :: _, [], _ => by simp [dot, absDot]
  | a :: as, b :: bs, h => by
    unfold dot absDot
    rw [absDot_eq as bs (fun p hp => h p (by rw [List.zip_cons_cons]; exact List.mem_cons_of_mem _ hp)),
      abs_of_nonneg (h (a, b) (by simp))]

end Vec

/-- C137, partial: it is within one per cent if no term is negative and the true product is between 2^-120 and 2^124. -/
theorem C137_product_accurate_partial {o : FOps F32 F64} (hA : Accurate o) (a b : List F32)
    (ha : ∀ x ∈ a, finite32 x) (hb : ∀ x ∈ b, finite32 x) (hn : min a.length b.length ≤ 2^16)
    (hpos : ∀ p ∈ a.zip b, 0 ≤ binary32 p.1 * binary32 p.2) (hlo : (2^120)⁻¹ ≤ dot a b) (hhi : dot a b ≤ 2^124) :
    finite64 (vectorMultiplication o a b) ∧
    |binary64 (vectorMultiplication o a b) - dot a b| ≤ |dot a b| / 100 := by
  have e := absDot_eq a b hpos
  obtain ⟨h1, h2⟩ := C137_product_error_partial hA a b ha hb (by omega) (by rw [e]; exact le_trans hhi (by norm_num))
  refine ⟨h1, le_trans h2 ?_⟩
  rw [e]
  have hn' : ((min a.length b.length : ℕ) : ℚ) ≤ 65536 := by exact_mod_cast (show min a.length b.length ≤ 65536 by omega)
  generalize ((min a.length b.length : ℕ) : ℚ) = n at *
  generalize dot a b = T at *
  have hT : 0 ≤ T := le_trans (by positivity) hlo
  rw [abs_of_nonneg hT]
  have h4 : (2 * n + 4) / 2^24 * T ≤ 9 / 1000 * T := by
    refine mul_le_mul_of_nonneg_right ?_ hT
    rw [div_le_iff₀ (by positivity)]; norm_num; linarith
  have h5 : 3 * n / (2 : ℚ)^149 ≤ 1 / 1000 * T := by
    have e : (1 : ℚ) / 1000 * (2^120)⁻¹ ≤ 1 / 1000 * T := by linarith
    refine le_trans ?_ e
    rw [div_le_iff₀ (by positivity)]
    norm_num; linarith
  linarith

/-- C137, counterexample: the product of (4096, 1, 4096) and (4096, 1, -4096) is 1, the answer 0. -/
theorem C137_product_accurate_fails : ¬ C137_product_accurate_statement := by
  intro h
  have h1 : binary32 0x3F800000 = 1 := by decide +kernel
  have h2 : binary32 0x45800000 = 4096 := by decide +kernel
  have h3 : binary32 0xC5800000 = -4096 := by decide +kernel
  have := (h (SF.ops id) (SF.accurate id) [0x45800000, 0x3F800000, 0x45800000] [0x45800000, 0x3F800000, 0xC5800000]
    (by unfold finite32; decide) (by unfold finite32; decide) (by decide)).2
  have e : vectorMultiplication (SF.ops id) [0x45800000, 0x3F800000, 0x45800000] [0x45800000, 0x3F800000, 0xC5800000] = 0 := by
    decide +kernel
  rw [e, show binary64 0 = 0 by decide +kernel] at this
  simp only [dot, h1, h2, h3] at this
  norm_num at this

/-- C137: (3, 4) and (2, 1) meet the hypotheses. -/
theorem C137_example :
    (∀ p ∈ [(0x40400000 : F32), 0x40800000].zip [0x40000000, 0x3F800000], 0 ≤ binary32 p.1 * binary32 p.2) ∧
    dot [0x40400000, 0x40800000] [0x40000000, 0x3F800000] = 10 ∧
    binary64 (vectorMultiplication (SF.ops id) [0x40400000, 0x40800000] [0x40000000, 0x3F800000]) = 10 := by
  have h1 : binary32 0x3F800000 = 1 := by decide +kernel
  have h2 : binary32 0x40000000 = 2 := by decide +kernel
  have h3 : binary32 0x40400000 = 3 := by decide +kernel
  have h4 : binary32 0x40800000 = 4 := by decide +kernel
  refine ⟨?_, ?_, by decide +kernel⟩
  · intro p hp
    simp only [List.zip_cons_cons, List.zip_nil_right, List.mem_cons, List.not_mem_nil, or_false] at hp
    rcases hp with rfl | rfl
    · simp only [h2, h3]; norm_num
    · simp only [h1, h4]; norm_num
  · simp only [dot, h1, h2, h3, h4]
    norm_num

end Veri
