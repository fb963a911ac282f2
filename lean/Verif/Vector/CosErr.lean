import Verif.Vector.Products
import Mathlib.Analysis.Real.Sqrt
/-
How accurate `CosineSimilarity` of data/util.go is (C138).
-/
set_option autoImplicit false
namespace Veri
set_option exponentiation.threshold 4000

namespace Ref

/-- The sum of the squares of the components. -/
def norm2 (a : List F32) : Rat := dot a a

/-- The cosine of the angle of two vectors, the shorter one padded with zeros; 0 if one of them is zero. -/
noncomputable def cosine (a b : List F32) : ℝ := (dot a b : ℝ) / √((norm2 a : ℝ) * (norm2 b : ℝ))

end Ref

namespace Vec
open Ref

/-- The three sums of the loop do not depend on each other. -/
theorem cosLoop_eq {S D : Type} (o : FOps S D) : ∀ (a b : List S) (c : CosAcc S),
    cosLoop o c a b = ⟨multLoop o c.sumA a b, multLoop o c.s1 a a, multLoop o c.s2 b b⟩
  | [], [], c => by simp [cosLoop_nil, multLoop]
  | [], b :: bs, c => by
    rw [cosLoop_right, cosLoop_eq o [] bs]
    simp [multLoop]
  | a :: as, [], c => by
    rw [cosLoop_left, cosLoop_eq o as []]
    simp [multLoop]
  | a :: as, b :: bs, c => by
    rw [cosLoop_both, cosLoop_eq o as bs]
    simp [multLoop]

/-- The last lines of `CosineSimilarity`. -/
def clamp {S D : Type} (o : FOps S D) (v : D) : D := if o.ltD o.oneD v then o.oneD else if o.ltD v o.negOneD then o.negOneD else v

theorem cosine_eq {S D : Type} (o : FOps S D) (a b : List S) : cosineSimilarity o a b =
    if o.isZero (multLoop o o.zero a a) || o.isZero (multLoop o o.zero b b) then o.zeroD
    else clamp o (o.widen (o.div (multLoop o o.zero a b) (o.mul (o.sqrt (multLoop o o.zero a a)) (o.sqrt (multLoop o o.zero b b))))) := by
  unfold cosineSimilarity
  rw [cosLoop_eq]
  rfl

theorem norm2_nonneg : ∀ a : List F32, 0 ≤ norm2 a
  | [] => le_refl _
  | a :: as => by
    have := norm2_nonneg as
    unfold norm2 at *
    unfold dot
    have := mul_self_nonneg (binary32 a)
    linarith

theorem absDot_self : ∀ a : List F32, absDot a a = norm2 a
  | [] => rfl
  | a :: as => by
    have := absDot_self as
    unfold norm2 at *
    unfold absDot dot
    rw [this, abs_of_nonneg (mul_self_nonneg _)]

theorem norm2_zero : ∀ a : List F32, norm2 a = 0 → ∀ x ∈ a, binary32 x = 0
  | [], _, x, hx => by simp at hx
  | a :: as, h, x, hx => by
    have h0 := norm2_nonneg as
    have h1 := mul_self_nonneg (binary32 a)
    unfold norm2 at *
    unfold dot at h
    rcases List.mem_cons.1 hx with rfl | hx
    · exact mul_self_eq_zero.1 (by linarith)
    · exact norm2_zero as (by unfold norm2; linarith) x hx

/-- Cauchy and Schwarz. -/
theorem cauchy : ∀ a b : List F32, absDot a b ^ 2 ≤ norm2 a * norm2 b
  | [], b => by simp [absDot, norm2, dot]
  | a :: as, [] => by simp [absDot, norm2, dot]
  | a :: as, b :: bs => by
    have ih := cauchy as bs
    have hX := absDot_nonneg as bs
    have hA := norm2_nonneg as
    have hB := norm2_nonneg bs
    have e1 : norm2 (a :: as) = binary32 a ^ 2 + norm2 as := by unfold norm2; rw [dot]; ring
    have e2 : norm2 (b :: bs) = binary32 b ^ 2 + norm2 bs := by unfold norm2; rw [dot]; ring
    rw [e1, e2, absDot, abs_mul]
    have ha := abs_nonneg (binary32 a)
    have hb := abs_nonneg (binary32 b)
    rw [← sq_abs (binary32 a), ← sq_abs (binary32 b)]
    generalize |binary32 a| = x at *
    generalize |binary32 b| = y at *
    generalize absDot as bs = X at *
    generalize norm2 as = A at *
    generalize norm2 bs = B at *
    have key : 2 * (x * y * X) ≤ x^2 * B + y^2 * A := by
      refine abs_le_of_sq_le_sq' ?_ (by positivity) |>.2
      have h1 : (x * y)^2 * X^2 ≤ (x * y)^2 * (A * B) := mul_le_mul_of_nonneg_left ih (by positivity)
      nlinarith [sq_nonneg (x^2 * B - y^2 * A)]
    nlinarith

/-- The product of the two roots. -/
theorem roots_err {N1 N2 S s1 s2 q1 q2 m : ℝ} (hN1 : 0 < N1) (hN2 : 0 < N2) (hS : 0 ≤ S) (hSS : S^2 = N1 * N2)
    (h1 : |s1 - N1| ≤ 41 / 10000 * N1) (h2 : |s2 - N2| ≤ 41 / 10000 * N2) (hq1 : 0 ≤ q1) (hq2 : 0 ≤ q2)
    (a1 : (1 - 1 / 2^24)^2 * s1 ≤ q1^2) (b1 : q1^2 ≤ (1 + 1 / 2^24)^2 * s1)
    (a2 : (1 - 1 / 2^24)^2 * s2 ≤ q2^2) (b2 : q2^2 ≤ (1 + 1 / 2^24)^2 * s2)
    (hm : |m - q1 * q2| ≤ q1 * q2 / 2^24 + S / 1000000) : |m - S| ≤ 45 / 10000 * S ∧ q1 * q2 ≤ 2 * S := by
  have lo : ∀ {N s q : ℝ}, 0 < N → |s - N| ≤ 41 / 10000 * N → (1 - 1 / 2^24)^2 * s ≤ q^2 → 9958 / 10000 * N ≤ q^2 := by
    intro N s q hN h a
    have := (abs_le.1 h).1
    have e : (999999 / 1000000 : ℝ) ≤ (1 - 1 / 2^24)^2 := by norm_num
    have := mul_le_mul_of_nonneg_right e (show 0 ≤ s by linarith)
    linarith
  have hi : ∀ {N s q : ℝ}, 0 < N → |s - N| ≤ 41 / 10000 * N → q^2 ≤ (1 + 1 / 2^24)^2 * s → q^2 ≤ 10042 / 10000 * N := by
    intro N s q hN h b
    have h1 := (abs_le.1 h).1
    have := (abs_le.1 h).2
    have e : (1 + 1 / 2^24 : ℝ)^2 ≤ 1000001 / 1000000 := by norm_num
    have := mul_le_mul_of_nonneg_right e (show 0 ≤ s by linarith)
    linarith
  have l1 := lo hN1 h1 a1
  have l2 := lo hN2 h2 a2
  have u1 := hi hN1 h1 b1
  have u2 := hi hN2 h2 b2
  have hp : 0 ≤ q1 * q2 := mul_nonneg hq1 hq2
  have hlow : 9958 / 10000 * S ≤ q1 * q2 := by
    refine abs_le_of_sq_le_sq' ?_ hp |>.2
    rw [mul_pow, hSS, mul_pow]
    have := mul_le_mul l1 l2 (by positivity) (by positivity)
    linarith
  have hhigh : q1 * q2 ≤ 10042 / 10000 * S := by
    refine abs_le_of_sq_le_sq' ?_ (by positivity) |>.2
    rw [mul_pow, mul_pow, hSS]
    have := mul_le_mul u1 u2 (by positivity) (by positivity)
    linarith
  obtain ⟨m1, m2⟩ := abs_le.1 hm
  have h24 : q1 * q2 / 2^24 ≤ q1 * q2 / 1000000 := by
    apply div_le_div_of_nonneg_left hp (by norm_num) (by norm_num)
  refine ⟨abs_le.2 ⟨by linarith, by linarith⟩, by linarith⟩

/-- The quotient at the end. -/
theorem quot_err {S D x m v : ℝ} (hS : 0 < S) (hD : |D| ≤ S) (hx : |x - D| ≤ 45 / 10000 * S) (hm : |m - S| ≤ 45 / 10000 * S) :
    0 < m ∧ |x / m| ≤ 2 ∧ (|v - x / m| ≤ |x / m| / 2^24 + 1 / 2^149 → |v - D / S| ≤ 1 / 100) := by
  obtain ⟨m1, m2⟩ := abs_le.1 hm
  have hm0 : 0 < m := by linarith
  have hxS : |x| ≤ 10045 / 10000 * S := by
    have : x = (x - D) + D := by ring
    calc |x| = |(x - D) + D| := by rw [← this]
      _ ≤ |x - D| + |D| := abs_add_le _ _
      _ ≤ _ := by linarith
  have hq : |x / m| ≤ 2 := by
    rw [abs_div, abs_of_pos hm0, div_le_iff₀ hm0]; linarith
  refine ⟨hm0, hq, ?_⟩
  intro hv
  have hd : |x / m - D / S| ≤ 91 / 10000 := by
    rw [div_sub_div _ _ hm0.ne' hS.ne', abs_div, abs_of_pos (mul_pos hm0 hS), div_le_iff₀ (mul_pos hm0 hS)]
    have e : x * S - m * D = (x - D) * S - D * (m - S) := by ring
    rw [e]
    refine le_trans (abs_sub _ _) ?_
    rw [abs_mul, abs_mul, abs_of_pos hS]
    have h1 := mul_le_mul_of_nonneg_right hx hS.le
    have h2 := mul_le_mul hD hm (abs_nonneg _) hS.le
    have h3 : (9955 / 10000 * S) * S ≤ m * S := mul_le_mul_of_nonneg_right (by linarith) hS.le
    nlinarith
  have e : v - D / S = (v - x / m) + (x / m - D / S) := by ring
  rw [e]
  refine le_trans (abs_add_le _ _) ?_
  have h1 : |x / m| / 2^24 ≤ 2 / 2^24 := div_le_div_of_nonneg_right hq (by positivity)
  have h2 : (2 : ℝ) / 2^24 + 1 / 2^149 ≤ 9 / 10000 := by norm_num
  linarith

/-- Bringing a number into [-1, 1] does not take it away from a number there. -/
theorem clamp_err {v t : ℝ} (ht : |t| ≤ 1) (h : |v - t| ≤ 1 / 100) :
    (1 < v → |1 - t| ≤ 1 / 100) ∧ (v < -1 → |-1 - t| ≤ 1 / 100) := by
  obtain ⟨t1, t2⟩ := abs_le.1 ht
  obtain ⟨h1, h2⟩ := abs_le.1 h
  exact ⟨fun hv => abs_le.2 ⟨by linarith, by linarith⟩, fun hv => abs_le.2 ⟨by linarith, by linarith⟩⟩

/-- The sum of the squares of a vector that is neither too long nor too short. -/
theorem norm_err {o : FOps F32 F64} (hA : Accurate o) (a : List F32) (ha : ∀ x ∈ a, finite32 x) (hn : a.length ≤ 2^15)
    (hlo : (2^60)⁻¹^2 ≤ norm2 a) (hhi : norm2 a ≤ (2^60)^2) :
    finite32 (multLoop o o.zero a a) ∧ |binary32 (multLoop o o.zero a a) - norm2 a| ≤ 41 / 10000 * norm2 a := by
  obtain ⟨z1, z2⟩ := hA.zero
  obtain ⟨g1, g2⟩ := mult_err hA a a o.zero 0 0 0 ha ha z1 (le_refl _) (by simp) (by omega)
    (by rw [absDot_self, zero_add]; exact le_trans hhi (by norm_num)) (by rw [z2]; simp)
  rw [zero_add, Nat.zero_add, zero_add, absDot_self, Nat.min_self] at g2
  refine ⟨g1, le_trans g2 ?_⟩
  have hn' : (a.length : ℚ) ≤ 32768 := by exact_mod_cast (show a.length ≤ 32768 by omega)
  have h0 := norm2_nonneg a
  generalize (a.length : ℚ) = n at *
  have h4 : (2 * n + 4) * (1 / 2^24) * norm2 a ≤ 3907 / 1000000 * norm2 a := by
    refine mul_le_mul_of_nonneg_right ?_ h0
    rw [mul_one_div, div_le_iff₀ (by positivity)]; norm_num; linarith
  have h5 : 3 * n * (1 / (2 : ℚ)^149) ≤ 185 / 1000000 * norm2 a := by
    have e : (185 : ℚ) / 1000000 * (2^60)⁻¹^2 ≤ 185 / 1000000 * norm2 a := by linarith
    refine le_trans ?_ e
    rw [mul_one_div, div_le_iff₀ (by positivity)]
    norm_num; linarith
  linarith

theorem norm_zero {o : FOps F32 F64} (hA : Accurate o) : ∀ (a : List F32) (r : F32), (∀ x ∈ a, finite32 x) →
    (∀ x ∈ a, binary32 x = 0) → finite32 r → binary32 r = 0 → finite32 (multLoop o r a a) ∧ binary32 (multLoop o r a a) = 0
  | [], r, _, _, hr, h0 => by simpa [multLoop] using ⟨hr, h0⟩
  | a :: as, r, ha, hz, hr, h0 => by
    have hf := ha a List.mem_cons_self
    obtain ⟨g1, g2⟩ := hA.madd0 r a a hr hf hf h0 (hz a List.mem_cons_self)
    exact norm_zero hA as _ (fun y hy => ha y (List.mem_cons_of_mem _ hy)) (fun y hy => hz y (List.mem_cons_of_mem _ hy)) g1 g2

theorem cosine_le (a b : List F32) : |cosine a b| ≤ 1 := by
  unfold cosine
  rw [abs_div, abs_of_nonneg (Real.sqrt_nonneg _)]
  refine div_le_one_of_le₀ ?_ (Real.sqrt_nonneg _)
  refine Real.le_sqrt_of_sq_le ?_
  rw [sq_abs]
  have h1 := cauchy a b
  have h2 : dot a b ^ 2 ≤ norm2 a * norm2 b := by
    refine le_trans ?_ h1
    rw [← sq_abs]
    exact pow_le_pow_left₀ (abs_nonneg _) (dot_le a b) 2
  exact_mod_cast h2

end Vec

open Vec Ref

/-- C138, full statement: the cosine similarity of two vectors of finite numbers with up to 2^15 components is within 1/100 of the
true one.  FALSE of the code. -/
def C138_cosine_accurate_statement : Prop :=
  ∀ o : FOps F32 F64, Accurate o → ∀ a b : List F32, (∀ x ∈ a, finite32 x) → (∀ x ∈ b, finite32 x) →
    a.length ≤ 2^15 → b.length ≤ 2^15 →
    finite64 (cosineSimilarity o a b) ∧ |(binary64 (cosineSimilarity o a b) : ℝ) - cosine a b| ≤ 1 / 100

namespace Ref

/-- Zero, or of a length between 2^-60 and 2^60. -/
def Moderate (a : List F32) : Prop := norm2 a = 0 ∨ (2^60)⁻¹^2 ≤ norm2 a ∧ norm2 a ≤ (2^60)^2

end Ref

/-- C138, partial: it is if each vector is zero or has a length between 2^-60 and 2^60. -/
theorem C138_cosine_accurate_partial {o : FOps F32 F64} (hA : Accurate o) (a b : List F32)
    (ha : ∀ x ∈ a, finite32 x) (hb : ∀ x ∈ b, finite32 x) (hna : a.length ≤ 2^15) (hnb : b.length ≤ 2^15)
    (hma : Moderate a) (hmb : Moderate b) :
    finite64 (cosineSimilarity o a b) ∧ |(binary64 (cosineSimilarity o a b) : ℝ) - cosine a b| ≤ 1 / 100 := by
  obtain ⟨z1, z2⟩ := hA.zero
  obtain ⟨d1, d2⟩ := hA.zeroD
  unfold cosineSimilarity
  simp only [cosLoop_eq]
  rcases hma with h0 | ⟨hloa, hhia⟩
  · obtain ⟨g1, g2⟩ := norm_zero hA a o.zero ha (norm2_zero a h0) z1 z2
    rw [if_pos (by rw [(hA.isZero _ g1).2 g2]; simp)]
    refine ⟨d1, ?_⟩
    unfold cosine
    rw [d2, h0]; norm_num
  rcases hmb with h0 | ⟨hlob, hhib⟩
  · obtain ⟨g1, g2⟩ := norm_zero hA b o.zero hb (norm2_zero b h0) z1 z2
    rw [if_pos (by rw [(hA.isZero _ g1).2 g2]; simp)]
    refine ⟨d1, ?_⟩
    unfold cosine
    rw [d2, h0]; norm_num
  obtain ⟨f1, e1⟩ := norm_err hA a ha hna hloa hhia
  obtain ⟨f2, e2⟩ := norm_err hA b hb hnb hlob hhib
  have hpos : ∀ {N s : ℚ}, (2^60)⁻¹^2 ≤ N → N ≤ (2^60)^2 → |s - N| ≤ 41 / 10000 * N → 0 < N ∧ 0 < s ∧ s ≤ 2^121 := by
    intro N s h1 h2 h3
    have hN : 0 < N := lt_of_lt_of_le (by positivity) h1
    obtain ⟨h4, h5⟩ := abs_le.1 h3
    have h6 : (2 : ℚ) * (2^60)^2 = 2^121 := by norm_num
    exact ⟨hN, by linarith, by linarith⟩
  obtain ⟨p1, p2, p3⟩ := hpos hloa hhia e1
  obtain ⟨r1, r2, r3⟩ := hpos hlob hhib e2
  rw [if_neg (by
    rw [Bool.or_eq_true, hA.isZero _ f1, hA.isZero _ f2]
    intro h
    rcases h with h | h
    · exact p2.ne' h
    · exact r2.ne' h)]
  -- the inner product
  have hcs := cauchy a b
  have hAD : absDot a b ≤ (2^60)^2 := by
    refine abs_le_of_sq_le_sq' (le_trans hcs ?_) (by positivity) |>.2
    rw [pow_two (((2 : ℚ)^60)^2)]
    exact mul_le_mul hhia hhib r1.le (by positivity)
  obtain ⟨fx, ex⟩ := mult_err hA a b o.zero 0 0 0 ha hb z1 (le_refl _) (by simp) (by omega)
    (by rw [zero_add]; exact le_trans hAD (by norm_num)) (by rw [z2]; simp)
  rw [zero_add, Nat.zero_add, zero_add] at ex
  -- the roots
  obtain ⟨fq1, q10, q1a, q1b⟩ := hA.sqrt _ f1 p2.le
  obtain ⟨fq2, q20, q2a, q2b⟩ := hA.sqrt _ f2 r2.le
  have hqb : ∀ {q s : ℚ}, 0 ≤ q → s ≤ 2^121 → q^2 ≤ (1 + 1 / 2^24)^2 * s → q ≤ 2^61 := by
    intro q s h0 h1 h2
    refine abs_le_of_sq_le_sq' (le_trans h2 ?_) (by positivity) |>.2
    have : (1 + 1 / (2 : ℚ)^24)^2 * s ≤ (1 + 1 / 2^24)^2 * 2^121 := mul_le_mul_of_nonneg_left h1 (by positivity)
    refine le_trans this (by norm_num)
  have hq1b := hqb q10 p3 q1b
  have hq2b := hqb q20 r3 q2b
  have hqq0 : 0 ≤ binary32 (o.sqrt (multLoop o o.zero a a)) * binary32 (o.sqrt (multLoop o o.zero b b)) := mul_nonneg q10 q20
  obtain ⟨fm, em⟩ := hA.mul _ _ fq1 fq2 (by
    rw [abs_of_nonneg hqq0]
    refine le_trans (mul_le_mul hq1b hq2b q20 (by positivity)) (by norm_num))
  rw [abs_of_nonneg hqq0] at em
  set S : ℝ := √((norm2 a : ℝ) * (norm2 b : ℝ)) with hSdef
  have p1' : (0 : ℝ) < (norm2 a : ℝ) := by exact_mod_cast p1
  have r1' : (0 : ℝ) < (norm2 b : ℝ) := by exact_mod_cast r1
  have hS : 0 < S := Real.sqrt_pos.2 (mul_pos p1' r1')
  have hSS : S^2 = (norm2 a : ℝ) * (norm2 b : ℝ) := Real.sq_sqrt (mul_pos p1' r1').le
  have hSlo : ((2 : ℝ)^60)⁻¹^2 ≤ S := by
    refine Real.le_sqrt_of_sq_le ?_
    rw [pow_two (((2 : ℝ)^60)⁻¹^2)]
    have h1 : ((2 : ℝ)^60)⁻¹^2 ≤ (norm2 a : ℝ) := by
      have := (Rat.cast_le (K := ℝ)).2 hloa; push_cast at this ⊢; exact this
    have h2 : ((2 : ℝ)^60)⁻¹^2 ≤ (norm2 b : ℝ) := by
      have := (Rat.cast_le (K := ℝ)).2 hlob; push_cast at this ⊢; exact this
    exact mul_le_mul h1 h2 (by positivity) p1'.le
  have hADS : (absDot a b : ℝ) ≤ S := by
    refine Real.le_sqrt_of_sq_le ?_
    exact_mod_cast hcs
  have hDS : |(dot a b : ℝ)| ≤ S := by
    refine le_trans ?_ hADS
    exact_mod_cast dot_le a b
  have cast : ∀ {x y : ℚ}, x ≤ y → (x : ℝ) ≤ (y : ℝ) := fun h => by exact_mod_cast h
  have tiny : (1 : ℝ) / 2^149 ≤ S / 1000000 := by
    have : (1 : ℝ) / 2^149 ≤ ((2 : ℝ)^60)⁻¹^2 / 1000000 := by norm_num
    linarith
  have hx : |(binary32 (multLoop o o.zero a b) : ℝ) - (dot a b : ℝ)| ≤ 45 / 10000 * S := by
    have := cast ex
    push_cast at this
    refine le_trans this ?_
    have hn' : (min (a.length : ℝ) (b.length : ℝ)) ≤ 32768 := by
      refine le_trans (min_le_left _ _) ?_
      exact_mod_cast (show a.length ≤ 32768 by omega)
    have hn0 : 0 ≤ (min (a.length : ℝ) (b.length : ℝ)) := le_min (by positivity) (by positivity)
    generalize min (a.length : ℝ) (b.length : ℝ) = n at *
    have h4 : (2 * n + 4) * (1 / 2^24) * (absDot a b : ℝ) ≤ 3907 / 1000000 * S := by
      refine mul_le_mul ?_ hADS (by exact_mod_cast absDot_nonneg a b) (by norm_num)
      rw [mul_one_div, div_le_iff₀ (by positivity)]; norm_num; linarith
    have h5 : 3 * n * (1 / (2 : ℝ)^149) ≤ 185 / 1000000 * S := by
      have e : (185 : ℝ) / 1000000 * ((2 : ℝ)^60)⁻¹^2 ≤ 185 / 1000000 * S := by linarith
      refine le_trans ?_ e
      rw [mul_one_div, div_le_iff₀ (by positivity)]
      norm_num; linarith
    linarith
  have ce1 := cast e1
  have ce2 := cast e2
  have cq10 := cast q10
  have cq20 := cast q20
  have cq1a := cast q1a
  have cq1b := cast q1b
  have cq2a := cast q2a
  have cq2b := cast q2b
  have cem := cast em
  push_cast at ce1 ce2 cq10 cq20 cq1a cq1b cq2a cq2b cem
  have hroots := (roots_err p1' r1' hS.le hSS ce1 ce2 cq10 cq20 cq1a cq1b cq2a cq2b (le_trans cem (by linarith))).1
  obtain ⟨m0, hq, hfin⟩ := quot_err (v := (binary32 (o.div (multLoop o o.zero a b) (o.mul (o.sqrt (multLoop o o.zero a a)) (o.sqrt (multLoop o o.zero b b)))) : ℝ))
    hS hDS hx hroots
  have m0' : binary32 (o.mul (o.sqrt (multLoop o o.zero a a)) (o.sqrt (multLoop o o.zero b b))) ≠ 0 := by
    intro h; rw [h] at m0; simp at m0
  obtain ⟨fd, ed⟩ := hA.div _ _ fx fm m0' (by
    have : |(binary32 (multLoop o o.zero a b)) / binary32 (o.mul (o.sqrt (multLoop o o.zero a a)) (o.sqrt (multLoop o o.zero b b)))| ≤ 2 := by
      exact_mod_cast hq
    refine le_trans this (by norm_num))
  have ced := cast ed
  push_cast at ced
  have hv := hfin ced
  obtain ⟨w1, w2⟩ := hA.widen _ fd
  have ht : |(dot a b : ℝ) / S| ≤ 1 := cosine_le a b
  obtain ⟨c1, c2⟩ := clamp_err ht hv
  obtain ⟨o1, o2⟩ := hA.oneD
  obtain ⟨n1, n2⟩ := hA.negOneD
  show finite64 _ ∧ |_ - (dot a b : ℝ) / S| ≤ _
  split
  · rename_i h
    rw [hA.ltD _ _ o1 w1, o2, w2] at h
    refine ⟨o1, ?_⟩
    rw [o2]
    push_cast
    exact c1 (by exact_mod_cast h)
  · split
    · rename_i h
      rw [hA.ltD _ _ w1 n1, n2, w2] at h
      refine ⟨n1, ?_⟩
      rw [n2]
      push_cast
      exact c2 (by exact_mod_cast h)
    · refine ⟨w1, ?_⟩
      rw [w2]
      exact hv

namespace SF

theorem abs_b32 (x : F32) : |binary32 x| * 2^149 = (val f32 (un32 x).mag : ℚ) := by
  rw [b32, abs_nv, unit32]
  field_simp

/-- A number of 2^64 or more has an infinite square. -/
theorem sq_inf (acos : F64 → F64) {a : F32} (ha : Fin32 a) (h : 2^64 ≤ |binary32 a|) : (un32 ((ops acos).sq a)).mag = f32.inf := by
  have h1 : val f32 0x5F800000 ≤ val f32 (un32 a).mag := by
    have e : val f32 0x5F800000 = 2^213 := by decide +kernel
    rw [e]
    have h2 := mul_le_mul_of_nonneg_right h (show (0 : ℚ) ≤ 2^149 by positivity)
    rw [abs_b32] at h2
    have e2 : (2 : ℚ)^64 * 2^149 = ((2^213 : ℕ) : ℚ) := by norm_num
    rw [e2] at h2
    exact_mod_cast h2
  rw [un_sq]
  obtain ⟨d1, d2⟩ := not_special ha
  unfold mulN
  simp only [d1, d2, Bool.or_self, Bool.false_eq_true, if_false]
  refine Nat.le_antisymm (roundRat_le _ _ _) ?_
  refine le_roundRat (Nat.two_pow_pos _) ?_ (le_refl _)
  refine Nat.le_trans ?_ (Nat.mul_le_mul h1 h1)
  decide +kernel

/-- A number of at most 2^-75 has the square zero. -/
theorem sq_small (acos : F64 → F64) {a : F32} (ha : Fin32 a) (h : |binary32 a| ≤ (2^75)⁻¹) : (un32 ((ops acos).sq a)).mag = 0 := by
  have hv : val f32 (un32 a).mag ≤ 2^74 := by
    have h2 := mul_le_mul_of_nonneg_right h (show (0 : ℚ) ≤ 2^149 by positivity)
    rw [abs_b32] at h2
    have e2 : ((2 : ℚ)^75)⁻¹ * 2^149 = ((2^74 : ℕ) : ℚ) := by norm_num
    rw [e2] at h2
    exact_mod_cast h2
  rw [un_sq]
  obtain ⟨d1, d2⟩ := not_special ha
  unfold mulN
  simp only [d1, d2, Bool.or_self, Bool.false_eq_true, if_false]
  have hp : val f32 (un32 a).mag * val f32 (un32 a).mag ≤ 2^148 := by
    have := Nat.mul_le_mul hv hv
    rwa [← Nat.pow_add] at this
  have h0 := roundRat_mono (f := f32) (q := 2^f32.unit) hp
  have e : roundRat f32 (2^148) (2^f32.unit) = 0 := by decide +kernel
  omega

theorem norm_up (acos : F64 → F64) : ∀ (a : List F32) (r : F32), (∀ x ∈ a, Fin32 x) → Up r → Up (multLoop (ops acos) r a a)
  | [], r, _, hr => by simpa [multLoop] using hr
  | a :: as, r, ha, hr => by
    have hf := ha a List.mem_cons_self
    exact norm_up acos as ((ops acos).add r ((ops acos).sq a)) (fun y hy => ha y (List.mem_cons_of_mem _ hy))
      (add_up acos hr (sq_up acos (by unfold Fin32 at hf; omega)))

theorem norm_inf (acos : F64 → F64) : ∀ (a : List F32) (r : F32), (∀ x ∈ a, Fin32 x) → Up r →
    ((un32 r).mag = f32.inf ∨ ∃ x ∈ a, 2^64 ≤ |binary32 x|) → multLoop (ops acos) r a a = 0x7F800000
  | [], r, _, hr, h => by
    simp only [List.not_mem_nil, false_and, exists_false, or_false] at h
    have e : un32 r = ⟨(un32 r).neg, (un32 r).mag⟩ := rfl
    rw [hr.1, h] at e
    have e2 : multLoop (ops acos) r [] [] = r := by simp [multLoop]
    rw [e2, ← pk_un32 r, e]
    decide
  | a :: as, r, ha, hr, h => by
    have hf := ha a List.mem_cons_self
    have hsq := sq_up acos (x := a) (by unfold Fin32 at hf; omega)
    refine norm_inf acos as ((ops acos).add r ((ops acos).sq a)) (fun y hy => ha y (List.mem_cons_of_mem _ hy)) (add_up acos hr hsq) ?_
    rcases h with h | ⟨x, hx, h⟩
    · exact Or.inl (add_inf acos hr hsq (Or.inl h))
    · rcases List.mem_cons.1 hx with rfl | hx
      · exact Or.inl (add_inf acos hr hsq (Or.inr (sq_inf acos hf h)))
      · exact Or.inr ⟨x, hx, h⟩

theorem norm_vanish (acos : F64 → F64) : ∀ (a : List F32) (r : F32), (∀ x ∈ a, Fin32 x) → r = 0 →
    (∀ x ∈ a, |binary32 x| ≤ (2^75)⁻¹) → multLoop (ops acos) r a a = 0
  | [], r, _, hr, _ => by simpa [multLoop] using hr
  | a :: as, r, ha, hr, h => by
    have hf := ha a List.mem_cons_self
    have hsq := (sq_up acos (x := a) (by unfold Fin32 at hf; omega)).1
    have h0 := sq_small acos hf (h a List.mem_cons_self)
    refine norm_vanish acos as ((ops acos).add r ((ops acos).sq a)) (fun y hy => ha y (List.mem_cons_of_mem _ hy)) ?_
      (fun y hy => h y (List.mem_cons_of_mem _ hy))
    have e : un32 ((ops acos).sq a) = ⟨false, 0⟩ := by rw [← hsq, ← h0]
    have e2 : (ops acos).sq a = 0 := by rw [← pk_un32 ((ops acos).sq a), e]; rfl
    rw [e2, hr]
    show pk32 (addN f32 (un32 0) (un32 0)) = 0
    decide

/-- The root of a positive number is a positive number. -/
theorem sqrt_up (acos : F64 → F64) {x : F32} (h : Up x) (h0 : (un32 x).mag ≠ 0) :
    Up ((ops acos).sqrt x) ∧ (un32 ((ops acos).sqrt x)).mag ≠ 0 := by
  rcases Nat.lt_or_ge (un32 x).mag f32.inf with hf | hf
  · have hfin : finite32 x := (finite_iff x).2 hf
    have hx0 : 0 ≤ binary32 x := by rw [b32]; exact nv_nonneg h.1
    have hxne : binary32 x ≠ 0 := by rw [b32, ne_eq, nv_eq_zero]; exact h0
    obtain ⟨s1, s2, s3, -⟩ := sqrt_acc acos x hfin hx0
    have hpos : 0 < binary32 x := lt_of_le_of_ne hx0 (Ne.symm hxne)
    have hne : binary32 ((ops acos).sqrt x) ≠ 0 := by
      intro he
      rw [he] at s3
      have : (0 : ℚ) < (1 - 1 / 2^24)^2 * binary32 x := by
        refine mul_pos ?_ hpos
        norm_num
      norm_num at s3
      linarith
    have hm : (un32 ((ops acos).sqrt x)).mag ≠ 0 := by
      rw [b32, ne_eq, nv_eq_zero] at hne; exact hne
    refine ⟨⟨?_, ?_⟩, hm⟩
    · by_contra hneg
      have hneg' : (un32 ((ops acos).sqrt x)).neg = true := by simpa using hneg
      have : binary32 ((ops acos).sqrt x) ≤ 0 := by
        rw [binary32_eq]
        unfold sv Num.sval
        rw [hneg']
        simp only [if_true, Int.cast_neg, Int.cast_natCast]
        rw [neg_div]
        exact neg_nonpos.2 (by positivity)
      exact hne (le_antisymm this s2)
    · have := (finite_iff _).1 s1
      unfold Fin32 at this
      omega
  · have e : un32 x = ⟨false, f32.inf⟩ := by
      have e : un32 x = ⟨(un32 x).neg, (un32 x).mag⟩ := rfl
      rw [e, h.1, Nat.le_antisymm h.2 hf]
    have e2 : (ops acos).sqrt x = 0x7F800000 := by
      show pk32 (sqrtN f32 (un32 x)) = _
      rw [e]
      decide +kernel
    rw [e2]
    unfold Up
    decide

end SF

/-- C138: a vector with a component of 2^64 or more is orthogonal to every vector, or the similarity is not a number: never the
similarity 1 to itself. -/
theorem C138_long (acos : F64 → F64) (a b : List F32) (ha : ∀ x ∈ a, finite32 x) (hb : ∀ x ∈ b, finite32 x)
    (h : ∃ x ∈ a, 2^64 ≤ |binary32 x|) :
    binary64 (cosineSimilarity (SF.ops acos) a b) = 0 ∨ F64.isNaN (cosineSimilarity (SF.ops acos) a b) = true := by
  have e1 := SF.norm_inf acos a 0 (fun x hx => (SF.finite_iff x).1 (ha x hx)) SF.up_zero (Or.inr h)
  have u2 := SF.norm_up acos b 0 (fun x hx => (SF.finite_iff x).1 (hb x hx)) SF.up_zero
  rw [cosine_eq]
  change binary64 (if F32.isZero (multLoop (SF.ops acos) 0 a a) || F32.isZero (multLoop (SF.ops acos) 0 b b) then 0 else
      clamp (SF.ops acos) ((SF.ops acos).widen ((SF.ops acos).div (multLoop (SF.ops acos) 0 a b)
        ((SF.ops acos).mul ((SF.ops acos).sqrt (multLoop (SF.ops acos) 0 a a)) ((SF.ops acos).sqrt (multLoop (SF.ops acos) 0 b b)))))) = 0 ∨
    F64.isNaN (if F32.isZero (multLoop (SF.ops acos) 0 a a) || F32.isZero (multLoop (SF.ops acos) 0 b b) then 0 else
      clamp (SF.ops acos) ((SF.ops acos).widen ((SF.ops acos).div (multLoop (SF.ops acos) 0 a b)
        ((SF.ops acos).mul ((SF.ops acos).sqrt (multLoop (SF.ops acos) 0 a a)) ((SF.ops acos).sqrt (multLoop (SF.ops acos) 0 b b)))))) = true
  by_cases hz : (F32.isZero (multLoop (SF.ops acos) 0 a a) || F32.isZero (multLoop (SF.ops acos) 0 b b)) = true
  · rw [if_pos hz]
    left
    decide +kernel
  · rw [if_neg hz]
    rw [Bool.or_eq_true, not_or] at hz
    have hz2 : (SF.un32 (multLoop (SF.ops acos) 0 b b)).mag ≠ 0 := fun h => hz.2 ((SF.isZero_iff _).2 h)
    rw [e1]
    obtain ⟨q1, q2⟩ := SF.sqrt_up acos u2 hz2
    generalize (SF.ops acos).sqrt (multLoop (SF.ops acos) 0 b b) = q at *
    have em : (SF.ops acos).mul ((SF.ops acos).sqrt 0x7F800000) q = 0x7F800000 := by
      have e3 : (SF.ops acos).sqrt 0x7F800000 = 0x7F800000 := by
        show SF.pk32 (SF.sqrtN SF.f32 (SF.un32 0x7F800000)) = _
        decide +kernel
      rw [e3]
      show SF.pk32 (SF.mulN SF.f32 (SF.un32 0x7F800000) (SF.un32 q)) = _
      have e4 : SF.un32 0x7F800000 = ⟨false, SF.f32.inf⟩ := by decide
      rw [e4]
      unfold SF.mulN
      have hi : SF.f32.inf ≠ 0 := by decide
      simp only [SF.Num.isNaN, SF.Num.isInf, Nat.lt_irrefl, decide_false, decide_true, Bool.or_false, Bool.true_or,
        Bool.false_eq_true, if_false, if_true, hi, q2, q1.1, Nat.not_lt.2 q1.2]
      decide
    rw [em]
    generalize multLoop (SF.ops acos) 0 a b = x
    -- x divided by infinity
    have hd : (SF.ops acos).div x 0x7F800000 = 0 ∨ (SF.ops acos).div x 0x7F800000 = 0x80000000 ∨
        (SF.ops acos).div x 0x7F800000 = SF.pk32 (SF.nanN SF.f32) := by
      show SF.pk32 (SF.divN SF.f32 (SF.un32 x) (SF.un32 0x7F800000)) = _ ∨ SF.pk32 (SF.divN SF.f32 (SF.un32 x) (SF.un32 0x7F800000)) = _ ∨
        SF.pk32 (SF.divN SF.f32 (SF.un32 x) (SF.un32 0x7F800000)) = _
      have e4 : SF.un32 0x7F800000 = ⟨false, SF.f32.inf⟩ := by decide
      rw [e4]
      generalize SF.un32 x = y
      unfold SF.divN
      simp only [SF.Num.isNaN, SF.Num.isInf, Nat.lt_irrefl, decide_false, decide_true, Bool.or_false, if_true]
      split
      · simp
      · split
        · simp
        · cases y.neg
          · left; decide
          · right; left; decide
    rcases hd with hd | hd | hd
    · rw [hd]; left
      show binary64 (clamp (SF.ops id) ((SF.ops id).widen 0)) = 0
      decide +kernel
    · rw [hd]; left
      show binary64 (clamp (SF.ops id) ((SF.ops id).widen 0x80000000)) = 0
      decide +kernel
    · rw [hd]; right
      show F64.isNaN (clamp (SF.ops id) ((SF.ops id).widen (SF.pk32 (SF.nanN SF.f32)))) = true
      decide +kernel

/-- C138: a vector with no component of more than 2^-75 counts as zero: it is orthogonal to every vector, itself included. -/
theorem C138_short (acos : F64 → F64) (a b : List F32) (ha : ∀ x ∈ a, finite32 x)
    (h : ∀ x ∈ a, |binary32 x| ≤ (2^75)⁻¹) : cosineSimilarity (SF.ops acos) a b = 0 := by
  have e1 := SF.norm_vanish acos a 0 (fun x hx => (SF.finite_iff x).1 (ha x hx)) rfl h
  unfold cosineSimilarity
  simp only [cosLoop_eq]
  show (if F32.isZero (multLoop (SF.ops acos) 0 a a) || F32.isZero (multLoop (SF.ops acos) 0 b b) then _ else _) = _
  rw [e1]
  rfl

/-- C138, counterexample: the vector (2^-80) and itself. -/
theorem C138_cosine_accurate_fails : ¬ C138_cosine_accurate_statement := by
  intro h
  have hv : binary32 0x17800000 = (2^80)⁻¹ := by decide +kernel
  have ha : ∀ x ∈ [(0x17800000 : F32)], finite32 x := by unfold finite32; decide
  have hz := C138_short id [0x17800000] [0x17800000] ha (by
    intro p hp
    simp only [List.mem_singleton] at hp
    subst hp
    rw [hv, abs_of_pos (by positivity)]
    norm_num)
  have := (h (SF.ops id) (SF.accurate id) [0x17800000] [0x17800000] ha ha (by decide) (by decide)).2
  rw [hz, show binary64 0 = 0 by decide +kernel] at this
  have e : cosine [0x17800000] [0x17800000] = 1 := by
    unfold cosine norm2
    simp only [dot, hv]
    rw [Real.sqrt_mul_self]
    · norm_num
    · norm_num
  rw [e] at this
  norm_num at this

/-- C138: (3, 4) and (4) meet the hypotheses; the similarity is 3/5. -/
theorem C138_example :
    Moderate [0x40400000, 0x40800000] ∧ Moderate [0x40800000] ∧ cosine [0x40400000, 0x40800000] [0x40800000] = 3 / 5 ∧
    cosineSimilarity (SF.ops id) [0x40400000, 0x40800000] [0x40800000] = 0x3FE3333340000000 ∧
    F64.isNaN (cosineSimilarity (SF.ops id) [0x5F800000] [0x5F800000]) = true ∧
    cosineSimilarity (SF.ops id) [0x5F800000] [0x3F800000] = 0 := by
  have h3 : binary32 0x40400000 = 3 := by decide +kernel
  have h4 : binary32 0x40800000 = 4 := by decide +kernel
  have n1 : norm2 [0x40400000, 0x40800000] = 25 := by unfold norm2; simp only [dot, h3, h4]; norm_num
  have n2 : norm2 [0x40800000] = 16 := by unfold norm2; simp only [dot, h4]; norm_num
  refine ⟨Or.inr ?_, Or.inr ?_, ?_, ?_, ?_, ?_⟩
  · rw [n1]; norm_num
  · rw [n2]; norm_num
  · unfold cosine
    rw [n1, n2]
    simp only [dot, h3, h4]
    have : √(((25 : ℚ) : ℝ) * ((16 : ℚ) : ℝ)) = 20 := by
      rw [Real.sqrt_eq_iff_mul_self_eq (by norm_num) (by norm_num)]
      norm_num
    rw [this]
    norm_num
  all_goals
    rw [cosine_eq]
    decide +kernel

end Veri
