import Verif.Vector.AngErr
/-
The error of `CosineSimilarity` and `AngularDistance` of data/util.go by the number of components (C138, C141): a few units in the last
place of a float32 for each of them.
-/
set_option autoImplicit false
namespace Veri
set_option exponentiation.threshold 4000

namespace Ref

/-- Zero, or of a length between 2^-50 and 2^60. -/
def UsualLength (a : List F32) : Prop := norm2 a = 0 ∨ (2^50)⁻¹^2 ≤ norm2 a ∧ norm2 a ≤ (2^60)^2

/-- `5n + 20` units of 2^-24, for `n` components. -/
noncomputable def cosError (n : ℕ) : ℝ := (5 * n + 20) / 2^24

theorem UsualLength.moderate {a : List F32} (h : UsualLength a) : Moderate a := by
  rcases h with h | ⟨h1, h2⟩
  · exact Or.inl h
  · exact Or.inr ⟨le_trans (by norm_num) h1, h2⟩

end Ref

namespace Vec
open Ref

/-- The product of the two roots. -/
theorem roots_fine {N1 N2 S s1 s2 q1 q2 m e : ℝ} (he0 : 0 ≤ e) (he : e ≤ 4 / 1000) (hN1 : 0 < N1) (hN2 : 0 < N2) (hS : 0 ≤ S)
    (hSS : S^2 = N1 * N2)
    (h1 : |s1 - N1| ≤ e * N1) (h2 : |s2 - N2| ≤ e * N2) (hq1 : 0 ≤ q1) (hq2 : 0 ≤ q2)
    (a1 : (1 - 1 / 2^24)^2 * s1 ≤ q1^2) (b1 : q1^2 ≤ (1 + 1 / 2^24)^2 * s1)
    (a2 : (1 - 1 / 2^24)^2 * s2 ≤ q2^2) (b2 : q2^2 ≤ (1 + 1 / 2^24)^2 * s2)
    (hm : |m - q1 * q2| ≤ q1 * q2 / 2^24 + S / 2^28) : |m - S| ≤ (e + 4 / 2^24) * S := by
  have lo : ∀ {N s q : ℝ}, 0 < N → |s - N| ≤ e * N → (1 - 1 / 2^24)^2 * s ≤ q^2 → (1 - 1 / 2^24)^2 * (1 - e) * N ≤ q^2 := by
    intro N s q hN h a
    have := (abs_le.1 h).1
    refine le_trans ?_ a
    rw [mul_assoc]
    exact mul_le_mul_of_nonneg_left (by linarith) (by positivity)
  have hi : ∀ {N s q : ℝ}, 0 < N → |s - N| ≤ e * N → q^2 ≤ (1 + 1 / 2^24)^2 * s → q^2 ≤ (1 + 1 / 2^24)^2 * (1 + e) * N := by
    intro N s q hN h b
    have := (abs_le.1 h).2
    refine le_trans b ?_
    rw [mul_assoc]
    exact mul_le_mul_of_nonneg_left (by linarith) (by positivity)
  have l1 := lo hN1 h1 a1
  have l2 := lo hN2 h2 a2
  have u1 := hi hN1 h1 b1
  have u2 := hi hN2 h2 b2
  have hp : 0 ≤ q1 * q2 := mul_nonneg hq1 hq2
  have hc : (0 : ℝ) ≤ (1 - 1 / 2^24)^2 * (1 - e) := mul_nonneg (by positivity) (by linarith)
  have hc' : (0 : ℝ) ≤ (1 + 1 / 2^24)^2 * (1 + e) := mul_nonneg (by positivity) (by linarith)
  have hlow : (1 - 1 / 2^24)^2 * (1 - e) * S ≤ q1 * q2 := by
    refine abs_le_of_sq_le_sq' ?_ hp |>.2
    rw [mul_pow _ S, hSS, mul_pow q1]
    have := mul_le_mul l1 l2 (mul_nonneg hc hN2.le) (by positivity)
    refine le_trans (le_of_eq ?_) this
    ring
  have hhigh : q1 * q2 ≤ (1 + 1 / 2^24)^2 * (1 + e) * S := by
    refine abs_le_of_sq_le_sq' ?_ (mul_nonneg hc' hS) |>.2
    rw [mul_pow q1, mul_pow _ S, hSS]
    have := mul_le_mul u1 u2 (by positivity) (mul_nonneg hc' hN1.le)
    refine le_trans this (le_of_eq ?_)
    ring
  obtain ⟨m1, m2⟩ := abs_le.1 hm
  have hT : e * S ≤ 4 / 1000 * S := mul_le_mul_of_nonneg_right he hS
  have hT0 : 0 ≤ e * S := mul_nonneg he0 hS
  have x1 : (1 + 1 / 2^24)^2 * (1 + e) * S = (1 + 1 / 2^24)^2 * (S + e * S) := by ring
  have x2 : (1 - 1 / 2^24)^2 * (1 - e) * S = (1 - 1 / 2^24)^2 * (S - e * S) := by ring
  rw [x1] at hhigh
  rw [x2] at hlow
  have y : (e + 4 / 2^24) * S = e * S + 4 / 2^24 * S := by ring
  rw [y]
  generalize e * S = T at *
  generalize q1 * q2 = P at *
  norm_num at hhigh hlow m1 m2 ⊢
  exact abs_le.2 ⟨by linarith, by linarith⟩

/-- The quotient at the end. -/
theorem quot_fine {S D x m v e : ℝ} (he0 : 0 ≤ e) (he : e ≤ 4 / 1000) (hS : 0 < S) (hD : |D| ≤ S) (hx : |x - D| ≤ e * S)
    (hm : |m - S| ≤ (e + 4 / 2^24) * S) :
    0 < m ∧ |x / m| ≤ 2 ∧ (|v - x / m| ≤ |x / m| / 2^24 + 1 / 2^149 → |v - D / S| ≤ 1005 / 1000 * (2 * e + 4 / 2^24) + 3 / 2^24) := by
  obtain ⟨m1, m2⟩ := abs_le.1 hm
  have hT : e * S ≤ 4 / 1000 * S := mul_le_mul_of_nonneg_right he hS.le
  have hmlo : 1000 / 1005 * S ≤ m := by
    have : (e + 4 / 2^24) * S = e * S + 4 / 2^24 * S := by ring
    rw [this] at m1
    norm_num at m1
    linarith
  have hm0 : 0 < m := by linarith
  have hxS : |x| ≤ 1004 / 1000 * S := by
    have : x = (x - D) + D := by ring
    calc |x| = |(x - D) + D| := by rw [← this]
      _ ≤ |x - D| + |D| := abs_add_le _ _
      _ ≤ _ := by linarith
  have hq : |x / m| ≤ 2 := by
    rw [abs_div, abs_of_pos hm0, div_le_iff₀ hm0]; linarith
  refine ⟨hm0, hq, ?_⟩
  intro hv
  have hd : |x / m - D / S| ≤ 1005 / 1000 * (2 * e + 4 / 2^24) := by
    rw [div_sub_div _ _ hm0.ne' hS.ne', abs_div, abs_of_pos (mul_pos hm0 hS), div_le_iff₀ (mul_pos hm0 hS)]
    have e' : x * S - m * D = (x - D) * S - D * (m - S) := by ring
    rw [e']
    refine le_trans (abs_sub _ _) ?_
    rw [abs_mul, abs_mul, abs_of_pos hS]
    have h1 := mul_le_mul_of_nonneg_right hx hS.le
    have h2 := mul_le_mul hD hm (abs_nonneg _) hS.le
    have h3 : (1000 / 1005 * S) * S ≤ m * S := mul_le_mul_of_nonneg_right hmlo hS.le
    have h4 : (1005 / 1000 * (2 * e + 4 / 2^24)) * ((1000 / 1005 * S) * S) ≤ (1005 / 1000 * (2 * e + 4 / 2^24)) * (m * S) :=
      mul_le_mul_of_nonneg_left h3 (by positivity)
    have h5 : (1005 / 1000 * (2 * e + 4 / 2^24)) * ((1000 / 1005 * S) * S) = e * S * S + S * ((e + 4 / 2^24) * S) := by ring
    linarith
  have e' : v - D / S = (v - x / m) + (x / m - D / S) := by ring
  rw [e']
  refine le_trans (abs_add_le _ _) ?_
  have h1 : |x / m| / 2^24 ≤ 2 / 2^24 := div_le_div_of_nonneg_right hq (by positivity)
  have h2 : (2 : ℝ) / 2^24 + 1 / 2^149 ≤ 3 / 2^24 := by norm_num
  linarith

/-- Bringing a number into [-1, 1] does not take it away from a number there. -/
theorem clamp_fine {v t d : ℝ} (ht : |t| ≤ 1) (h : |v - t| ≤ d) : (1 < v → |1 - t| ≤ d) ∧ (v < -1 → |-1 - t| ≤ d) := by
  obtain ⟨t1, t2⟩ := abs_le.1 ht
  obtain ⟨h1, h2⟩ := abs_le.1 h
  exact ⟨fun hv => abs_le.2 ⟨by linarith, by linarith⟩, fun hv => abs_le.2 ⟨by linarith, by linarith⟩⟩

/-- The error of a sum of products, relative to a number that is not too small. -/
theorem sum_fine {k : ℚ} {n : ℕ} {T N : ℚ} (hkn : k ≤ n) (hn : n ≤ 2^15) (hT0 : 0 ≤ T) (hT : T ≤ N) (hN : (2^50)⁻¹^2 ≤ N) :
    (2 * k + 4) * (1 / 2^24) * T + 3 * k * (1 / 2^149) ≤ (2 * n + 5) / 2^24 * N := by
  have hn' : (n : ℚ) ≤ 32768 := by exact_mod_cast (show n ≤ 32768 by omega)
  have h4 : (2 * k + 4) * (1 / 2^24) * T ≤ (2 * n + 4) * (1 / 2^24) * N := by
    refine mul_le_mul ?_ hT hT0 (by positivity)
    exact mul_le_mul_of_nonneg_right (by linarith) (by positivity)
  have h5 : 3 * k * (1 / (2 : ℚ)^149) ≤ 1 / 2^24 * N := by
    have e : (1 : ℚ) / 2^24 * (2^50)⁻¹^2 ≤ 1 / 2^24 * N := mul_le_mul_of_nonneg_left hN (by positivity)
    refine le_trans ?_ e
    rw [mul_one_div, div_le_iff₀ (by positivity)]
    norm_num; linarith
  have e : (2 * (n : ℚ) + 5) / 2^24 * N = (2 * n + 4) * (1 / 2^24) * N + 1 / 2^24 * N := by ring
  rw [e]
  linarith

theorem norm_fine {o : FOps F32 F64} (hA : Accurate o) (a : List F32) (ha : ∀ x ∈ a, finite32 x) {n : ℕ} (hl : a.length ≤ n)
    (hn : n ≤ 2^15) (hlo : (2^50)⁻¹^2 ≤ norm2 a) (hhi : norm2 a ≤ (2^60)^2) :
    finite32 (multLoop o o.zero a a) ∧ |binary32 (multLoop o o.zero a a) - norm2 a| ≤ (2 * n + 5) / 2^24 * norm2 a := by
  obtain ⟨z1, z2⟩ := hA.zero
  obtain ⟨g1, g2⟩ := mult_err hA a a o.zero 0 0 0 ha ha z1 (le_refl _) (by simp) (by omega)
    (by rw [absDot_self, zero_add]; exact le_trans hhi (by norm_num)) (by rw [z2]; simp)
  rw [zero_add, Nat.zero_add, zero_add, absDot_self, Nat.min_self] at g2
  refine ⟨g1, le_trans g2 ?_⟩
  exact sum_fine (by exact_mod_cast hl) hn (norm2_nonneg a) (le_refl _) hlo

end Vec

open Vec Ref

/-- C138, the error by the number of components: `(5n + 20) / 2^24` for vectors with up to `n` components (at most 2^15), zero or of
a length between 2^-50 and 2^60. -/
theorem C138_cosine_error_partial {o : FOps F32 F64} (hA : Accurate o) (a b : List F32)
    (ha : ∀ x ∈ a, finite32 x) (hb : ∀ x ∈ b, finite32 x) (n : ℕ) (hn : n ≤ 2^15) (hna : a.length ≤ n) (hnb : b.length ≤ n)
    (hma : UsualLength a) (hmb : UsualLength b) :
    finite64 (cosineSimilarity o a b) ∧ |(binary64 (cosineSimilarity o a b) : ℝ) - cosine a b| ≤ cosError n := by
  have hce0 : 0 ≤ cosError n := by unfold cosError; positivity
  obtain ⟨z1, z2⟩ := hA.zero
  obtain ⟨d1, d2⟩ := hA.zeroD
  unfold cosineSimilarity
  simp only [cosLoop_eq]
  rcases hma with h0 | ⟨hloa, hhia⟩
  · obtain ⟨g1, g2⟩ := norm_zero hA a o.zero ha (norm2_zero a h0) z1 z2
    rw [if_pos (by rw [(hA.isZero _ g1).2 g2]; simp)]
    refine ⟨d1, ?_⟩
    unfold cosine
    rw [d2, h0]; simpa using hce0
  rcases hmb with h0 | ⟨hlob, hhib⟩
  · obtain ⟨g1, g2⟩ := norm_zero hA b o.zero hb (norm2_zero b h0) z1 z2
    rw [if_pos (by rw [(hA.isZero _ g1).2 g2]; simp)]
    refine ⟨d1, ?_⟩
    unfold cosine
    rw [d2, h0]; simpa using hce0
  obtain ⟨f1, e1⟩ := norm_fine hA a ha hna hn hloa hhia
  obtain ⟨f2, e2⟩ := norm_fine hA b hb hnb hn hlob hhib
  have hn' : (n : ℚ) ≤ 32768 := by exact_mod_cast (show n ≤ 32768 by omega)
  have heq : (2 * (n : ℚ) + 5) / 2^24 ≤ 4 / 1000 := by
    rw [div_le_iff₀ (by positivity)]; norm_num; linarith
  have hpos : ∀ {N s : ℚ}, (2^50)⁻¹^2 ≤ N → N ≤ (2^60)^2 → |s - N| ≤ (2 * n + 5) / 2^24 * N → 0 < N ∧ 0 < s ∧ s ≤ 2^121 := by
    intro N s h1 h2 h3
    have hN : 0 < N := lt_of_lt_of_le (by positivity) h1
    have h3' := le_trans h3 (mul_le_mul_of_nonneg_right heq hN.le)
    obtain ⟨h4, h5⟩ := abs_le.1 h3'
    have h6 : (2 : ℚ) * (2^60)^2 = 2^121 := by norm_num
    exact ⟨hN, by linarith, by linarith⟩
  obtain ⟨p1, p2, p3⟩ := hpos hloa hhia e1
  obtain ⟨r1, r2, r3⟩ := hpos hlob hhib e2
  rw [if_neg (by
    rw [Bool.or_eq_true, hA.isZero _ f1, hA.isZero _ f2]
    intro h
    rcases h with h | h
    · exact p2.ne' h
    · exact r2.ne' h)]
  -- the inner product
  have hcs := cauchy a b
  have hAD : absDot a b ≤ (2^60)^2 := by
    refine abs_le_of_sq_le_sq' (le_trans hcs ?_) (by positivity) |>.2
    rw [pow_two (((2 : ℚ)^60)^2)]
    exact mul_le_mul hhia hhib r1.le (by positivity)
  obtain ⟨fx, ex⟩ := mult_err hA a b o.zero 0 0 0 ha hb z1 (le_refl _) (by simp) (by omega)
    (by rw [zero_add]; exact le_trans hAD (by norm_num)) (by rw [z2]; simp)
  rw [zero_add, Nat.zero_add, zero_add] at ex
  -- the roots
  obtain ⟨fq1, q10, q1a, q1b⟩ := hA.sqrt _ f1 p2.le
  obtain ⟨fq2, q20, q2a, q2b⟩ := hA.sqrt _ f2 r2.le
  have hqb : ∀ {q s : ℚ}, 0 ≤ q → s ≤ 2^121 → q^2 ≤ (1 + 1 / 2^24)^2 * s → q ≤ 2^61 := by
    intro q s h0 h1 h2
    refine abs_le_of_sq_le_sq' (le_trans h2 ?_) (by positivity) |>.2
    have : (1 + 1 / (2 : ℚ)^24)^2 * s ≤ (1 + 1 / 2^24)^2 * 2^121 := mul_le_mul_of_nonneg_left h1 (by positivity)
    refine le_trans this (by norm_num)
  have hq1b := hqb q10 p3 q1b
  have hq2b := hqb q20 r3 q2b
  have hqq0 : 0 ≤ binary32 (o.sqrt (multLoop o o.zero a a)) * binary32 (o.sqrt (multLoop o o.zero b b)) := mul_nonneg q10 q20
  obtain ⟨fm, em⟩ := hA.mul _ _ fq1 fq2 (by
    rw [abs_of_nonneg hqq0]
    refine le_trans (mul_le_mul hq1b hq2b q20 (by positivity)) (by norm_num))
  rw [abs_of_nonneg hqq0] at em
  set S : ℝ := √((norm2 a : ℝ) * (norm2 b : ℝ)) with hSdef
  have p1' : (0 : ℝ) < (norm2 a : ℝ) := by exact_mod_cast p1
  have r1' : (0 : ℝ) < (norm2 b : ℝ) := by exact_mod_cast r1
  have hS : 0 < S := Real.sqrt_pos.2 (mul_pos p1' r1')
  have hSS : S^2 = (norm2 a : ℝ) * (norm2 b : ℝ) := Real.sq_sqrt (mul_pos p1' r1').le
  have hSlo : ((2 : ℝ)^50)⁻¹^2 ≤ S := by
    refine Real.le_sqrt_of_sq_le ?_
    rw [pow_two (((2 : ℝ)^50)⁻¹^2)]
    have h1 : ((2 : ℝ)^50)⁻¹^2 ≤ (norm2 a : ℝ) := by
      have := (Rat.cast_le (K := ℝ)).2 hloa; push_cast at this ⊢; exact this
    have h2 : ((2 : ℝ)^50)⁻¹^2 ≤ (norm2 b : ℝ) := by
      have := (Rat.cast_le (K := ℝ)).2 hlob; push_cast at this ⊢; exact this
    exact mul_le_mul h1 h2 (by positivity) p1'.le
  have hADS : (absDot a b : ℝ) ≤ S := by
    refine Real.le_sqrt_of_sq_le ?_
    exact_mod_cast hcs
  have hDS : |(dot a b : ℝ)| ≤ S := by
    refine le_trans ?_ hADS
    exact_mod_cast dot_le a b
  have cast : ∀ {x y : ℚ}, x ≤ y → (x : ℝ) ≤ (y : ℝ) := fun h => by exact_mod_cast h
  have tiny : (1 : ℝ) / 2^149 ≤ S / 2^28 := by
    have : (1 : ℝ) / 2^149 ≤ ((2 : ℝ)^50)⁻¹^2 / 2^28 := by norm_num
    exact le_trans this (div_le_div_of_nonneg_right hSlo (by positivity))
  have hnr : (n : ℝ) ≤ 32768 := by exact_mod_cast (show n ≤ 32768 by omega)
  have hx : |(binary32 (multLoop o o.zero a b) : ℝ) - (dot a b : ℝ)| ≤ (2 * n + 5) / 2^24 * S := by
    have := cast ex
    push_cast at this
    refine le_trans this ?_
    have hk : (min (a.length : ℝ) (b.length : ℝ)) ≤ n := le_trans (min_le_left _ _) (by exact_mod_cast hna)
    have hk0 : 0 ≤ (min (a.length : ℝ) (b.length : ℝ)) := le_min (by positivity) (by positivity)
    generalize min (a.length : ℝ) (b.length : ℝ) = k at *
    have h4 : (2 * k + 4) * (1 / 2^24) * (absDot a b : ℝ) ≤ (2 * n + 4) * (1 / 2^24) * S := by
      refine mul_le_mul ?_ hADS (by exact_mod_cast absDot_nonneg a b) (by positivity)
      exact mul_le_mul_of_nonneg_right (by linarith) (by positivity)
    have h5 : 3 * k * (1 / (2 : ℝ)^149) ≤ 1 / 2^24 * S := by
      have e : (1 : ℝ) / 2^24 * ((2 : ℝ)^50)⁻¹^2 ≤ 1 / 2^24 * S := mul_le_mul_of_nonneg_left hSlo (by positivity)
      refine le_trans ?_ e
      rw [mul_one_div, div_le_iff₀ (by positivity)]
      norm_num; linarith
    have e : (2 * (n : ℝ) + 5) / 2^24 * S = (2 * n + 4) * (1 / 2^24) * S + 1 / 2^24 * S := by ring
    rw [e]
    linarith
  have ce1 := cast e1
  have ce2 := cast e2
  have cq10 := cast q10
  have cq20 := cast q20
  have cq1a := cast q1a
  have cq1b := cast q1b
  have cq2a := cast q2a
  have cq2b := cast q2b
  have cem := cast em
  have ceq := cast heq
  push_cast at ce1 ce2 cq10 cq20 cq1a cq1b cq2a cq2b cem ceq
  have he0 : (0 : ℝ) ≤ (2 * n + 5) / 2^24 := by positivity
  have hroots := roots_fine he0 ceq p1' r1' hS.le hSS ce1 ce2 cq10 cq20 cq1a cq1b cq2a cq2b (le_trans cem (by linarith))
  obtain ⟨m0, hq, hfin⟩ := quot_fine (v := (binary32 (o.div (multLoop o o.zero a b) (o.mul (o.sqrt (multLoop o o.zero a a)) (o.sqrt (multLoop o o.zero b b)))) : ℝ))
    he0 ceq hS hDS hx hroots
  have m0' : binary32 (o.mul (o.sqrt (multLoop o o.zero a a)) (o.sqrt (multLoop o o.zero b b))) ≠ 0 := by
    intro h; rw [h] at m0; simp at m0
  obtain ⟨fd, ed⟩ := hA.div _ _ fx fm m0' (by
    have : |(binary32 (multLoop o o.zero a b)) / binary32 (o.mul (o.sqrt (multLoop o o.zero a a)) (o.sqrt (multLoop o o.zero b b)))| ≤ 2 := by
      exact_mod_cast hq
    refine le_trans this (by norm_num))
  have ced := cast ed
  push_cast at ced
  have hv := hfin ced
  have hv : |(binary32 (o.div (multLoop o o.zero a b) (o.mul (o.sqrt (multLoop o o.zero a a)) (o.sqrt (multLoop o o.zero b b)))) : ℝ) -
      (dot a b : ℝ) / S| ≤ cosError n := by
    refine le_trans hv ?_
    unfold cosError
    have hn0 : (0 : ℝ) ≤ n := by positivity
    rw [le_div_iff₀ (by positivity)]
    have : (1005 / 1000 * (2 * ((2 * (n : ℝ) + 5) / 2^24) + 4 / 2^24) + 3 / 2^24) * 2^24 = 1005 / 1000 * (4 * n + 14) + 3 := by
      ring
    rw [this]
    linarith
  obtain ⟨w1, w2⟩ := hA.widen _ fd
  have ht : |(dot a b : ℝ) / S| ≤ 1 := cosine_le a b
  obtain ⟨c1, c2⟩ := clamp_fine ht hv
  obtain ⟨o1, o2⟩ := hA.oneD
  obtain ⟨n1, n2⟩ := hA.negOneD
  show finite64 _ ∧ |_ - (dot a b : ℝ) / S| ≤ _
  split
  · rename_i h
    rw [hA.ltD _ _ o1 w1, o2, w2] at h
    refine ⟨o1, ?_⟩
    rw [o2]
    push_cast
    exact c1 (by exact_mod_cast h)
  · split
    · rename_i h
      rw [hA.ltD _ _ w1 n1, n2, w2] at h
      refine ⟨n1, ?_⟩
      rw [n2]
      push_cast
      exact c2 (by exact_mod_cast h)
    · refine ⟨w1, ?_⟩
      rw [w2]
      exact hv

/-- C141, the error by the number of components: the root of half the error of the cosine, and a hundred-thousandth. -/
theorem C141_angular_error_partial {o : FOps F32 F64} (hA : Accurate o) (hB : AccurateAcos o) (a b : List F32)
    (ha : ∀ x ∈ a, finite32 x) (hb : ∀ x ∈ b, finite32 x) (n : ℕ) (hn : n ≤ 2^15) (hna : a.length ≤ n) (hnb : b.length ≤ n)
    (hma : UsualLength a) (hmb : UsualLength b) :
    finite64 (angularDistance o a b) ∧ |(binary64 (angularDistance o a b) : ℝ) - angular a b| ≤ √(cosError n / 2) + 1 / 100000 := by
  obtain ⟨fc, ec⟩ := C138_cosine_error_partial hA a b ha hb n hn hna hnb hma hmb
  have h1 := cos_le_one hA a b fc
  obtain ⟨fs, es⟩ := angle_err hA hB _ fc h1
  refine ⟨fs, ?_⟩
  have h1' : |(binary64 (cosineSimilarity o a b) : ℝ)| ≤ 1 := by exact_mod_cast h1
  have hn := arccos_near h1' (cosine_le a b)
  have hroot : √(|(binary64 (cosineSimilarity o a b) : ℝ) - cosine a b| / 2) ≤ √(cosError n / 2) :=
    Real.sqrt_le_sqrt (by linarith)
  have hdiff : |Real.arccos (binary64 (cosineSimilarity o a b) : ℝ) / Real.pi - Real.arccos (cosine a b) / Real.pi| ≤ √(cosError n / 2) := by
    rw [← sub_div, abs_div, abs_of_pos Real.pi_pos, div_le_iff₀ Real.pi_pos, mul_comm]
    exact le_trans hn (mul_le_mul_of_nonneg_left hroot Real.pi_pos.le)
  unfold angular
  show |(binary64 (o.subD o.oneD (o.divD (o.acosD (cosineSimilarity o a b)) o.piD)) : ℝ) - _| ≤ _
  obtain ⟨e1, e2⟩ := abs_le.1 es
  obtain ⟨d1, d2⟩ := abs_le.1 hdiff
  exact abs_le.2 ⟨by linarith, by linarith⟩

/-- C138, C141: for up to 100 components the cosine is right to 32 millionths, the angle to 1/200 of half a turn. -/
theorem C138_error_example : cosError 100 ≤ 32 / 1000000 ∧ √(cosError 100 / 2) + 1 / 100000 ≤ 1 / 200 ∧
    UsualLength [0x3F800000, 0] ∧ (∀ x ∈ [(0x3F800000 : F32), 0], finite32 x) := by
  have h1 : binary32 0x3F800000 = 1 := by decide +kernel
  have h0 : binary32 0 = 0 := by decide +kernel
  refine ⟨by unfold cosError; norm_num, ?_, Or.inr ?_, by unfold finite32; decide⟩
  · have : √(cosError 100 / 2) ≤ 499 / 100000 := by
      rw [Real.sqrt_le_left (by norm_num)]
      unfold cosError
      norm_num
    linarith
  · unfold norm2; simp only [dot, h1, h0]; norm_num

end Veri
