import Verif.Vector.Accurate
/-
How accurate the distances of data/util.go are (C134, C136, C137).
-/
set_option autoImplicit false
namespace Veri
set_option exponentiation.threshold 4000

namespace Ref

/-- The square of the distance of two vectors, as far as both have components. -/
def dist2 : List F32 → List F32 → Rat
  | a :: as, b :: bs => (binary32 a - binary32 b)^2 + dist2 as bs
  | _, _ => 0

end Ref

namespace Vec
open Ref

theorem dist2_nonneg : ∀ a b : List F32, 0 ≤ dist2 a b
  | [], _ => le_refl _
  | _ :: _, [] => le_refl _
  | a :: as, b :: bs => by
    have := dist2_nonneg as bs
    unfold dist2; positivity

theorem dist2_take : ∀ (a b : List F32) (n : Nat), min a.length b.length ≤ n → dist2 (a.take n) (b.take n) = dist2 a b
  | [], _, _, _ => by simp [dist2]
  | _ :: _, [], n, _ => by cases n <;> simp [dist2]
  | a :: as, b :: bs, 0, h => by simp at h
  | a :: as, b :: bs, n + 1, h => by
    simp only [List.take_succ_cons, dist2]
    rw [dist2_take as bs n (by simp at h; omega)]

/-- One component of the sum: difference, square. -/
theorem comp_err {x d s u e : ℚ} (hu0 : 0 ≤ u) (hu1 : u ≤ 1 / 16) (hd : |d - x| ≤ |x| * u)
    (hs : |s - d * d| ≤ d * d * u + e) : |s - x^2| ≤ 4 * u * x^2 + e ∧ d * d ≤ 2 * x^2 := by
  have hx0 := abs_nonneg x
  have hx2 : |x| * |x| = x^2 := by rw [← pow_two, sq_abs]
  -- d = x + δ
  obtain ⟨δ, hδ⟩ : ∃ δ, d = x + δ := ⟨d - x, by ring⟩
  subst hδ
  have hδ : |δ| ≤ |x| * u := by simpa using hd
  have h1 : |x * δ| ≤ x^2 * u := by
    rw [abs_mul, ← hx2]
    have := mul_le_mul_of_nonneg_left hδ hx0
    linarith
  have h2 : δ^2 ≤ x^2 * u^2 := by
    have : |δ|^2 ≤ (|x| * u)^2 := pow_le_pow_left₀ (abs_nonneg _) hδ 2
    rw [sq_abs, mul_pow, sq_abs] at this
    exact this
  obtain ⟨h3, h4⟩ := abs_le.1 h1
  obtain ⟨h5, h6⟩ := abs_le.1 hs
  have hX : 0 ≤ x^2 := by positivity
  generalize hXX : x^2 = X at *
  have e1 : (x + δ) * (x + δ) = X + 2 * (x * δ) + δ^2 := by rw [← hXX]; ring
  rw [e1] at h5 h6 ⊢
  have h7 : 0 ≤ δ^2 := by positivity
  generalize x * δ = p at *
  generalize δ^2 = D at *
  have hXu : X * u ≤ X * (1 / 16) := mul_le_mul_of_nonneg_left hu1 hX
  have hXu0 : 0 ≤ X * u := mul_nonneg hX hu0
  have hXu2 : X * u^2 ≤ X * u * (1 / 16) := by
    have := mul_le_mul_of_nonneg_left hu1 hXu0
    nlinarith
  have hpu : p * u ≤ X * u * (1 / 16) := by nlinarith
  have hDu : D * u ≤ X * u * (1 / 16) := by nlinarith
  have hpu' : -(X * u * (1 / 16)) ≤ p * u := by nlinarith
  have hDu' : 0 ≤ D * u := mul_nonneg h7 hu0
  refine ⟨abs_le.2 ⟨by nlinarith, by nlinarith⟩, by nlinarith⟩

/-- One step of the sum. -/
theorem sum_step {r T s x2 r' u e : ℚ} {k : ℕ} (hu0 : 0 ≤ u) (hk : (2 * k + 8) * u ≤ 1) (he : 0 ≤ e) (hT : 0 ≤ T) (hx : 0 ≤ x2)
    (hr : |r - T| ≤ (2 * k + 6) * u * T + 2 * k * e) (hs : |s - x2| ≤ 4 * u * x2 + e)
    (hr' : |r' - (r + s)| ≤ |r + s| * u) :
    |r' - (T + x2)| ≤ (2 * ((k + 1 : ℕ) : ℚ) + 6) * u * (T + x2) + 2 * ((k + 1 : ℕ) : ℚ) * e := by
  have hk0 : (0 : ℚ) ≤ k := by positivity
  have h1 : |r + s| ≤ (T + x2) + |r - T| + |s - x2| := by
    have : r + s = (T + x2) + (r - T) + (s - x2) := by ring
    rw [this]
    refine le_trans (abs_add_le _ _) (add_le_add_left ?_ _)
    refine le_trans (abs_add_le _ _) ?_
    rw [abs_of_nonneg (show 0 ≤ T + x2 by linarith)]
  have h2 : |r' - (T + x2)| ≤ |r' - (r + s)| + |r - T| + |s - x2| := by
    have : r' - (T + x2) = (r' - (r + s)) + (r - T) + (s - x2) := by ring
    rw [this]
    exact le_trans (abs_add_le _ _) (add_le_add_left (abs_add_le _ _) _)
  have hu1 : u ≤ 1 / 8 := by nlinarith
  generalize |r - T| = A at *
  generalize |s - x2| = B at *
  generalize |r + s| = C at *
  push_cast
  have h3 : C * u ≤ ((T + x2) + A + B) * u := mul_le_mul_of_nonneg_right h1 hu0
  have h4 : A * u ≤ ((2 * k + 6) * u * T + 2 * k * e) * u := mul_le_mul_of_nonneg_right hr hu0
  have h5 : B * u ≤ (4 * u * x2 + e) * u := mul_le_mul_of_nonneg_right hs hu0
  have h6 : (2 * (k : ℚ) + 6) * u * u * T ≤ u * T := by
    have : (2 * (k : ℚ) + 6) * u ≤ 1 := by nlinarith
    have := mul_le_mul_of_nonneg_right this (mul_nonneg hu0 hT)
    linarith
  have h7 : (2 * (k : ℚ) + 1) * u * e ≤ e := by
    have : (2 * (k : ℚ) + 1) * u ≤ 1 := by nlinarith
    have := mul_le_mul_of_nonneg_right this he
    linarith
  have h8 : 4 * u * u * x2 ≤ u * x2 := by
    have : 4 * u ≤ 1 := by linarith
    have := mul_le_mul_of_nonneg_right this (mul_nonneg hu0 hx)
    linarith
  have h9 : 0 ≤ (2 * (k : ℚ) + 2) * u * x2 := by positivity
  nlinarith

theorem round_nonneg {x r u : ℚ} (hx : 0 ≤ x) (hu : u ≤ 1) (h : |r - x| ≤ |x| * u) : 0 ≤ r := by
  rw [abs_of_nonneg hx] at h
  have := (abs_le.1 h).1
  nlinarith

theorem euclid_err {o : FOps F32 F64} (hA : Accurate o) : ∀ (a b : List F32) (r : F32) (k : ℕ) (T : ℚ),
    (∀ x ∈ a, finite32 x) → (∀ x ∈ b, finite32 x) → finite32 r → 0 ≤ binary32 r → 0 ≤ T →
    k + min a.length b.length ≤ 2^20 → T + dist2 a b ≤ 2^125 →
    |binary32 r - T| ≤ (2 * k + 6) * (1 / 2^24) * T + 2 * k * (1 / 2^149) →
    finite32 (euclideanLoop o r a b) ∧ 0 ≤ binary32 (euclideanLoop o r a b) ∧
    |binary32 (euclideanLoop o r a b) - (T + dist2 a b)| ≤
      (2 * ((k + min a.length b.length : ℕ) : ℚ) + 6) * (1 / 2^24) * (T + dist2 a b) +
      2 * ((k + min a.length b.length : ℕ) : ℚ) * (1 / 2^149)
  | [], b, r, k, T, _, _, hr, h0, _, _, _, he => by
    refine ⟨by simpa [euclideanLoop] using hr, by simpa [euclideanLoop] using h0, ?_⟩
    simpa [euclideanLoop, dist2] using he
  | a :: as, [], r, k, T, _, _, hr, h0, _, _, _, he => by
    refine ⟨by simpa [euclideanLoop] using hr, by simpa [euclideanLoop] using h0, ?_⟩
    simpa [euclideanLoop, dist2] using he
  | a :: as, b :: bs, r, k, T, ha, hb, hr, h0, hT, hk, hbig, he => by
    have hd0 := dist2_nonneg as bs
    simp only [dist2] at hbig ⊢
    simp only [List.length_cons] at hk ⊢
    have hmin : min (as.length + 1) (bs.length + 1) = min as.length bs.length + 1 := by omega
    rw [hmin] at hk ⊢
    have hx2 : 0 ≤ (binary32 a - binary32 b)^2 := by positivity
    have hxb : |binary32 a - binary32 b| ≤ 2^63 := by
      apply abs_le_of_sq_le_sq _ (by positivity)
      have : ((2 : ℚ)^63)^2 = 2^126 := by norm_num
      rw [this]
      have : (2 : ℚ)^125 ≤ 2^126 := by norm_num
      linarith
    obtain ⟨hdf, hde⟩ := hA.sub a b (ha a List.mem_cons_self) (hb b List.mem_cons_self)
      (le_trans hxb (by norm_num))
    have hde' : |binary32 (o.sub a b) - (binary32 a - binary32 b)| ≤ |binary32 a - binary32 b| * (1 / 2^24) := by
      rw [mul_one_div]; exact hde
    have hdd : binary32 (o.sub a b) * binary32 (o.sub a b) ≤ 2 * (binary32 a - binary32 b)^2 := by
      refine (comp_err (s := binary32 (o.sub a b) * binary32 (o.sub a b)) (e := 0) (u := 1 / 2^24) (by positivity) (by norm_num) hde' ?_).2
      simp only [sub_self, abs_zero, add_zero]
      have := mul_self_nonneg (binary32 (o.sub a b))
      positivity
    obtain ⟨hsf, hs0, -, hse⟩ := hA.sq (o.sub a b) hdf (by
      have : (2 : ℚ) * 2^125 ≤ 3 * 2^126 := by norm_num
      linarith)
    obtain ⟨hcomp, -⟩ := comp_err (e := 1 / 2^149) (u := 1 / 2^24) (by positivity) (by norm_num) hde' (by
      rw [mul_one_div]; exact hse)
    generalize hx : binary32 a - binary32 b = x at *
    have hk' : (2 * (k : ℚ) + 8) * (1 / 2^24) ≤ 1 := by
      have : (k : ℚ) ≤ 1048576 := by exact_mod_cast (show k ≤ 1048576 by omega)
      rw [mul_one_div, div_le_one (by positivity)]
      norm_num
      linarith
    have hsum0 : 0 ≤ binary32 r + binary32 (o.sq (o.sub a b)) := by linarith
    have hsum : |binary32 r + binary32 (o.sq (o.sub a b))| ≤ 3 * 2^126 := by
      rw [abs_of_nonneg hsum0]
      have h1 := (abs_le.1 he).2
      have h2 := (abs_le.1 hcomp).2
      have h3 : (2 * (k : ℚ) + 6) * (1 / 2^24) * T ≤ 1 * T := mul_le_mul_of_nonneg_right (by
        refine le_trans ?_ hk'
        exact mul_le_mul_of_nonneg_right (by linarith) (by positivity)) hT
      have h4 : 2 * (k : ℚ) * (1 / 2^149) ≤ 1 := by
        have : (k : ℚ) ≤ 1048576 := by exact_mod_cast (show k ≤ 1048576 by omega)
        rw [mul_one_div, div_le_one (by positivity)]
        norm_num
        linarith
      have h5 : 4 * (1 / (2 : ℚ)^24) * x^2 ≤ x^2 := by
        have : 4 * (1 / (2 : ℚ)^24) ≤ 1 := by norm_num
        nlinarith
      have h6 : (1 : ℚ) / 2^149 ≤ 1 := by norm_num
      have h7 : (4 : ℚ) * 2^125 ≤ 3 * 2^126 - 2 := by norm_num
      linarith
    obtain ⟨hrf, hre⟩ := hA.add r (o.sq (o.sub a b)) hr hsf hsum
    have hre' : |binary32 (o.add r (o.sq (o.sub a b))) - (binary32 r + binary32 (o.sq (o.sub a b)))| ≤
        |binary32 r + binary32 (o.sq (o.sub a b))| * (1 / 2^24) := by rw [mul_one_div]; exact hre
    have hstep := sum_step (k := k) (by positivity) hk' (by positivity) hT hx2 he hcomp hre'
    obtain ⟨g1, g2, g3⟩ := euclid_err hA as bs (o.add r (o.sq (o.sub a b))) (k + 1) (T + x^2)
      (fun y hy => ha y (List.mem_cons_of_mem _ hy)) (fun y hy => hb y (List.mem_cons_of_mem _ hy)) hrf
      (round_nonneg hsum0 (by norm_num) hre') (by linarith) (by omega) (by linarith) hstep
    rw [show k + 1 + min as.length bs.length = k + (min as.length bs.length + 1) by omega, add_assoc] at g3
    exact ⟨g1, g2, g3⟩

/-- Equal vectors. -/
theorem euclid_zero {o : FOps F32 F64} (hA : Accurate o) : ∀ (a b : List F32) (r : F32),
    (∀ x ∈ a, finite32 x) → (∀ x ∈ b, finite32 x) → finite32 r → binary32 r = 0 → dist2 a b = 0 →
    finite32 (euclideanLoop o r a b) ∧ binary32 (euclideanLoop o r a b) = 0
  | [], b, r, _, _, hr, h0, _ => by simpa [euclideanLoop] using ⟨hr, h0⟩
  | a :: as, [], r, _, _, hr, h0, _ => by simpa [euclideanLoop] using ⟨hr, h0⟩
  | a :: as, b :: bs, r, ha, hb, hr, h0, hd => by
    have hd0 := dist2_nonneg as bs
    simp only [dist2] at hd
    have hx2 : 0 ≤ (binary32 a - binary32 b)^2 := by positivity
    have hx : binary32 a - binary32 b = 0 := by
      have : (binary32 a - binary32 b)^2 = 0 := by linarith
      simpa using this
    obtain ⟨hdf, hde⟩ := hA.sub a b (ha a List.mem_cons_self) (hb b List.mem_cons_self) (by rw [hx]; norm_num)
    rw [hx] at hde
    have hs : binary32 (o.sub a b) = 0 := by simpa using hde
    obtain ⟨hsf, -, hs0, -⟩ := hA.sq (o.sub a b) hdf (by rw [hs]; norm_num)
    obtain ⟨hrf, hre⟩ := hA.add r (o.sq (o.sub a b)) hr hsf (by rw [h0, hs0 hs]; norm_num)
    rw [h0, hs0 hs] at hre
    refine euclid_zero hA as bs _ (fun y hy => ha y (List.mem_cons_of_mem _ hy)) (fun y hy => hb y (List.mem_cons_of_mem _ hy))
      hrf (by simpa using hre) (by rw [hx] at hd; linarith)

/-- The square root at the end. -/
theorem root_err {R T D v c e : ℚ} (hv0 : 0 ≤ v) (hv1 : v ≤ 1 / 4) (_hR : 0 ≤ R)
    (hd1 : (1 - v)^2 * R ≤ D) (hd2 : D ≤ (1 + v)^2 * R) (he : |R - T| ≤ c * T + e) :
    |D - T| ≤ (c + 3 * v * (1 + c)) * T + (1 + 3 * v) * e := by
  have h1 := abs_le.1 he
  have h2 : (1 + v)^2 * R ≤ R + 3 * v * R := by nlinarith
  have h3 : R - 3 * v * R ≤ (1 - v)^2 * R := by nlinarith
  have h4 : v * R ≤ v * (T + (c * T + e)) := mul_le_mul_of_nonneg_left (by linarith) hv0
  rw [abs_le]
  constructor <;> nlinarith

end Vec

open Vec Ref

/-- C134, the error of the distance of two vectors: if it is not too large, the square of the result differs from the square of
the true distance by at most a share of `(2n + 8) / 2^24` and `3n / 2^149` (`n` components). -/
theorem C134_distance_error_partial {o : FOps F32 F64} (hA : Accurate o) (a b : List F32)
    (ha : ∀ x ∈ a, finite32 x) (hb : ∀ x ∈ b, finite32 x) (hn : min a.length b.length ≤ 2^20) (hbig : dist2 a b ≤ 2^125) :
    finite64 (vectorDistance o a b) ∧ 0 ≤ binary64 (vectorDistance o a b) ∧
    |binary64 (vectorDistance o a b)^2 - dist2 a b| ≤
      (2 * (min a.length b.length : ℕ) + 8) / 2^24 * dist2 a b + 3 * (min a.length b.length : ℕ) / 2^149 := by
  rw [vectorDistance_eq]
  obtain ⟨z1, z2⟩ := hA.zero
  obtain ⟨g1, g2, g3⟩ := euclid_err hA a b o.zero 0 0 ha hb z1 (by rw [z2]) (le_refl _) (by omega) (by linarith) (by rw [z2]; simp)
  rw [zero_add, Nat.zero_add] at g3
  obtain ⟨w1, w2⟩ := hA.widen _ g1
  obtain ⟨s1, s2, s3, s4⟩ := hA.sqrtD _ w1 (by rw [w2]; exact g2)
  rw [w2] at s3 s4
  refine ⟨s1, s2, ?_⟩
  have hroot := root_err (by positivity) (by norm_num) g2 s3 s4 g3
  have hd0 := dist2_nonneg a b
  have hn' : ((min a.length b.length : ℕ) : ℚ) ≤ 2^20 := by exact_mod_cast hn
  have hn0 : (0 : ℚ) ≤ ((min a.length b.length : ℕ) : ℚ) := by positivity
  generalize ((min a.length b.length : ℕ) : ℚ) = n at *
  refine le_trans hroot (add_le_add ?_ ?_)
  · refine mul_le_mul_of_nonneg_right ?_ hd0
    have : (2 * n + 6) * (1 / 2^24) ≤ 1 := by
      rw [mul_one_div, div_le_one (by positivity)]; norm_num at hn' ⊢; linarith
    have h2 : 3 * (1 / (2 : ℚ)^53) * (1 + (2 * n + 6) * (1 / 2^24)) ≤ 3 * (1 / 2^53) * 2 :=
      mul_le_mul_of_nonneg_left (by linarith) (by positivity)
    have h3 : 3 * (1 / (2 : ℚ)^53) * 2 ≤ 1 / 2^24 := by norm_num
    have h4 : (2 * n + 8) / (2 : ℚ)^24 = (2 * n + 6) * (1 / 2^24) + 2 * (1 / 2^24) := by ring
    have h5 : (0 : ℚ) < 1 / 2^24 := by positivity
    linarith
  · have h1 : (1 + 3 * (1 / (2 : ℚ)^53)) * 2 ≤ 3 := by norm_num
    have h2 : (0 : ℚ) ≤ n * (1 / 2^149) := by positivity
    have := mul_le_mul_of_nonneg_right h1 h2
    calc (1 + 3 * (1 / (2 : ℚ)^53)) * (2 * n * (1 / 2^149)) = (1 + 3 * (1 / 2^53)) * 2 * (n * (1 / 2^149)) := by ring
      _ ≤ 3 * (n * (1 / 2^149)) := this
      _ = 3 * n / 2^149 := by ring

/-- C134, full statement: the distance of two vectors of finite numbers with up to 2^16 components is a number within one per cent
of the true one.  FALSE of the code. -/
def C134_distance_accurate_statement : Prop :=
  ∀ o : FOps F32 F64, Accurate o → ∀ a b : List F32, (∀ x ∈ a, finite32 x) → (∀ x ∈ b, finite32 x) →
    min a.length b.length ≤ 2^16 →
    finite64 (vectorDistance o a b) ∧ 0 ≤ binary64 (vectorDistance o a b) ∧
    (99 / 100)^2 * dist2 a b ≤ binary64 (vectorDistance o a b)^2 ∧
    binary64 (vectorDistance o a b)^2 ≤ (101 / 100)^2 * dist2 a b

/-- C134, partial: it is within one per cent if the true distance is zero or between 2^-60 and 2^62. -/
theorem C134_distance_accurate_partial {o : FOps F32 F64} (hA : Accurate o) (a b : List F32)
    (ha : ∀ x ∈ a, finite32 x) (hb : ∀ x ∈ b, finite32 x) (hn : min a.length b.length ≤ 2^16)
    (hd : dist2 a b = 0 ∨ (2^60)⁻¹^2 ≤ dist2 a b ∧ dist2 a b ≤ (2^62)^2) :
    finite64 (vectorDistance o a b) ∧ 0 ≤ binary64 (vectorDistance o a b) ∧
    (99 / 100)^2 * dist2 a b ≤ binary64 (vectorDistance o a b)^2 ∧
    binary64 (vectorDistance o a b)^2 ≤ (101 / 100)^2 * dist2 a b := by
  rcases hd with h0 | ⟨hlo, hhi⟩
  · obtain ⟨z1, z2⟩ := hA.zero
    obtain ⟨g1, g2⟩ := euclid_zero hA a b o.zero ha hb z1 z2 h0
    obtain ⟨w1, w2⟩ := hA.widen _ g1
    rw [g2] at w2
    obtain ⟨s1, s2, s3, s4⟩ := hA.sqrtD _ w1 (by rw [w2])
    rw [vectorDistance_eq, h0]
    rw [w2] at s3 s4
    refine ⟨s1, s2, by simpa using s3, by simpa using s4⟩
  · obtain ⟨h1, h2, h3⟩ := C134_distance_error_partial hA a b ha hb (by omega) (le_trans hhi (by norm_num))
    have hn' : ((min a.length b.length : ℕ) : ℚ) ≤ 65536 := by exact_mod_cast (show min a.length b.length ≤ 65536 by omega)
    generalize ((min a.length b.length : ℕ) : ℚ) = n at *
    have hd0 := dist2_nonneg a b
    generalize dist2 a b = T at *
    have h4 : (2 * n + 8) / 2^24 * T ≤ 1 / 100 * T := by
      refine mul_le_mul_of_nonneg_right ?_ hd0
      rw [div_le_iff₀ (by positivity)]; norm_num; linarith
    have h5 : 3 * n / (2 : ℚ)^149 ≤ 1 / 1000 * T := by
      have e : (1 : ℚ) / 1000 * (2^60)⁻¹^2 ≤ 1 / 1000 * T := by linarith
      refine le_trans ?_ e
      rw [div_le_iff₀ (by positivity)]
      norm_num; linarith
    obtain ⟨h6, h7⟩ := abs_le.1 h3
    exact ⟨h1, h2, by linarith, by linarith⟩

namespace SF

/-- Neither negative nor a NaN: a running sum of squares. -/
def Up (x : F32) : Prop := (un32 x).neg = false ∧ (un32 x).mag ≤ f32.inf

theorem up_zero : Up 0 := by unfold Up; decide

theorem un_sq (acos : F64 → F64) (x : F32) : un32 ((ops acos).sq x) = mulN f32 (un32 x) (un32 x) :=
  un_pk32 _ (mulN_mag_lt _ _)

theorem un_add (acos : F64 → F64) (x y : F32) : un32 ((ops acos).add x y) = addN f32 (un32 x) (un32 y) :=
  un_pk32 _ (addN_mag_lt _ _ (un32_mag_lt _) (un32_mag_lt _))

theorem un_sub (acos : F64 → F64) (x y : F32) : un32 ((ops acos).sub x y) = subN f32 (un32 x) (un32 y) :=
  un_pk32 _ (subN_mag_lt _ _ (un32_mag_lt _) (un32_mag_lt _))

/-- The difference of finite numbers is not a NaN. -/
theorem sub_le_inf (acos : F64 → F64) {a b : F32} (ha : Fin32 a) (hb : Fin32 b) : (un32 ((ops acos).sub a b)).mag ≤ f32.inf := by
  rw [un_sub]
  obtain ⟨a1, a2⟩ := not_special ha
  obtain ⟨b1, b2⟩ := not_special (a := negN (un32 b)) hb
  unfold subN addN
  simp only [a1, a2, b1, b2, Bool.or_self, Bool.false_eq_true, if_false]
  split
  · show 0 ≤ f32.inf; omega
  · exact roundRat_le _ _ _

theorem sq_up (acos : F64 → F64) {x : F32} (h : (un32 x).mag ≤ f32.inf) : Up ((ops acos).sq x) := by
  unfold Up
  rw [un_sq]
  unfold mulN Num.isNaN Num.isInf
  have hi : f32.inf ≠ 0 := by decide
  rw [if_neg (by simp; omega)]
  split
  · rename_i hh
    have : (un32 x).mag = f32.inf := by simpa using hh
    rw [if_neg (by simp; omega)]
    simp
  · exact ⟨by simp, roundRat_le _ _ _⟩

theorem add_up (acos : F64 → F64) {x y : F32} (hx : Up x) (hy : Up y) : Up ((ops acos).add x y) := by
  unfold Up at *
  rw [un_add]
  generalize un32 x = a at *
  generalize un32 y = b at *
  unfold addN
  have a1 : a.isNaN f32 = false := by simp [Num.isNaN]; omega
  have b1 : b.isNaN f32 = false := by simp [Num.isNaN]; omega
  simp only [a1, b1, Bool.or_self, Bool.false_eq_true, if_false]
  split
  · rw [if_neg (by simp [hx.1, hy.1])]; exact hx
  · split
    · exact hy
    · split
      · exact ⟨by simp [hx.1], Nat.zero_le _⟩
      · refine ⟨?_, roundRat_le _ _ _⟩
        simp only [decide_eq_false_iff_not, not_lt]
        unfold Num.sval
        rw [hx.1, hy.1]
        simp only [Bool.false_eq_true, if_false]
        omega

/-- Once infinite, always infinite. -/
theorem add_inf (acos : F64 → F64) {x y : F32} (hx : Up x) (hy : Up y)
    (h : (un32 x).mag = f32.inf ∨ (un32 y).mag = f32.inf) : (un32 ((ops acos).add x y)).mag = f32.inf := by
  unfold Up at *
  rw [un_add]
  generalize un32 x = a at *
  generalize un32 y = b at *
  unfold addN
  have a1 : a.isNaN f32 = false := by simp [Num.isNaN]; omega
  have b1 : b.isNaN f32 = false := by simp [Num.isNaN]; omega
  simp only [a1, b1, Bool.or_self, Bool.false_eq_true, if_false]
  by_cases ha : a.isInf f32 = true
  · rw [if_pos ha, if_neg (by simp [hx.1, hy.1])]; simpa [Num.isInf] using ha
  · rw [if_neg ha]
    have hb : b.isInf f32 = true := by
      simp only [Num.isInf, decide_eq_true_eq] at ha ⊢
      rcases h with h | h
      · exact absurd h ha
      · exact h
    rw [if_pos hb]; simpa [Num.isInf] using hb

/-- A difference of 2^64 or more has an infinite square. -/
theorem sq_sub_inf (acos : F64 → F64) {a b : F32} (ha : Fin32 a) (hb : Fin32 b)
    (h : 2^64 ≤ |binary32 a - binary32 b|) : (un32 ((ops acos).sq ((ops acos).sub a b))).mag = f32.inf := by
  have hle := sub_le_inf acos ha hb
  -- the difference is not smaller than 2^64
  have hbig : 0x5F800000 ≤ (un32 ((ops acos).sub a b)).mag := by
    rw [un_sub]
    obtain ⟨a1, a2⟩ := not_special ha
    obtain ⟨b1, b2⟩ := not_special (a := negN (un32 b)) hb
    unfold subN addN
    simp only [a1, a2, b1, b2, Bool.or_self, Bool.false_eq_true, if_false]
    have hs : binary32 a - binary32 b = (((un32 a).sval f32 + (negN (un32 b)).sval f32 : Int) : ℚ) / 2^149 := by
      rw [binary32_eq, binary32_eq, sval_neg]; unfold sv; push_cast; ring
    rw [hs, abs_div, abs_of_pos (show (0 : ℚ) < 2^149 by positivity), le_div_iff₀ (by positivity)] at h
    generalize (un32 a).sval f32 + (negN (un32 b)).sval f32 = s at *
    have habs : |(s : ℚ)| = (s.natAbs : ℚ) := by rw [Nat.cast_natAbs, Int.cast_abs]
    rw [habs] at h
    have h2 : val f32 0x5F800000 ≤ s.natAbs := by
      have e : val f32 0x5F800000 = 2^213 := by decide +kernel
      rw [e]
      have e2 : (2 : ℚ)^64 * 2^149 = ((2^213 : ℕ) : ℚ) := by norm_num
      rw [e2] at h
      exact_mod_cast h
    have hne : s ≠ 0 := by
      intro h0
      rw [h0] at h2
      have e : val f32 0x5F800000 ≠ 0 := val_pos (by decide)
      simp at h2
      omega
    rw [if_neg hne]
    exact le_roundRat (by omega) (by rw [Nat.one_mul]; exact h2) (by decide)
  rw [un_sq]
  generalize un32 ((ops acos).sub a b) = d at *
  unfold mulN
  have d1 : d.isNaN f32 = false := by simp [Num.isNaN]; omega
  simp only [d1, Bool.or_self, Bool.false_eq_true, if_false]
  split
  · rw [if_neg (by simp; omega)]
  · refine Nat.le_antisymm (roundRat_le _ _ _) ?_
    refine le_roundRat (Nat.two_pow_pos _) ?_ (le_refl _)
    have h1 : val f32 0x5F800000 ≤ val f32 d.mag := val_le hbig
    refine Nat.le_trans ?_ (Nat.mul_le_mul h1 h1)
    decide +kernel

/-- A difference of less than 2^-75 has the square zero. -/
theorem sq_sub_zero (acos : F64 → F64) {a b : F32} (ha : Fin32 a) (hb : Fin32 b)
    (h : |binary32 a - binary32 b| ≤ (2^75)⁻¹) : (un32 ((ops acos).sq ((ops acos).sub a b))).mag = 0 := by
  have hmag : (un32 ((ops acos).sub a b)).mag ≤ 0x1A000000 := by
    rw [un_sub]
    obtain ⟨a1, a2⟩ := not_special ha
    obtain ⟨b1, b2⟩ := not_special (a := negN (un32 b)) hb
    unfold subN addN
    simp only [a1, a2, b1, b2, Bool.or_self, Bool.false_eq_true, if_false]
    have hs : binary32 a - binary32 b = (((un32 a).sval f32 + (negN (un32 b)).sval f32 : Int) : ℚ) / 2^149 := by
      rw [binary32_eq, binary32_eq, sval_neg]; unfold sv; push_cast; ring
    rw [hs, abs_div, abs_of_pos (show (0 : ℚ) < 2^149 by positivity), div_le_iff₀ (by positivity)] at h
    generalize (un32 a).sval f32 + (negN (un32 b)).sval f32 = s at *
    have habs : |(s : ℚ)| = (s.natAbs : ℚ) := by rw [Nat.cast_natAbs, Int.cast_abs]
    rw [habs] at h
    split
    · show 0 ≤ _; omega
    · refine roundRat_le_of (by omega) ?_
      rw [Nat.one_mul]
      have e : val f32 0x1A000000 = 2^74 := by decide +kernel
      rw [e]
      have e2 : ((2 : ℚ)^75)⁻¹ * 2^149 = ((2^74 : ℕ) : ℚ) := by norm_num
      rw [e2] at h
      exact_mod_cast h
  rw [un_sq]
  generalize un32 ((ops acos).sub a b) = d at *
  have hi := inf32
  obtain ⟨d1, d2⟩ := not_special (f := f32) (a := d) (by omega)
  unfold mulN
  simp only [d1, d2, Bool.or_self, Bool.false_eq_true, if_false]
  have hv : val f32 d.mag ≤ 2^74 := by
    have e : val f32 0x1A000000 = 2^74 := by decide +kernel
    rw [← e]; exact val_le hmag
  have hp : val f32 d.mag * val f32 d.mag ≤ 2^148 := by
    have := Nat.mul_le_mul hv hv
    rwa [← Nat.pow_add] at this
  have h0 := roundRat_mono (f := f32) (q := 2^f32.unit) hp
  have e : roundRat f32 (2^148) (2^f32.unit) = 0 := by decide +kernel
  omega

theorem euclid_inf (acos : F64 → F64) : ∀ (a b : List F32) (r : F32), (∀ x ∈ a, Fin32 x) → (∀ x ∈ b, Fin32 x) → Up r →
    ((un32 r).mag = f32.inf ∨ ∃ p ∈ a.zip b, 2^64 ≤ |binary32 p.1 - binary32 p.2|) →
    un32 (euclideanLoop (ops acos) r a b) = ⟨false, f32.inf⟩
  | [], b, r, _, _, hr, h => by
    simp only [List.zip_nil_left, List.not_mem_nil, false_and, exists_false, or_false] at h
    have e : (un32 r) = ⟨(un32 r).neg, (un32 r).mag⟩ := rfl
    rw [hr.1, h] at e
    simpa [euclideanLoop] using e
  | a :: as, [], r, _, _, hr, h => by
    simp only [List.zip_nil_right, List.not_mem_nil, false_and, exists_false, or_false] at h
    have e : (un32 r) = ⟨(un32 r).neg, (un32 r).mag⟩ := rfl
    rw [hr.1, h] at e
    simpa [euclideanLoop] using e
  | a :: as, b :: bs, r, ha, hb, hr, h => by
    have hfa := ha a List.mem_cons_self
    have hfb := hb b List.mem_cons_self
    have hsq := sq_up acos (sub_le_inf acos hfa hfb)
    refine euclid_inf acos as bs ((ops acos).add r ((ops acos).sq ((ops acos).sub a b)))
      (fun y hy => ha y (List.mem_cons_of_mem _ hy)) (fun y hy => hb y (List.mem_cons_of_mem _ hy)) (add_up acos hr hsq) ?_
    rcases h with h | ⟨p, hp, h⟩
    · exact Or.inl (add_inf acos hr hsq (Or.inl h))
    · rw [List.zip_cons_cons, List.mem_cons] at hp
      rcases hp with rfl | hp
      · exact Or.inl (add_inf acos hr hsq (Or.inr (sq_sub_inf acos hfa hfb h)))
      · exact Or.inr ⟨p, hp, h⟩

theorem euclid_vanish (acos : F64 → F64) : ∀ (a b : List F32) (r : F32), (∀ x ∈ a, Fin32 x) → (∀ x ∈ b, Fin32 x) → r = 0 →
    (∀ p ∈ a.zip b, |binary32 p.1 - binary32 p.2| ≤ (2^75)⁻¹) → euclideanLoop (ops acos) r a b = 0
  | [], b, r, _, _, hr, h => by simpa [euclideanLoop] using hr
  | a :: as, [], r, _, _, hr, h => by simpa [euclideanLoop] using hr
  | a :: as, b :: bs, r, ha, hb, hr, h => by
    have hfa := ha a List.mem_cons_self
    have hfb := hb b List.mem_cons_self
    have hsq := (sq_up acos (sub_le_inf acos hfa hfb)).1
    have h0 := sq_sub_zero acos hfa hfb (h (a, b) (by simp))
    refine euclid_vanish acos as bs _ (fun y hy => ha y (List.mem_cons_of_mem _ hy)) (fun y hy => hb y (List.mem_cons_of_mem _ hy)) ?_
      (fun p hp => h p (by rw [List.zip_cons_cons]; exact List.mem_cons_of_mem _ hp))
    have e : un32 ((ops acos).sq ((ops acos).sub a b)) = ⟨false, 0⟩ := by rw [← hsq, ← h0]
    have e2 : (ops acos).sq ((ops acos).sub a b) = 0 := by rw [← pk_un32 ((ops acos).sq ((ops acos).sub a b)), e]; rfl
    rw [e2, hr]
    show pk32 (addN f32 (un32 0) (un32 0)) = 0
    decide

end SF

/-- C134: vectors of finite numbers that differ by 2^64 or more in some component are at an infinite distance. -/
theorem C134_infinite (acos : F64 → F64) (a b : List F32) (ha : ∀ x ∈ a, finite32 x) (hb : ∀ x ∈ b, finite32 x)
    (h : ∃ p ∈ a.zip b, 2^64 ≤ |binary32 p.1 - binary32 p.2|) :
    vectorDistance (SF.ops acos) a b = 0x7FF0000000000000 := by
  rw [vectorDistance_eq]
  have e := SF.euclid_inf acos a b 0 (fun x hx => (SF.finite_iff x).1 (ha x hx)) (fun x hx => (SF.finite_iff x).1 (hb x hx))
    SF.up_zero (Or.inr h)
  have e2 : euclideanLoop (SF.ops acos) 0 a b = 0x7F800000 := by
    rw [← SF.pk_un32 (euclideanLoop (SF.ops acos) 0 a b), e]; decide
  show (SF.ops acos).sqrtD ((SF.ops acos).widen (euclideanLoop (SF.ops acos) 0 a b)) = _
  rw [e2]
  show SF.pk64 (SF.sqrtN SF.f64 (SF.un64 (SF.pk64 (SF.widenN (SF.un32 0x7F800000))))) = _
  decide +kernel

/-- C134: vectors that differ by at most 2^-75 in every component are at distance zero, however many components there are. -/
theorem C134_vanishes (acos : F64 → F64) (a b : List F32) (ha : ∀ x ∈ a, finite32 x) (hb : ∀ x ∈ b, finite32 x)
    (h : ∀ p ∈ a.zip b, |binary32 p.1 - binary32 p.2| ≤ (2^75)⁻¹) : vectorDistance (SF.ops acos) a b = 0 := by
  rw [vectorDistance_eq]
  have e := SF.euclid_vanish acos a b 0 (fun x hx => (SF.finite_iff x).1 (ha x hx)) (fun x hx => (SF.finite_iff x).1 (hb x hx)) rfl h
  show (SF.ops acos).sqrtD ((SF.ops acos).widen (euclideanLoop (SF.ops acos) 0 a b)) = _
  rw [e]
  show SF.pk64 (SF.sqrtN SF.f64 (SF.un64 (SF.pk64 (SF.widenN (SF.un32 0))))) = _
  decide +kernel

/-- C134, counterexample: 2^-80 and 0 are at distance zero. -/
theorem C134_distance_accurate_fails : ¬ C134_distance_accurate_statement := by
  intro h
  have hv : binary32 0x17800000 = (2^80)⁻¹ := by decide +kernel
  have h0 : binary32 0 = 0 := by decide +kernel
  have ha : ∀ x ∈ [(0x17800000 : F32)], finite32 x := by unfold finite32; decide
  have hb : ∀ x ∈ [(0 : F32)], finite32 x := by unfold finite32; decide
  have hz := C134_vanishes id [0x17800000] [0] ha hb (by
    intro p hp
    simp only [List.zip_cons_cons, List.zip_nil_right, List.mem_singleton] at hp
    subst hp
    simp only [hv, h0]
    norm_num)
  have := (h (SF.ops id) (SF.accurate id) [0x17800000] [0] ha hb (by decide)).2.2.1
  rw [hz, show binary64 0 = 0 by decide +kernel] at this
  simp only [dist2, hv, h0] at this
  norm_num at this

/-- C134: a 3-4-5 triangle meets the hypotheses; 2^64 and 0, all numbers finite, are at an infinite distance. -/
theorem C134_example :
    dist2 [0, 0x40400000] [0x40800000, 0] = 25 ∧
    vectorDistance (SF.ops id) [0, 0x40400000] [0x40800000, 0] = 0x4014000000000000 ∧ binary64 0x4014000000000000 = 5 ∧
    vectorDistance (SF.ops id) [0x5F800000] [0] = 0x7FF0000000000000 := by
  refine ⟨?_, by decide +kernel, by decide +kernel, by decide +kernel⟩
  have h3 : binary32 0x40400000 = 3 := by decide +kernel
  have h4 : binary32 0x40800000 = 4 := by decide +kernel
  have h0 : binary32 0 = 0 := by decide +kernel
  simp only [dist2, h3, h4, h0]
  norm_num

end Veri
