import Verif.Vector.Rounding
/-
How far a rounded result is from the exact one: relative error `2^-(mb+1)`, or half of the least positive number.
-/
set_option autoImplicit false
namespace Veri.SF
set_option exponentiation.threshold 4000

variable {f : Fmt}

/-- The gap between a number and the next one. -/
theorem gap (n : Nat) : 2^f.mb * val f (n + 1) ≤ 2^f.mb * val f n + max (val f n) (2^f.mb) := by
  have hp : 0 < 2^f.mb := Nat.two_pow_pos _
  unfold val
  by_cases h : n + 1 < 2^f.mb
  · rw [if_pos h, if_pos (show n < 2^f.mb by omega), Nat.mul_add]; omega
  · by_cases h2 : n < 2^f.mb
    · rw [if_pos h2, if_neg h]
      have : n + 1 = 2^f.mb := by omega
      rw [this, Nat.mod_self, Nat.div_self hp]
      have h3 : 2^f.mb * (2^f.mb) = 2^f.mb * n + 2^f.mb := by rw [← Nat.mul_succ]; congr 1; omega
      simp only [Nat.add_zero, Nat.sub_self, Nat.pow_zero, Nat.mul_one]
      omega
    · rw [if_neg h2, if_neg h]
      have hE : 1 ≤ n / 2^f.mb := (Nat.one_le_div_iff hp).2 (by omega)
      have hF : n % 2^f.mb < 2^f.mb := Nat.mod_lt _ hp
      have hdm := Nat.div_add_mod n (2^f.mb)
      have key : val f (n + 1) = (2^f.mb + n % 2^f.mb + 1) * 2^(n / 2^f.mb - 1) := by
        unfold val
        rw [if_neg h]
        by_cases hc : n % 2^f.mb + 1 < 2^f.mb
        · have e : n + 1 = 2^f.mb * (n / 2^f.mb) + (n % 2^f.mb + 1) := by omega
          rw [e, Nat.mul_add_mod, Nat.mod_eq_of_lt hc, Nat.mul_add_div hp, Nat.div_eq_of_lt hc, Nat.add_assoc]
          rfl
        · have e : n + 1 = 2^f.mb * (n / 2^f.mb + 1) := by rw [Nat.mul_add]; omega
          rw [e, Nat.mul_mod_right, Nat.mul_div_cancel_left _ hp, Nat.add_zero]
          have : 2^(n / 2^f.mb + 1 - 1) = 2 * 2^(n / 2^f.mb - 1) := by
            rw [← Nat.pow_succ']; congr 1; omega
          rw [this, ← Nat.mul_assoc]
          congr 1; omega
      have k2 := key
      unfold val at k2
      rw [if_neg h] at k2
      rw [k2]
      generalize 2^(n / 2^f.mb - 1) = c at *
      generalize n % 2^f.mb = F at *
      have : 2^f.mb * ((2^f.mb + F + 1) * c) = 2^f.mb * ((2^f.mb + F) * c) + 2^f.mb * c := by
        rw [Nat.succ_mul, Nat.mul_add]
      have h4 : 2^f.mb * c ≤ (2^f.mb + F) * c := Nat.mul_le_mul_right _ (by omega)
      omega

/-- The error of rounding `p / q` (in units), multiplied by `2^(mb+1) q`. -/
theorem roundRat_err {p q : Nat} (hq : 0 < q) (hr : roundRat f p q < f.inf) :
    2^(f.mb + 1) * ((q * val f (roundRat f p q) : Nat) - (p : Int)).natAbs ≤ max p (q * 2^f.mb) := by
  have hs := floorPat_spec (f := f) (p / q)
  have hlo : q * val f (floorPat f (p / q)) ≤ p := by
    have := Nat.mul_le_mul_left q hs.1
    exact Nat.le_trans this (Nat.mul_div_le p q)
  have hhi : p < q * val f (floorPat f (p / q) + 1) := by
    have h1 := (Nat.div_lt_iff_lt_mul hq).1 hs.2
    rwa [Nat.mul_comm]
  unfold roundRat at hr ⊢
  simp only at hr ⊢
  generalize floorPat f (p / q) = n at *
  have hg : 2^f.mb * (q * val f (n + 1)) ≤ 2^f.mb * (q * val f n) + max (q * val f n) (q * 2^f.mb) := by
    have h1 := Nat.mul_le_mul_left q (gap (f := f) n)
    rw [Nat.mul_add, ← Nat.mul_max_mul_left] at h1
    rwa [Nat.mul_left_comm, Nat.mul_left_comm (2^f.mb) q]
  have hsum : q * (val f n + val f (n + 1)) = q * val f n + q * val f (n + 1) := Nat.mul_add ..
  rw [hsum] at hr ⊢
  have hpow : 2^(f.mb + 1) = 2 * 2^f.mb := by rw [Nat.pow_succ, Nat.mul_comm]
  generalize hk : pick f n (compare (2 * p) (q * val f n + q * val f (n + 1))) = k at *
  have hkc : (k = n ∧ 2 * p ≤ q * val f n + q * val f (n + 1)) ∨ (k = n + 1 ∧ q * val f n + q * val f (n + 1) ≤ 2 * p) := by
    unfold pick at hk
    cases hc : compare (2 * p) (q * val f n + q * val f (n + 1)) with
    | lt =>
      rw [hc] at hk; simp only at hk
      rw [Nat.compare_eq_lt] at hc
      left; omega
    | gt =>
      rw [hc] at hk; simp only at hk
      rw [Nat.compare_eq_gt] at hc
      right; omega
    | eq =>
      rw [hc] at hk; simp only at hk
      rw [Nat.compare_eq_eq] at hc
      split at hk
      · left; omega
      · right; omega
  generalize hA : q * val f n = A at *
  generalize hB : q * val f (n + 1) = B at *
  generalize 2^f.mb = P at *
  rw [hpow]
  have hPd : ∀ x : Nat, A + 2 * x ≤ B → 2 * P * x ≤ max p (q * P) := by
    intro x hx
    have h1 : P * (A + 2 * x) ≤ P * B := Nat.mul_le_mul_left _ hx
    rw [Nat.mul_add] at h1
    have h2 : P * (2 * x) = 2 * P * x := by rw [← Nat.mul_assoc, Nat.mul_comm P 2]
    omega
  rcases hkc with ⟨rfl, hc⟩ | ⟨rfl, hc⟩
  · rw [hA]; apply hPd; omega
  · rw [hB]; apply hPd; omega

/-- The exact sum of two numbers is a number of units: the relative error is always at most `2^-(mb+1)`. -/
theorem round_int_err {p : Nat} (hr : roundRat f p 1 < f.inf) :
    2^(f.mb + 1) * ((val f (roundRat f p 1) : Nat) - (p : Int)).natAbs ≤ p := by
  have h := roundRat_err (f := f) (p := p) (q := 1) (by omega) hr
  rw [Nat.one_mul, Nat.one_mul] at h
  by_cases hp : 2^f.mb ≤ p
  · omega
  · have hpow : 2^(f.mb + 1) = 2 * 2^f.mb := by rw [Nat.pow_succ, Nat.mul_comm]
    have hpos : 0 < 2^f.mb := Nat.two_pow_pos _
    generalize ((val f (roundRat f p 1) : Nat) - (p : Int)).natAbs = x at *
    cases x with
    | zero => omega
    | succ x =>
      rw [hpow] at h ⊢
      have : 2 * 2^f.mb * (x + 1) = 2 * 2^f.mb * x + 2 * 2^f.mb := Nat.mul_succ ..
      omega

/-- A float32 that is neither infinite nor not a number. -/
def Fin32 (x : F32) : Prop := (un32 x).mag < f32.inf
/-- Its value in units of `2^-149`. -/
def sv (x : F32) : Int := (un32 x).sval f32

theorem not_special {a : Num} (h : a.mag < f.inf) : a.isNaN f = false ∧ a.isInf f = false := by
  constructor
  · simp [Num.isNaN]; omega
  · simp [Num.isInf]; omega

theorem sval_abs (a : Num) : (a.sval f).natAbs = val f a.mag := by
  unfold Num.sval; split <;> omega

/-- Addition of finite float32 numbers whose sum is not too large. -/
theorem add_err (acos : F64 → F64) {a b : F32} (ha : Fin32 a) (hb : Fin32 b) (h : (sv a + sv b).natAbs ≤ 3 * 2^275) :
    Fin32 ((ops acos).add a b) ∧ 2^24 * (sv ((ops acos).add a b) - (sv a + sv b)).natAbs ≤ (sv a + sv b).natAbs := by
  unfold Fin32 sv at *
  obtain ⟨a1, a2⟩ := not_special ha
  obtain ⟨b1, b2⟩ := not_special hb
  have e : un32 ((ops acos).add a b) = addN f32 (un32 a) (un32 b) :=
    un_pk32 _ (addN_mag_lt _ _ (un32_mag_lt a) (un32_mag_lt b))
  rw [e]
  unfold addN
  simp only [a1, a2, b1, b2, Bool.or_self, Bool.false_eq_true, if_false]
  generalize hs : (un32 a).sval f32 + (un32 b).sval f32 = s at *
  by_cases h0 : s = 0
  · rw [if_pos h0]
    refine ⟨by show 0 < f32.inf; decide, ?_⟩
    simp [Num.sval, val_zero, h0]
  · rw [if_neg h0]
    have hle : roundRat f32 s.natAbs 1 ≤ 0x7F400000 := by
      refine roundRat_le_of (by omega) ?_
      have : val f32 0x7F400000 = 3 * 2^275 := by decide +kernel
      rw [this]; omega
    have hfin : roundRat f32 s.natAbs 1 < f32.inf := by rw [inf32]; omega
    refine ⟨hfin, ?_⟩
    have := round_int_err hfin
    rw [show f32.mb + 1 = 24 from rfl] at this
    unfold Num.sval
    simp only [decide_eq_true_eq]
    split <;> omega

/-- Division of a finite float32 number by a whole number. -/
theorem div_err (acos : F64 → F64) {a n : F32} {N : Nat} (ha : Fin32 a) (hN : 0 < N) (hn : Fin32 n)
    (hnv : sv n = ((N * 2^149 : Nat) : Int)) :
    Fin32 ((ops acos).div a n) ∧
    2^24 * (N * sv ((ops acos).div a n) - sv a).natAbs ≤ max (sv a).natAbs (N * 2^23) := by
  unfold Fin32 sv at *
  obtain ⟨a1, a2⟩ := not_special ha
  obtain ⟨n1, n2⟩ := not_special hn
  have hpos : 0 < N * 2^149 := Nat.mul_pos hN (Nat.two_pow_pos _)
  have hval : val f32 (un32 n).mag = N * 2^149 := by
    have := sval_abs (f := f32) (un32 n)
    rw [hnv] at this
    omega
  have hneg : (un32 n).neg = false := by
    cases hb : (un32 n).neg with
    | false => rfl
    | true =>
      unfold Num.sval at hnv
      rw [hb, if_pos rfl] at hnv
      omega
  have hm0 : (un32 n).mag ≠ 0 := by
    intro h0
    rw [h0, val_zero] at hval
    omega
  have hu : f32.unit = 149 := by decide
  have hround : roundRat f32 (val f32 (un32 a).mag * 2^149) (N * 2^149) = roundRat f32 (val f32 (un32 a).mag) N :=
    roundRat_scale (Nat.two_pow_pos _)
  have hdiv : divN f32 (un32 a) (un32 n) = ⟨(un32 a).neg, roundRat f32 (val f32 (un32 a).mag) N⟩ := by
    unfold divN
    simp only [a1, a2, n1, n2, Bool.or_self, Bool.false_eq_true, if_false, if_neg hm0, hval, hu, hround, hneg]
    cases (un32 a).neg <;> rfl
  have hle : roundRat f32 (val f32 (un32 a).mag) N ≤ (un32 a).mag := by
    refine roundRat_le_of hN ?_
    exact Nat.le_mul_of_pos_left _ hN
  have hfin : roundRat f32 (val f32 (un32 a).mag) N < f32.inf := by omega
  have e : un32 ((ops acos).div a n) = ⟨(un32 a).neg, roundRat f32 (val f32 (un32 a).mag) N⟩ := by
    show un32 (pk32 (divN f32 (un32 a) (un32 n))) = _
    rw [hdiv]
    refine un_pk32 _ ?_
    have := inf32
    simp only; omega
  rw [e]
  refine ⟨hfin, ?_⟩
  have herr := roundRat_err hN hfin
  rw [show f32.mb + 1 = 24 from rfl, show f32.mb = 23 from rfl] at herr
  have habs := sval_abs (f := f32) (un32 a)
  rw [habs]
  unfold Num.sval
  simp only
  generalize val f32 (roundRat f32 (val f32 (un32 a).mag) N) = v at *
  rw [Int.natCast_mul] at herr
  cases (un32 a).neg
  · simpa using herr
  · simp only [if_true]
    have : (N : Int) * -(v : Int) - -(val f32 (un32 a).mag : Int) = -((N : Int) * v - val f32 (un32 a).mag) := by
      rw [Int.mul_neg]; omega
    rw [this, Int.natAbs_neg]
    exact herr

end Veri.SF
