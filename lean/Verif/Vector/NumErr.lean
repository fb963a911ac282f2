import Verif.Vector.Value
import Mathlib.Tactic.Linarith
import Mathlib.Tactic.Ring
import Mathlib.Tactic.Positivity
import Mathlib.Tactic.NormNum
import Mathlib.Tactic.FieldSimp
import Mathlib.Algebra.Order.Field.Rat
/-
The errors of the soft-float operations, as rational numbers, for any binary format.
-/
set_option autoImplicit false
namespace Veri.SF
set_option exponentiation.threshold 4000

variable {f : Fmt}

/-- The value of a number. -/
def nv (f : Fmt) (a : Num) : ℚ := (a.sval f : ℚ) / 2^f.unit

theorem unit_pos : (0 : ℚ) < 2^f.unit := by positivity

theorem abs_sval (a : Num) : |(a.sval f : ℚ)| = val f a.mag := by
  rw [← Int.cast_abs, Int.abs_eq_natAbs, sval_abs]; rfl

theorem abs_nv (a : Num) : |nv f a| = (val f a.mag : ℚ) / 2^f.unit := by
  unfold nv
  rw [abs_div, abs_sval, abs_of_pos unit_pos]

/-- The number with this sign and this magnitude. -/
theorem sval_mk (n : Bool) (m : Nat) : ((⟨n, m⟩ : Num).sval f : ℚ) = (if n then -1 else 1) * (val f m : ℚ) := by
  unfold Num.sval
  cases n <;> simp

theorem sval_sign (a : Num) : (a.sval f : ℚ) = (if a.neg then -1 else 1) * (val f a.mag : ℚ) := sval_mk a.neg a.mag

/-- Rounding, in units. -/
theorem roundRat_q {p q : Nat} (hq : 0 < q) (hr : roundRat f p q < f.inf) :
    |(val f (roundRat f p q) : ℚ) - (p : ℚ) / q| ≤ (p : ℚ) / q / 2^(f.mb + 1) + 1 / 2 := by
  have h := roundRat_err hq hr
  have hq' : (0 : ℚ) < q := by exact_mod_cast hq
  generalize roundRat f p q = r at *
  have hP : (0 : ℚ) < 2^f.mb := by positivity
  have h1 : (2 : ℚ)^(f.mb + 1) * |(q : ℚ) * val f r - p| ≤ (p : ℚ) + q * 2^f.mb := by
    have h2 : ((2^(f.mb + 1) * ((q * val f r : Nat) - (p : Int)).natAbs : Nat) : ℚ) ≤ ((p + q * 2^f.mb : Nat) : ℚ) := by
      exact_mod_cast Nat.le_trans h (by omega)
    have h3 : ((((q * val f r : Nat) - (p : Int)).natAbs : Nat) : ℚ) = |(q : ℚ) * val f r - p| := by
      rw [Nat.cast_natAbs, Int.cast_abs]
      push_cast
      rfl
    push_cast [h3] at h2
    convert h2 using 2
    rw [← h3]
    push_cast
    rfl
  have e : (q : ℚ) * val f r - p = q * (val f r - (p : ℚ) / q) := by field_simp
  rw [e, abs_mul, abs_of_pos hq', pow_succ] at h1
  rw [pow_succ]
  generalize |(val f r : ℚ) - (p : ℚ) / q| = x at *
  have h4 : (2 : ℚ)^f.mb * 2 * x ≤ (p : ℚ) / q + 2^f.mb := by
    have : q * (2^f.mb * 2 * x) ≤ (q : ℚ) * ((p : ℚ) / q + 2^f.mb) := by
      have e2 : (q : ℚ) * ((p : ℚ) / q + 2^f.mb) = p + q * 2^f.mb := by field_simp
      rw [e2]; linarith
    exact le_of_mul_le_mul_left this hq'
  have e3 : (p : ℚ) / q / (2^f.mb * 2) + 1 / 2 = ((p : ℚ) / q + 2^f.mb) / (2^f.mb * 2) := by field_simp
  rw [e3, le_div_iff₀ (by positivity)]
  linarith

/-- Rounding a whole number of units. -/
theorem round_int_q {p : Nat} (hr : roundRat f p 1 < f.inf) :
    |(val f (roundRat f p 1) : ℚ) - p| ≤ (p : ℚ) / 2^(f.mb + 1) := by
  have h := round_int_err hr
  generalize roundRat f p 1 = r at *
  have h3 : ((((val f r : Nat) - (p : Int)).natAbs : Nat) : ℚ) = |(val f r : ℚ) - p| := by
    rw [Nat.cast_natAbs, Int.cast_abs]
    push_cast
    rfl
  rw [le_div_iff₀ (by positivity), ← h3]
  have : ((2^(f.mb + 1) * ((val f r : Nat) - (p : Int)).natAbs : Nat) : ℚ) ≤ (p : ℚ) := by exact_mod_cast h
  push_cast at this
  rw [mul_comm]
  exact this

theorem addN_err {a b : Num} {m : Nat} (ha : a.mag < f.inf) (hb : b.mag < f.inf) (hm : m < f.inf)
    (h : |nv f a + nv f b| ≤ (val f m : ℚ) / 2^f.unit) :
    (addN f a b).mag < f.inf ∧ |nv f (addN f a b) - (nv f a + nv f b)| ≤ |nv f a + nv f b| / 2^(f.mb + 1) := by
  obtain ⟨a1, a2⟩ := not_special ha
  obtain ⟨b1, b2⟩ := not_special hb
  have hU := unit_pos (f := f)
  have esum : nv f a + nv f b = ((a.sval f + b.sval f : Int) : ℚ) / 2^f.unit := by
    unfold nv; push_cast; ring
  rw [esum] at h ⊢
  unfold addN
  simp only [a1, a2, b1, b2, Bool.or_self, Bool.false_eq_true, if_false]
  generalize a.sval f + b.sval f = s at *
  have habs : |(s : ℚ)| = (s.natAbs : ℚ) := by rw [Nat.cast_natAbs, Int.cast_abs]
  rw [abs_div, abs_of_pos hU, habs] at h
  have hle : s.natAbs ≤ val f m := by
    have := (div_le_div_iff_of_pos_right hU).1 h
    exact_mod_cast this
  by_cases h0 : s = 0
  · rw [if_pos h0]
    refine ⟨show 0 < f.inf by omega, ?_⟩
    subst h0
    unfold nv
    rw [sval_mk, val_zero]
    simp
  · rw [if_neg h0]
    have hfin : roundRat f s.natAbs 1 < f.inf :=
      Nat.lt_of_le_of_lt (roundRat_le_of (by omega) (by rw [Nat.one_mul]; exact hle)) hm
    refine ⟨hfin, ?_⟩
    have he := round_int_q hfin
    have hnv : nv f ⟨decide (s < 0), roundRat f s.natAbs 1⟩ - (s : ℚ) / 2^f.unit
        = (if s < 0 then -1 else 1) * ((val f (roundRat f s.natAbs 1) : ℚ) - s.natAbs) / 2^f.unit := by
      unfold nv
      rw [sval_mk]
      have hsg : (s : ℚ) = (if s < 0 then -1 else 1) * (s.natAbs : ℚ) := by
        rw [← habs]
        split
        · rename_i hn
          rw [abs_of_neg (by exact_mod_cast hn)]; ring
        · rename_i hn
          rw [abs_of_nonneg (by exact_mod_cast (show 0 ≤ s by omega))]; ring
      conv => lhs; rw [hsg]
      simp only [decide_eq_true_eq]
      ring
    rw [hnv, abs_div, abs_mul, abs_div, abs_of_pos hU, habs]
    have : |(if s < 0 then (-1 : ℚ) else 1)| = 1 := by split <;> simp
    rw [this, one_mul, div_right_comm]
    exact div_le_div_of_nonneg_right he hU.le

theorem nv_neg (a : Num) : nv f (negN a) = -nv f a := by
  unfold nv; rw [sval_neg]; push_cast; ring

theorem subN_err {a b : Num} {m : Nat} (ha : a.mag < f.inf) (hb : b.mag < f.inf) (hm : m < f.inf)
    (h : |nv f a - nv f b| ≤ (val f m : ℚ) / 2^f.unit) :
    (subN f a b).mag < f.inf ∧ |nv f (subN f a b) - (nv f a - nv f b)| ≤ |nv f a - nv f b| / 2^(f.mb + 1) := by
  have := addN_err (a := a) (b := negN b) (m := m) ha hb hm (by rw [nv_neg]; simpa [sub_eq_add_neg] using h)
  rw [nv_neg, ← sub_eq_add_neg] at this
  exact this

theorem sign_xor (x y : Bool) : (if (x != y) then (-1 : ℚ) else 1) = (if x then -1 else 1) * (if y then -1 else 1) := by
  cases x <;> cases y <;> simp

theorem mulN_err {a b : Num} {m : Nat} (ha : a.mag < f.inf) (hb : b.mag < f.inf) (hm : m < f.inf)
    (h : |nv f a * nv f b| ≤ (val f m : ℚ) / 2^f.unit) :
    (mulN f a b).mag < f.inf ∧
    |nv f (mulN f a b) - nv f a * nv f b| ≤ |nv f a * nv f b| / 2^(f.mb + 1) + 1 / 2 / 2^f.unit := by
  obtain ⟨a1, a2⟩ := not_special ha
  obtain ⟨b1, b2⟩ := not_special hb
  have hU := unit_pos (f := f)
  have hUn : 0 < 2^f.unit := Nat.two_pow_pos _
  have hpq : ((val f a.mag * val f b.mag : Nat) : ℚ) / ((2^f.unit : Nat) : ℚ) = |nv f a * nv f b| * 2^f.unit := by
    rw [abs_mul, abs_nv, abs_nv]; push_cast; field_simp
  have hle : val f a.mag * val f b.mag ≤ 2^f.unit * val f m := by
    have h1 : |nv f a * nv f b| * 2^f.unit ≤ val f m := by rwa [le_div_iff₀ hU] at h
    rw [← hpq, div_le_iff₀ (by exact_mod_cast hUn)] at h1
    rw [mul_comm (2^f.unit)]
    exact_mod_cast h1
  have hfin : roundRat f (val f a.mag * val f b.mag) (2^f.unit) < f.inf :=
    Nat.lt_of_le_of_lt (roundRat_le_of hUn hle) hm
  unfold mulN
  simp only [a1, a2, b1, b2, Bool.or_self, Bool.false_eq_true, if_false]
  refine ⟨hfin, ?_⟩
  have he := roundRat_q hUn hfin
  generalize roundRat f (val f a.mag * val f b.mag) (2^f.unit) = r at *
  rw [hpq] at he
  have hprod : nv f a * nv f b = (if a.neg != b.neg then -1 else 1) * |nv f a * nv f b| := by
    rw [sign_xor, abs_mul, abs_nv, abs_nv]
    unfold nv
    rw [sval_sign a, sval_sign b]
    ring
  have hnv : nv f ⟨a.neg != b.neg, r⟩ - nv f a * nv f b
      = (if a.neg != b.neg then -1 else 1) * ((val f r : ℚ) - |nv f a * nv f b| * 2^f.unit) / 2^f.unit := by
    conv => lhs; rw [hprod]
    unfold nv
    rw [sval_mk]
    field_simp
  rw [hnv, abs_div, abs_mul, abs_of_pos hU]
  have : |(if a.neg != b.neg then (-1 : ℚ) else 1)| = 1 := by split <;> simp
  rw [this, one_mul, div_le_iff₀ hU]
  refine le_trans he (le_of_eq ?_)
  field_simp

theorem divN_err {a b : Num} {m : Nat} (ha : a.mag < f.inf) (hb : b.mag < f.inf) (hm : m < f.inf) (hb0 : nv f b ≠ 0)
    (h : |nv f a / nv f b| ≤ (val f m : ℚ) / 2^f.unit) :
    (divN f a b).mag < f.inf ∧
    |nv f (divN f a b) - nv f a / nv f b| ≤ |nv f a / nv f b| / 2^(f.mb + 1) + 1 / 2 / 2^f.unit := by
  obtain ⟨a1, a2⟩ := not_special ha
  obtain ⟨b1, b2⟩ := not_special hb
  have hU := unit_pos (f := f)
  have hm0 : b.mag ≠ 0 := by
    intro h0
    apply hb0
    unfold nv
    rw [sval_sign, h0, val_zero]; simp
  have hvb : 0 < val f b.mag := Nat.pos_of_ne_zero (val_pos hm0)
  have hvb' : (0 : ℚ) < val f b.mag := by exact_mod_cast hvb
  have hpq : ((val f a.mag * 2^f.unit : Nat) : ℚ) / ((val f b.mag : Nat) : ℚ) = |nv f a / nv f b| * 2^f.unit := by
    rw [abs_div, abs_nv, abs_nv]; push_cast; field_simp
  have hle : val f a.mag * 2^f.unit ≤ val f b.mag * val f m := by
    have h1 : |nv f a / nv f b| * 2^f.unit ≤ val f m := by rwa [le_div_iff₀ hU] at h
    rw [← hpq, div_le_iff₀ hvb'] at h1
    rw [mul_comm (val f b.mag)]
    exact_mod_cast h1
  have hfin : roundRat f (val f a.mag * 2^f.unit) (val f b.mag) < f.inf :=
    Nat.lt_of_le_of_lt (roundRat_le_of hvb hle) hm
  unfold divN
  simp only [a1, a2, b1, b2, Bool.or_self, Bool.false_eq_true, if_false, if_neg hm0]
  refine ⟨hfin, ?_⟩
  have he := roundRat_q hvb hfin
  generalize roundRat f (val f a.mag * 2^f.unit) (val f b.mag) = r at *
  rw [hpq] at he
  have hprod : nv f a / nv f b = (if a.neg != b.neg then -1 else 1) * |nv f a / nv f b| := by
    rw [sign_xor, abs_div, abs_nv, abs_nv]
    unfold nv
    rw [sval_sign a, sval_sign b]
    cases a.neg <;> cases b.neg <;> simp <;> ring
  have hnv : nv f ⟨a.neg != b.neg, r⟩ - nv f a / nv f b
      = (if a.neg != b.neg then -1 else 1) * ((val f r : ℚ) - |nv f a / nv f b| * 2^f.unit) / 2^f.unit := by
    conv => lhs; rw [hprod]
    unfold nv
    rw [sval_mk]
    field_simp
  rw [hnv, abs_div, abs_mul, abs_of_pos hU]
  have : |(if a.neg != b.neg then (-1 : ℚ) else 1)| = 1 := by split <;> simp
  rw [this, one_mul, div_le_iff₀ hU]
  refine le_trans he (le_of_eq ?_)
  field_simp

/-! ### Square roots -/

theorem isqrt_spec : ∀ (k n r : Nat), r * r ≤ n → n < (r + 2^k) * (r + 2^k) →
    isqrt k n r * isqrt k n r ≤ n ∧ n < (isqrt k n r + 1) * (isqrt k n r + 1) := by
  intro k
  induction k with
  | zero => intro n r h1 h2; exact ⟨h1, by simpa [isqrt] using h2⟩
  | succ k ih =>
    intro n r h1 h2
    unfold isqrt
    split
    · rename_i h
      refine ih n _ h ?_
      have : r + 2^k + 2^k = r + 2^(k + 1) := by rw [Nat.pow_succ]; omega
      rw [this]; exact h2
    · rename_i h
      exact ih n r h1 (by omega)

theorem isqrt_zero (n : Nat) : isqrt (n.log2 / 2 + 1) n 0 * isqrt (n.log2 / 2 + 1) n 0 ≤ n ∧
    n < (isqrt (n.log2 / 2 + 1) n 0 + 1) * (isqrt (n.log2 / 2 + 1) n 0 + 1) := by
  refine isqrt_spec _ n 0 (by omega) ?_
  rw [Nat.zero_add, ← Nat.pow_add]
  refine Nat.lt_of_lt_of_le (Nat.lt_log2_self (n := n)) (Nat.pow_le_pow_right (by omega) (by omega))

/-- What is needed of a format: the square root of a number is not subnormal, and not too large. -/
def Roomy (f : Fmt) : Prop := 2^(f.mb + 1) * 2^(f.mb + 1) ≤ 2^f.unit ∧ 2^f.unit < val f (f.inf - 2) ∧ 2 < f.inf

theorem roomy32 : Roomy f32 := by unfold Roomy; decide +kernel
theorem roomy64 : Roomy f64 := by unfold Roomy; decide +kernel

theorem sqrtN_err {a : Num} (hf : Roomy f) (ha : a.mag < f.inf) (h0 : 0 ≤ nv f a) :
    (sqrtN f a).mag < f.inf ∧ 0 ≤ nv f (sqrtN f a) ∧
    (1 - 1 / 2^(f.mb + 1))^2 * nv f a ≤ nv f (sqrtN f a)^2 ∧ nv f (sqrtN f a)^2 ≤ (1 + 1 / 2^(f.mb + 1))^2 * nv f a := by
  obtain ⟨a1, a2⟩ := not_special ha
  have hU := unit_pos (f := f)
  by_cases hz : a.mag = 0
  · have hn0 : nv f a = 0 := by unfold nv; rw [sval_sign, hz, val_zero]; simp
    have : sqrtN f a = a := by unfold sqrtN; simp [a1, hz]
    rw [this, hn0]; simp [ha]
  · have hv : 0 < val f a.mag := Nat.pos_of_ne_zero (val_pos hz)
    have hneg : a.neg = false := by
      cases h : a.neg with
      | false => rfl
      | true =>
        exfalso
        unfold nv at h0
        rw [sval_sign, h] at h0
        have hv' : (0 : ℚ) < val f a.mag := by exact_mod_cast hv
        have : (if true = true then (-1 : ℚ) else 1) * (val f a.mag : ℚ) / 2^f.unit < 0 := by
          simp only [if_true]
          apply div_neg_of_neg_of_pos _ hU
          linarith
        linarith
    have hnv : nv f a = (val f a.mag : ℚ) / 2^f.unit := by unfold nv; rw [sval_sign, hneg]; simp
    unfold sqrtN
    simp only [a1, a2, hz, hneg, Bool.false_eq_true, if_false]
    generalize hsq : val f a.mag * 2^f.unit = sq
    obtain ⟨hs1, hs2⟩ := isqrt_zero sq
    generalize isqrt (sq.log2 / 2 + 1) sq 0 = s at *
    obtain ⟨hn1, hn2⟩ := floorPat_spec (f := f) s
    generalize floorPat f s = n at *
    obtain ⟨hr1, hr2, hr3⟩ := hf
    -- the result is normal
    have hPs : 2^f.mb ≤ val f n := by
      have hge : 2^(f.mb + 1) * 2^(f.mb + 1) ≤ sq := by
        rw [← hsq]; exact Nat.le_trans hr1 (Nat.le_mul_of_pos_left _ hv)
      have h2 : 2^(f.mb + 1) < s + 1 := by
        apply Nat.mul_self_lt_mul_self_iff.1
        exact Nat.lt_of_le_of_lt hge hs2
      have h3 : 2^f.mb ≤ n := by
        by_contra hc
        have : val f (n + 1) ≤ val f (2^f.mb) := val_le (by omega)
        have e : val f (2^f.mb) = 2^f.mb := by
          unfold val; rw [if_neg (by omega), Nat.mod_self, Nat.div_self (Nat.two_pow_pos _)]; simp
        rw [Nat.pow_succ] at h2
        omega
      have e : val f (2^f.mb) = 2^f.mb := by
        unfold val; rw [if_neg (by omega), Nat.mod_self, Nat.div_self (Nat.two_pow_pos _)]; simp
      rw [← e]; exact val_le h3
    -- not too large
    have hnf : n + 1 < f.inf := by
      by_contra hc
      have h1 : val f (f.inf - 2) ≤ val f n := val_le (by omega)
      have h2 : val f a.mag ≤ val f (f.inf - 1) := val_le (by omega)
      have h4 : val f (f.inf - 1) ≤ val f n := by
        by_cases hcc : f.inf - 1 ≤ n
        · exact val_le hcc
        · omega
      have h5 : val f n * val f n ≤ sq := Nat.le_trans (Nat.mul_le_mul hn1 hn1) hs1
      have h6 : sq ≤ val f n * 2^f.unit := by rw [← hsq]; exact Nat.mul_le_mul_right _ (Nat.le_trans h2 h4)
      have h7 : val f n ≤ 2^f.unit := Nat.le_of_mul_le_mul_left (Nat.le_trans h5 h6) (by have := Nat.two_pow_pos f.mb; omega)
      omega
    have hg := gap (f := f) n
    rw [Nat.max_eq_left hPs] at hg
    have hlt := val_lt_succ f n
    -- in rationals
    have q1 : (val f n : ℚ)^2 ≤ sq := by
      have : val f n * val f n ≤ sq := Nat.le_trans (Nat.mul_le_mul hn1 hn1) hs1
      rw [pow_two]; exact_mod_cast this
    have q2 : (sq : ℚ) ≤ (val f (n + 1) : ℚ)^2 := by
      have : sq ≤ val f (n + 1) * val f (n + 1) :=
        Nat.le_trans (Nat.le_of_lt hs2) (Nat.mul_le_mul (by omega) (by omega))
      rw [pow_two]; exact_mod_cast this
    have q3 : (2 : ℚ)^f.mb * val f (n + 1) ≤ 2^f.mb * val f n + val f n := by exact_mod_cast hg
    have q4 : (val f n : ℚ) ≤ val f (n + 1) := by exact_mod_cast Nat.le_of_lt hlt
    have q5 : (0 : ℚ) ≤ val f n := by positivity
    have hsqv : nv f a = (sq : ℚ) / 2^f.unit / 2^f.unit := by
      rw [hnv, ← hsq]; push_cast; field_simp
    have hP : (0 : ℚ) < 2^f.mb := by positivity
    -- half of the gap is at most a relative error
    have q6 : ((val f n : ℚ) + val f (n + 1)) / 2 ≤ (1 + 1 / 2^(f.mb + 1)) * val f n := by
      have e : (1 + 1 / (2 : ℚ)^(f.mb + 1)) * val f n = (2^f.mb * val f n * 2 + val f n) / (2^f.mb * 2) := by
        rw [pow_succ]; field_simp
      rw [e, le_div_iff₀ (by positivity)]
      nlinarith
    have hu0 : (0 : ℚ) ≤ 1 / 2^(f.mb + 1) := by positivity
    have hu1 : 1 / (2 : ℚ)^(f.mb + 1) ≤ 1 := by
      rw [div_le_one (by positivity)]; exact one_le_pow₀ (by norm_num)
    generalize hm : (val f n + val f (n + 1)) * (val f n + val f (n + 1)) = mm
    have hmm : (mm : ℚ) = (val f n + val f (n + 1))^2 := by rw [← hm]; push_cast; ring
    have key : ∀ k, (k = n ∧ 4 * sq ≤ mm ∨ k = n + 1 ∧ mm ≤ 4 * sq) →
        (1 - 1 / (2 : ℚ)^(f.mb + 1))^2 * sq ≤ (val f k : ℚ)^2 ∧ (val f k : ℚ)^2 ≤ (1 + 1 / 2^(f.mb + 1))^2 * sq := by
      intro k hk
      generalize 1 / (2 : ℚ)^(f.mb + 1) = u at *
      have hsq0 : (0 : ℚ) ≤ sq := by positivity
      have hu2 : (1 - u)^2 ≤ 1 := by nlinarith
      have hu3 : 1 ≤ (1 + u)^2 := by nlinarith
      rcases hk with ⟨rfl, hc⟩ | ⟨rfl, hc⟩
      · have c1 : 4 * (sq : ℚ) ≤ (val f k + val f (k + 1))^2 := by rw [← hmm]; exact_mod_cast hc
        constructor
        · have c2 : (sq : ℚ) ≤ ((1 + u) * val f k)^2 := by
            have : (((val f k : ℚ) + val f (k + 1)) / 2)^2 ≤ ((1 + u) * val f k)^2 :=
              pow_le_pow_left₀ (by positivity) q6 2
            nlinarith
          have c3 : (1 - u)^2 * (sq : ℚ) ≤ (1 - u)^2 * ((1 + u) * val f k)^2 :=
            mul_le_mul_of_nonneg_left c2 (by positivity)
          have c4 : ((1 - u) * (1 + u))^2 ≤ 1 := by
            have h1 : 0 ≤ (1 - u) * (1 + u) := mul_nonneg (by linarith) (by linarith)
            have h2 : (1 - u) * (1 + u) ≤ 1 := by nlinarith
            nlinarith
          have c5 : (1 - u)^2 * ((1 + u) * (val f k : ℚ))^2 = ((1 - u) * (1 + u))^2 * (val f k : ℚ)^2 := by ring
          have c6 : ((1 - u) * (1 + u))^2 * (val f k : ℚ)^2 ≤ 1 * (val f k : ℚ)^2 :=
            mul_le_mul_of_nonneg_right c4 (by positivity)
          linarith
        · have : 1 * (sq : ℚ) ≤ (1 + u)^2 * sq := mul_le_mul_of_nonneg_right hu3 hsq0
          linarith
      · have c1 : ((val f n : ℚ) + val f (n + 1))^2 ≤ 4 * sq := by rw [← hmm]; exact_mod_cast hc
        constructor
        · have : (1 - u)^2 * (sq : ℚ) ≤ 1 * sq := mul_le_mul_of_nonneg_right hu2 hsq0
          linarith
        · have c2 : (val f (n + 1) : ℚ) ≤ (1 + u) * ((val f n + val f (n + 1)) / 2) := by nlinarith
          have c3 : (val f (n + 1) : ℚ)^2 ≤ ((1 + u) * ((val f n + val f (n + 1)) / 2))^2 :=
            pow_le_pow_left₀ (by positivity) c2 2
          have c4 : ((1 + u) * (((val f n : ℚ) + val f (n + 1)) / 2))^2 = (1 + u)^2 * ((val f n + val f (n + 1))^2 / 4) := by ring
          have c5 : (1 + u)^2 * (((val f n : ℚ) + val f (n + 1))^2 / 4) ≤ (1 + u)^2 * sq :=
            mul_le_mul_of_nonneg_left (by linarith) (by positivity)
          linarith
    have hpk : ∃ k, pick f n (compare (4 * sq) mm) = k ∧ k < f.inf ∧ (k = n ∧ 4 * sq ≤ mm ∨ k = n + 1 ∧ mm ≤ 4 * sq) := by
      unfold pick
      cases hc : compare (4 * sq) mm with
      | lt => rw [Nat.compare_eq_lt] at hc; exact ⟨n, by simp only; omega, by omega, Or.inl ⟨rfl, by omega⟩⟩
      | gt => rw [Nat.compare_eq_gt] at hc; exact ⟨n + 1, by simp only; omega, by omega, Or.inr ⟨rfl, by omega⟩⟩
      | eq =>
        rw [Nat.compare_eq_eq] at hc
        by_cases hp : n % 2 = 0
        · exact ⟨n, by simp only [hp, if_true]; omega, by omega, Or.inl ⟨rfl, by omega⟩⟩
        · exact ⟨n + 1, by simp only [hp, if_false]; omega, by omega, Or.inr ⟨rfl, by omega⟩⟩
    obtain ⟨k, hk1, hk2, hk3⟩ := hpk
    rw [hk1]
    have hnk : nv f ⟨false, k⟩ = (val f k : ℚ) / 2^f.unit := by unfold nv; rw [sval_mk]; simp
    obtain ⟨k1, k2⟩ := key k hk3
    refine ⟨hk2, by rw [hnk]; positivity, ?_, ?_⟩
    · rw [hnk, hsqv, div_pow, le_div_iff₀ (by positivity)]
      have : (1 - 1 / (2 : ℚ)^(f.mb + 1))^2 * ((sq : ℚ) / 2^f.unit / 2^f.unit) * (2^f.unit)^2 = (1 - 1 / 2^(f.mb + 1))^2 * sq := by
        field_simp
      rw [this]; exact k1
    · rw [hnk, hsqv, div_pow, div_le_iff₀ (by positivity)]
      have : (1 + 1 / (2 : ℚ)^(f.mb + 1))^2 * ((sq : ℚ) / 2^f.unit / 2^f.unit) * (2^f.unit)^2 = (1 + 1 / 2^(f.mb + 1))^2 * sq := by
        field_simp
      rw [this]; exact k2

end Veri.SF
