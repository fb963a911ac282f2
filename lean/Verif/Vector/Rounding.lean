import Verif.Vector.SoftFloat
/-
Rounding is what it should be: `roundRat` is monotone, and never passes a representable number.
-/
set_option autoImplicit false
namespace Veri.SF

variable {f : Fmt}

theorem val_lt {m n : Nat} (h : m < n) : val f m < val f n := by
  induction n with
  | zero => omega
  | succ n ih =>
    have := val_lt_succ f n
    by_cases hm : m = n
    · subst hm; exact this
    · exact Nat.lt_trans (ih (by omega)) this

theorem val_le {m n : Nat} (h : m ≤ n) : val f m ≤ val f n := by
  by_cases hm : m = n
  · subst hm; exact Nat.le_refl _
  · exact Nat.le_of_lt (val_lt (by omega))

theorem le_of_val_le {m n : Nat} (h : val f m ≤ val f n) : m ≤ n := by
  apply Nat.le_of_not_lt
  intro hc
  have := val_lt (f := f) hc
  omega

/-- `floorPat` is the largest pattern whose value is at most `N`. -/
theorem floorPat_spec (N : Nat) : val f (floorPat f N) ≤ N ∧ N < val f (floorPat f N + 1) := by
  have hp : 0 < 2^f.mb := Nat.two_pow_pos _
  by_cases h : N < 2^f.mb
  · have e : floorPat f N = N := by unfold floorPat; rw [if_pos h]
    have e2 : val f N = N := by unfold val; rw [if_pos h]
    rw [e]
    have := val_lt_succ f N
    omega
  · have hN : N ≠ 0 := by omega
    have e : floorPat f N = (Nat.log2 N - f.mb) * 2^f.mb + N / 2^(Nat.log2 N - f.mb) := by
      unfold floorPat; rw [if_neg h]
    have h1 : 2 ^ Nat.log2 N ≤ N := Nat.log2_self_le hN
    have h2 : N < 2 ^ (Nat.log2 N + 1) := Nat.lt_log2_self
    have h3 : f.mb ≤ Nat.log2 N := by
      apply Nat.le_of_not_lt
      intro hc
      have : 2 ^ (Nat.log2 N + 1) ≤ 2 ^ f.mb := Nat.pow_le_pow_right (by omega) hc
      omega
    rw [e]
    generalize hk : Nat.log2 N - f.mb = k at *
    have hl : Nat.log2 N = f.mb + k := by omega
    rw [hl] at h1 h2
    have hpk : 0 < 2^k := Nat.two_pow_pos _
    have hdm := Nat.div_add_mod N (2^k)
    have hmod : N % 2^k < 2^k := Nat.mod_lt _ hpk
    have hlo : 2^f.mb ≤ N / 2^k := by
      rw [Nat.le_div_iff_mul_le hpk, ← Nat.pow_add]; exact h1
    have hhi : N / 2^k < 2^f.mb + 2^f.mb := by
      rw [Nat.div_lt_iff_lt_mul hpk]
      have : (2^f.mb + 2^f.mb) * 2^k = 2^(f.mb + k + 1) := by
        rw [Nat.pow_succ, Nat.pow_add]
        rw [Nat.mul_comm _ 2, ← Nat.mul_assoc]; congr 1; omega
      rw [this]; exact h2
    generalize hq : N / 2^k = q at *
    obtain ⟨r, rfl⟩ : ∃ r, q = 2^f.mb + r := ⟨q - 2^f.mb, by omega⟩
    have hn : k * 2^f.mb + (2^f.mb + r) = 2^f.mb * (k + 1) + r := by
      rw [Nat.mul_add, Nat.mul_comm k, Nat.mul_one]; omega
    have hge : 2^f.mb ≤ 2^f.mb * (k + 1) := Nat.le_mul_of_pos_right _ (by omega)
    rw [hn]
    constructor
    · unfold val
      rw [if_neg (by omega), Nat.mul_add_mod, Nat.mod_eq_of_lt (by omega), Nat.mul_add_div hp, Nat.div_eq_of_lt (by omega)]
      rw [Nat.add_zero, Nat.add_sub_cancel, Nat.mul_comm]
      omega
    · by_cases hr : r + 1 < 2^f.mb
      · unfold val
        rw [if_neg (by omega), Nat.add_assoc, Nat.mul_add_mod, Nat.mod_eq_of_lt hr, Nat.mul_add_div hp,
          Nat.div_eq_of_lt hr, show k + 1 + 0 - 1 = k from rfl, Nat.mul_comm, ← Nat.add_assoc, Nat.mul_add, Nat.mul_one]
        omega
      · have e2 : 2^f.mb * (k + 1) + r + 1 = 2^f.mb * (k + 2) := by
          rw [show k + 2 = (k + 1) + 1 from rfl, Nat.mul_add _ (k+1), Nat.mul_one]; omega
        rw [e2]
        unfold val
        have : 2^f.mb ≤ 2^f.mb * (k + 2) := Nat.le_mul_of_pos_right _ (by omega)
        rw [if_neg (by omega), Nat.mul_mod_right, Nat.mul_div_cancel_left _ hp, Nat.add_zero,
          show k + 2 - 1 = k + 1 by omega, ← Nat.pow_add]
        exact h2

theorem floorPat_mono {N M : Nat} (h : N ≤ M) : floorPat f N ≤ floorPat f M := by
  apply Nat.le_of_not_lt
  intro hc
  have h1 := (floorPat_spec (f := f) N).1
  have h2 := (floorPat_spec (f := f) M).2
  have h3 : val f (floorPat f M + 1) ≤ val f (floorPat f N) := val_le hc
  omega

theorem le_floorPat {n N : Nat} (h : val f n ≤ N) : n ≤ floorPat f N := by
  apply Nat.le_of_not_lt
  intro hc
  have h2 := (floorPat_spec (f := f) N).2
  have h3 : val f (floorPat f N + 1) ≤ val f n := val_le hc
  omega

/-- Numbers with at most `mb + 1` significant bits are represented. -/
theorem val_floorPat (a e : Nat) (h : a < 2^(f.mb + 1)) : val f (floorPat f (a * 2^e)) = a * 2^e := by
  have hp : 0 < 2^f.mb := Nat.two_pow_pos _
  by_cases hs : a * 2^e < 2^f.mb
  · have e1 : floorPat f (a * 2^e) = a * 2^e := by unfold floorPat; rw [if_pos hs]
    rw [e1]; unfold val; rw [if_pos hs]
  · -- the last place of the pattern is at most `e`
    generalize hN : a * 2^e = N at *
    have hN0 : N ≠ 0 := by omega
    have h1 : 2 ^ Nat.log2 N ≤ N := Nat.log2_self_le hN0
    have h3 : f.mb ≤ Nat.log2 N := by
      apply Nat.le_of_not_lt
      intro hc
      have h2 : N < 2 ^ (Nat.log2 N + 1) := Nat.lt_log2_self
      have : 2 ^ (Nat.log2 N + 1) ≤ 2 ^ f.mb := Nat.pow_le_pow_right (by omega) hc
      omega
    have hup : N < 2^(f.mb + 1 + e) := by
      rw [Nat.pow_add, ← hN]; exact Nat.mul_lt_mul_of_pos_right h (Nat.two_pow_pos _)
    have hlog : Nat.log2 N < f.mb + 1 + e := by
      apply Nat.lt_of_not_le
      intro hc
      have : 2 ^ (f.mb + 1 + e) ≤ 2 ^ Nat.log2 N := Nat.pow_le_pow_right (by omega) hc
      omega
    have hsp := floorPat_spec (f := f) N
    have e1 : floorPat f N = (Nat.log2 N - f.mb) * 2^f.mb + N / 2^(Nat.log2 N - f.mb) := by
      unfold floorPat; rw [if_neg hs]
    generalize hk : Nat.log2 N - f.mb = k at *
    have hdvd : 2^k ∣ N := by
      rw [← hN]; exact Nat.dvd_mul_left_of_dvd (Nat.pow_dvd_pow 2 (by omega)) a
    have hpk : 0 < 2^k := Nat.two_pow_pos _
    have hlo : 2^f.mb ≤ N / 2^k := by
      rw [Nat.le_div_iff_mul_le hpk, ← Nat.pow_add, show f.mb + k = Nat.log2 N by omega]; exact h1
    have hhi : N / 2^k < 2^f.mb + 2^f.mb := by
      rw [Nat.div_lt_iff_lt_mul hpk]
      have h2 : N < 2 ^ (Nat.log2 N + 1) := Nat.lt_log2_self
      have : (2^f.mb + 2^f.mb) * 2^k = 2^(Nat.log2 N + 1) := by
        rw [show Nat.log2 N + 1 = f.mb + k + 1 by omega, Nat.pow_succ, Nat.pow_add]
        rw [Nat.mul_comm _ 2, ← Nat.mul_assoc]; congr 1; omega
      rw [this]; exact h2
    obtain ⟨c, rfl⟩ := hdvd
    rw [Nat.mul_div_cancel_left _ hpk] at hlo hhi e1
    obtain ⟨r, rfl⟩ : ∃ r, c = 2^f.mb + r := ⟨c - 2^f.mb, by omega⟩
    have hn : k * 2^f.mb + (2^f.mb + r) = 2^f.mb * (k + 1) + r := by
      rw [Nat.mul_add, Nat.mul_comm k, Nat.mul_one]; omega
    have hge : 2^f.mb ≤ 2^f.mb * (k + 1) := Nat.le_mul_of_pos_right _ (by omega)
    rw [e1, hn]
    unfold val
    rw [if_neg (by omega), Nat.mul_add_mod, Nat.mod_eq_of_lt (by omega), Nat.mul_add_div hp, Nat.div_eq_of_lt (by omega),
      Nat.add_zero, Nat.add_sub_cancel, Nat.mul_comm]

theorem le_pick {n m : Nat} {c : Ordering} (h : n ≤ m) (hi : n ≤ f.inf) : n ≤ pick f m c := by
  unfold pick
  cases c <;> simp only <;> (try split) <;> omega

theorem pick_le_succ (m : Nat) (c : Ordering) : pick f m c ≤ m + 1 := by
  unfold pick
  cases c <;> simp only <;> (try split) <;> omega

/-- Rounding does not fall below a representable number that is not above the exact value. -/
theorem le_roundRat {p q n : Nat} (hq : 0 < q) (h : q * val f n ≤ p) (hi : n ≤ f.inf) : n ≤ roundRat f p q := by
  unfold roundRat
  refine le_pick (le_floorPat ?_) hi
  rw [Nat.le_div_iff_mul_le hq, Nat.mul_comm]; exact h

/-- Rounding does not rise above a representable number that is not below the exact value. -/
theorem roundRat_le_of {p q n : Nat} (hq : 0 < q) (h : p ≤ q * val f n) : roundRat f p q ≤ n := by
  unfold roundRat
  have h1 : p / q ≤ val f n := by
    have := Nat.div_le_div_right (c := q) h
    rwa [Nat.mul_div_cancel_left _ hq] at this
  have h2 := (floorPat_spec (f := f) (p / q)).1
  generalize hm : floorPat f (p / q) = m at *
  have hmn : m ≤ n := le_of_val_le (Nat.le_trans h2 h1)
  by_cases hlt : m < n
  · exact Nat.le_trans (pick_le_succ m _) hlt
  · have : m = n := by omega
    subst this
    have hc : compare (2 * p) (q * (val f m + val f (m + 1))) = .lt := by
      rw [Nat.compare_eq_lt, Nat.mul_add]
      have hl := val_lt_succ f m
      have := Nat.mul_lt_mul_of_pos_left hl hq
      omega
    simp only [hc]
    exact Nat.min_le_right _ _

theorem roundRat_mono {p p' q : Nat} (h : p ≤ p') : roundRat f p q ≤ roundRat f p' q := by
  unfold roundRat
  have h1 : floorPat f (p / q) ≤ floorPat f (p' / q) := floorPat_mono (Nat.div_le_div_right h)
  generalize floorPat f (p / q) = m at *
  generalize floorPat f (p' / q) = m' at *
  by_cases hlt : m < m'
  · refine le_pick (Nat.le_trans (pick_le_succ m _) hlt) (pick_le _ _ _)
  · have : m = m' := by omega
    subst this
    simp only []
    generalize q * (val f m + val f (m + 1)) = v
    have hc : compare (2 * p) v = .gt → compare (2 * p') v = .gt := by
      simp only [Nat.compare_eq_gt]; omega
    have hc2 : compare (2 * p) v = .eq → compare (2 * p') v ≠ .lt := by
      simp only [Nat.compare_eq_eq, ne_eq, Nat.compare_eq_lt]; omega
    have mono : ∀ {a b : Nat}, a ≤ b → min f.inf a ≤ min f.inf b := by intro a b h; omega
    unfold pick
    refine mono ?_
    cases h1 : compare (2 * p) v with
    | lt => cases h2 : compare (2 * p') v <;> simp only <;> (try split) <;> omega
    | eq =>
      cases h2 : compare (2 * p') v with
      | lt => exact absurd h2 (hc2 h1)
      | eq => exact Nat.le_refl _
      | gt => simp only; split <;> omega
    | gt => rw [hc h1]; exact Nat.le_refl _

/-- The result depends on the quotient only. -/
theorem roundRat_scale {p q k : Nat} (hk : 0 < k) : roundRat f (p * k) (q * k) = roundRat f p q := by
  unfold roundRat
  rw [Nat.mul_div_mul_right _ _ hk]
  have hc : ∀ v, compare (2 * (p * k)) (q * k * v) = compare (2 * p) (q * v) := by
    intro v
    rw [← Nat.mul_assoc, Nat.mul_right_comm q k v]
    rcases Nat.lt_trichotomy (2 * p) (q * v) with h | h | h
    · rw [Nat.compare_eq_lt.2 h, Nat.compare_eq_lt.2 (Nat.mul_lt_mul_of_pos_right h hk)]
    · rw [Nat.compare_eq_eq.2 h, h]; exact Nat.compare_eq_eq.2 rfl
    · rw [Nat.compare_eq_gt.2 h, Nat.compare_eq_gt.2 (Nat.mul_lt_mul_of_pos_right h hk)]
  simp only [hc]

theorem roundRat_mono_quot {p q p' q' : Nat} (hq : 0 < q) (hq' : 0 < q') (h : p * q' ≤ p' * q) :
    roundRat f p q ≤ roundRat f p' q' := by
  rw [← roundRat_scale (f := f) (p := p) (q := q) hq', ← roundRat_scale (f := f) (p := p') (q := q') hq, Nat.mul_comm q' q]
  exact roundRat_mono h

/-- Integers with at most `mb + 1` bits are converted exactly. -/
theorem val_round_nat {a e : Nat} (h : a < 2^(f.mb + 1)) (hi : floorPat f (a * 2^e) ≤ f.inf) :
    val f (roundRat f (a * 2^e) 1) = a * 2^e := by
  have hr := val_floorPat (f := f) a e h
  apply Nat.le_antisymm
  · conv => rhs; rw [← hr]
    refine val_le (roundRat_le_of (by decide) ?_)
    rw [hr, Nat.one_mul]; exact Nat.le_refl _
  · conv => lhs; rw [← hr]
    refine val_le (le_roundRat (by decide) ?_ hi)
    rw [hr, Nat.one_mul]; exact Nat.le_refl _

/-- `float64` to `uint64` of a non-negative number below `2^64`: the fraction is discarded.  (Outside that range Go leaves
the result open; it is not needed.) -/
def truncD (x : F64) : Nat := val f64 (un64 x).mag / 2^f64.unit

theorem inf64 : f64.inf = 0x7FF0000000000000 := by decide

theorem un_pk64 (x : Num) (h : x.mag < 2^63) : un64 (pk64 x) = x := by
  unfold un64 pk64
  cases x with
  | mk n m =>
    simp only [UInt64.toNat_ofNat'] at *
    cases n <;> simp at * <;> omega

end Veri.SF
