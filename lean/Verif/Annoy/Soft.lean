import Verif.Annoy.Lemmas
/-
The concrete instance `soft` meets the assumptions `Lib.Ok`.
-/
set_option autoImplicit false
set_option exponentiation.threshold 4000
namespace Veri
namespace Annoy
open SF

/-- A finite value is a mantissa times a power of two. -/
theorem val_form (f : Fmt) (n : Nat) : ∃ a e, a < 2^(f.mb + 1) ∧ val f n = a * 2^e := by
  unfold val
  have hp := Nat.pow_succ 2 f.mb
  have hpos := Nat.two_pow_pos f.mb
  split
  · exact ⟨n, 0, by omega, by simp⟩
  · exact ⟨_, _, by have := Nat.mod_lt n hpos; omega, rfl⟩

/-- The float of a number of items. -/
def sizeMag (n : Nat) : Nat := roundRat f32 (n * 2^f32.unit) 1

theorem sizeMag_bounds {n : Nat} (h0 : 0 < n) (h : n < 2^31) : 0x3F800000 ≤ sizeMag n ∧ sizeMag n ≤ 0x4F000000 := by
  constructor
  · refine le_roundRat (by decide) ?_ (by decide)
    rw [show val f32 0x3F800000 = 2^f32.unit by decide +kernel, Nat.one_mul]
    exact Nat.le_mul_of_pos_left _ h0
  · refine roundRat_le_of (by decide) ?_
    rw [show val f32 0x4F000000 = 2^31 * 2^f32.unit by decide +kernel, Nat.one_mul]
    exact Nat.mul_le_mul_right _ (Nat.le_of_lt h)

theorem sizeMag_val {n : Nat} (h0 : 0 < n) (h : n < 2^31) :
    2^149 ≤ val f32 (sizeMag n) ∧ val f32 (sizeMag n) ≤ 2^180 := by
  obtain ⟨h1, h2⟩ := sizeMag_bounds h0 h
  constructor
  · rw [show (2:Nat)^149 = val f32 0x3F800000 by decide +kernel]; exact val_le h1
  · rw [show (2:Nat)^180 = val f32 0x4F000000 by decide +kernel]; exact val_le h2

/-- The same as a double. -/
def wideMag (n : Nat) : Nat := roundRat f64 (val f32 (sizeMag n) * 2^925) 1

theorem wideMag_val {n : Nat} (h0 : 0 < n) (h : n < 2^31) : val f64 (wideMag n) = val f32 (sizeMag n) * 2^925 := by
  obtain ⟨a, e, ha, hv⟩ := val_form f32 (sizeMag n)
  have h2 := (sizeMag_val h0 h).2
  unfold wideMag
  rw [hv] at h2 ⊢
  rw [Nat.mul_assoc, ← Nat.pow_add]
  refine val_round_nat (Nat.lt_of_lt_of_le ha (by decide)) ?_
  refine Nat.le_trans (floorPat_mono (M := 2^180 * 2^925) ?_) (by decide +kernel)
  rw [Nat.pow_add, ← Nat.mul_assoc]
  exact Nat.mul_le_mul_right _ h2

theorem wideMag_lt {n : Nat} (h0 : 0 < n) (h : n < 2^31) : 0 < wideMag n ∧ wideMag n < f64.inf := by
  have hv := wideMag_val h0 h
  obtain ⟨h1, h2⟩ := sizeMag_val h0 h
  constructor
  · apply Nat.pos_of_ne_zero
    intro h3
    rw [h3, val_zero] at hv
    have := Nat.two_pow_pos 925
    have := Nat.mul_le_mul_right (2^925) h1
    omega
  · apply Nat.lt_of_not_le
    intro h3
    have := val_le (f := f64) h3
    rw [hv] at this
    have h4 := Nat.le_trans this (Nat.mul_le_mul_right _ h2)
    exact absurd h4 (by decide +kernel)

/-- The size of the sum of the two sides, plus `1e-9`. -/
def sumMag (n : Nat) : Nat := roundRat f64 (val f64 (wideMag n) + val f64 0x3E112E0BE826D695) 1

theorem sumMag_val {n : Nat} (h0 : 0 < n) (h : n < 2^31) :
    val f64 (wideMag n) ≤ val f64 (sumMag n) ∧ val f64 (sumMag n) ≤ val f32 (sizeMag n) * ((2^20 + 1) * 2^905) := by
  obtain ⟨h1, h2⟩ := sizeMag_val h0 h
  constructor
  · refine val_le (le_roundRat (by decide) ?_ (Nat.le_of_lt (wideMag_lt h0 h).2))
    rw [Nat.one_mul]; exact Nat.le_add_right _ _
  · obtain ⟨a, e, ha, hv⟩ := val_form f32 (sizeMag n)
    have hT : val f64 (floorPat f64 ((a * (2^20 + 1)) * 2^(e + 905))) = (a * (2^20 + 1)) * 2^(e + 905) := by
      refine val_floorPat _ _ ?_
      have : a * (2^20 + 1) < 2^24 * (2^20 + 1) := Nat.mul_lt_mul_of_pos_right ha (by decide)
      exact Nat.lt_of_lt_of_le this (by decide)
    have hT' : (a * (2^20 + 1)) * 2^(e + 905) = val f32 (sizeMag n) * ((2^20 + 1) * 2^905) := by
      rw [hv, Nat.pow_add]; ac_rfl
    rw [← hT', ← hT]
    refine val_le (roundRat_le_of (by decide) ?_)
    rw [hT, hT', Nat.one_mul, wideMag_val h0 h, Nat.add_mul, Nat.one_mul, ← Nat.pow_add, Nat.mul_add]
    refine Nat.add_le_add_left ?_ _
    refine Nat.le_trans ?_ (Nat.mul_le_mul_right _ h1)
    decide +kernel

theorem sumMag_lt {n : Nat} (h0 : 0 < n) (h : n < 2^31) : 0 < sumMag n ∧ sumMag n < f64.inf := by
  have hv := sumMag_val h0 h
  have hw := (wideMag_lt h0 h).1
  obtain ⟨h1, h2⟩ := sizeMag_val h0 h
  constructor
  · have := le_of_val_le hv.1; omega
  · apply Nat.lt_of_not_le
    intro h3
    have := val_le (f := f64) h3
    have h4 := Nat.le_trans (Nat.le_trans this hv.2) (Nat.mul_le_mul_right _ h2)
    exact absurd h4 (by decide +kernel)

theorem size_eq {n : Nat} (h0 : 0 < n) (h : n < 2^31) :
    (ops id).widen (pk32 ⟨false, roundRat f32 (n * 2^f32.unit) 1⟩) = pk64 ⟨false, wideMag n⟩ := by
  have hb := sizeMag_bounds h0 h
  show pk64 (widenN (un32 (pk32 ⟨false, sizeMag n⟩))) = _
  rw [un_pk32 _ (by simp only; omega)]
  unfold widenN
  have hi : f32.inf = 0x7F800000 := by decide
  rw [if_neg (by simp only [Num.isNaN, hi, decide_eq_true_eq]; omega), if_neg (by simp only [Num.isInf, hi, decide_eq_true_eq]; omega)]
  rfl

theorem size_zero : (ops id).widen (pk32 ⟨false, roundRat f32 (0 * 2^f32.unit) 1⟩) = pk64 ⟨false, 0⟩ := by decide +kernel

theorem un_pk_fin {m : Nat} (h : m < f64.inf) : un64 (pk64 ⟨false, m⟩) = ⟨false, m⟩ := by
  rw [inf64] at h
  exact un_pk64 _ (by simp only; omega)

theorem addD_pos {a b : Nat} (ha : a < f64.inf) (hb : b < f64.inf) (h : 0 < a ∨ 0 < b) :
    (ops id).addD (pk64 ⟨false, a⟩) (pk64 ⟨false, b⟩) = pk64 ⟨false, roundRat f64 (val f64 a + val f64 b) 1⟩ := by
  show pk64 (addN f64 (un64 (pk64 ⟨false, a⟩)) (un64 (pk64 ⟨false, b⟩))) = _
  rw [un_pk_fin ha, un_pk_fin hb]
  have hs : (0 : Int) < (val f64 a : Int) + val f64 b := by
    rcases h with h | h
    · have := Nat.pos_of_ne_zero (val_pos (f := f64) (n := a) (by omega)); omega
    · have := Nat.pos_of_ne_zero (val_pos (f := f64) (n := b) (by omega)); omega
  unfold addN
  rw [if_neg (by simp [Num.isNaN]; omega), if_neg (by simp [Num.isInf]; omega), if_neg (by simp [Num.isInf]; omega)]
  have e : Num.sval f64 ⟨false, a⟩ + Num.sval f64 ⟨false, b⟩ = (val f64 a : Int) + val f64 b := by simp [Num.sval]
  simp only [e]
  rw [if_neg (by omega), decide_eq_false (by omega)]
  congr 2

theorem addD_zero_right {a : Nat} (ha : a < f64.inf) (h : 0 < a) :
    (ops id).addD (pk64 ⟨false, a⟩) (pk64 ⟨false, 0⟩) = pk64 ⟨false, a⟩ := by
  rw [addD_pos ha (by decide) (.inl h), val_zero, Nat.add_zero, roundRat_val _ _ (Nat.le_of_lt ha)]

theorem addD_zero_left {a : Nat} (ha : a < f64.inf) (h : 0 < a) :
    (ops id).addD (pk64 ⟨false, 0⟩) (pk64 ⟨false, a⟩) = pk64 ⟨false, a⟩ := by
  rw [addD_pos (by decide) ha (.inr h), val_zero, Nat.zero_add, roundRat_val _ _ (Nat.le_of_lt ha)]

theorem addD_eps {n : Nat} (h0 : 0 < n) (h : n < 2^31) :
    (ops id).addD (pk64 ⟨false, wideMag n⟩) 0x3E112E0BE826D695 = pk64 ⟨false, sumMag n⟩ := by
  rw [show (0x3E112E0BE826D695 : F64) = pk64 ⟨false, 0x3E112E0BE826D695⟩ by decide +kernel,
    addD_pos (wideMag_lt h0 h).2 (by decide) (.inl (wideMag_lt h0 h).1)]
  rfl

theorem divD_pos {a b : Nat} (ha : a < f64.inf) (hb : b < f64.inf) (h : 0 < b) :
    (ops id).divD (pk64 ⟨false, a⟩) (pk64 ⟨false, b⟩) = pk64 ⟨false, roundRat f64 (val f64 a * 2^1074) (val f64 b)⟩ := by
  show pk64 (divN f64 (un64 (pk64 ⟨false, a⟩)) (un64 (pk64 ⟨false, b⟩))) = _
  rw [un_pk_fin ha, un_pk_fin hb]
  unfold divN
  rw [if_neg (by simp [Num.isNaN]; omega), if_neg (by simp [Num.isInf]; omega), if_neg (by simp [Num.isInf]; omega),
    if_neg (by simp only; omega)]
  rfl

/-- The quotient is close to one. -/
theorem quot_bounds {n : Nat} (h0 : 0 < n) (h : n < 2^31) :
    0x3FEFF00000000000 ≤ roundRat f64 (val f64 (wideMag n) * 2^1074) (val f64 (sumMag n)) ∧
    roundRat f64 (val f64 (wideMag n) * 2^1074) (val f64 (sumMag n)) ≤ 0x3FF0000000000000 := by
  have hv := sumMag_val h0 h
  have hpos : 0 < val f64 (sumMag n) := Nat.pos_of_ne_zero (val_pos (by have := (sumMag_lt h0 h).1; omega))
  constructor
  · refine le_roundRat hpos ?_ (by decide)
    rw [wideMag_val h0 h]
    refine Nat.le_trans (Nat.mul_le_mul_right _ hv.2) ?_
    rw [Nat.mul_assoc (val f32 _), Nat.mul_assoc (val f32 _) (2^925)]
    exact Nat.mul_le_mul_left _ (by decide +kernel)
  · refine roundRat_le_of hpos ?_
    rw [show val f64 0x3FF0000000000000 = 2^1074 by decide +kernel]
    exact Nat.mul_le_mul_right _ hv.1

theorem narrow_bounds {m : Nat} (h1 : 0x3FEFF00000000000 ≤ m) (h2 : m ≤ 0x3FF0000000000000) :
    ∃ c, narrow (pk64 ⟨false, m⟩) = pk32 ⟨false, c⟩ ∧ 0x3F7F8000 ≤ c ∧ c ≤ 0x3F800000 := by
  have hi : f64.inf = 0x7FF0000000000000 := inf64
  refine ⟨roundRat f32 (val f64 m) (2^925), ?_, ?_, ?_⟩
  · unfold narrow
    simp only
    rw [un_pk_fin (by omega), if_neg (by simp [Num.isNaN]; omega), if_neg (by simp [Num.isInf]; omega)]
    rfl
  · refine le_roundRat (by decide) ?_ (by decide)
    refine Nat.le_trans ?_ (val_le h1)
    decide +kernel
  · refine roundRat_le_of (by decide) (Nat.le_trans (val_le h2) ?_)
    decide +kernel

/-- A float of at least 0.998 is greater than 0.99 as a double. -/
theorem widen_over {x : F32} (hn : F32.isNaN x = false) (hk : (0x3F7F8000 : Int) ≤ F32.key x) :
    F64.lt 0x3FEFAE147AE147AE ((ops id).widen x) = true := by
  have hneg : F32.neg x = false := by
    cases h : F32.neg x with
    | false => rfl
    | true => simp only [F32.key, h, if_true] at hk; omega
  have hm : 0x3F7F8000 ≤ F32.mag x := by simp only [F32.key, hneg, Bool.false_eq_true, if_false] at hk; omega
  have hmi : F32.mag x ≤ 0x7F800000 := by simpa [F32.isNaN] using hn
  have hu : un32 x = ⟨false, F32.mag x⟩ := by
    unfold un32 F32.mag
    simp only [F32.neg] at hneg
    rw [hneg]
  have hw : ∃ c, (ops id).widen x = pk64 ⟨false, c⟩ ∧ 0x3FEFF00000000000 ≤ c ∧ c ≤ f64.inf := by
    show ∃ c, pk64 (widenN (un32 x)) = pk64 ⟨false, c⟩ ∧ _
    rw [hu]
    have hi : f32.inf = 0x7F800000 := by decide
    unfold widenN
    rw [if_neg (by simp only [Num.isNaN, hi, decide_eq_true_eq]; omega)]
    by_cases hinf : F32.mag x = 0x7F800000
    · rw [if_pos (by simp only [Num.isInf, hi, hinf, decide_true])]
      exact ⟨_, rfl, by decide, Nat.le_refl _⟩
    · rw [if_neg (by simp only [Num.isInf, hi, decide_eq_true_eq]; exact hinf)]
      refine ⟨_, rfl, ?_, roundRat_le _ _ _⟩
      refine le_roundRat (by decide) ?_ (by decide)
      refine Nat.le_trans ?_ (Nat.mul_le_mul_right _ (val_le hm))
      decide +kernel
  obtain ⟨c, hw, h1, h2⟩ := hw
  rw [hw]
  rw [inf64] at h2
  have hnat : (pk64 ⟨false, c⟩).toNat = c := by
    simp [pk64]; omega
  rw [F64.lt_iff]
  refine ⟨by decide, ?_, ?_⟩
  · simp only [F64.isNaN, F64.mag, hnat, decide_eq_false_iff_not]; omega
  · have hc : F64.key (pk64 ⟨false, c⟩) = c := by
      simp only [F64.key, F64.neg, F64.mag, hnat]
      rw [decide_eq_false (by omega), Nat.mod_eq_of_lt (by omega)]
      simp
    rw [hc, show F64.key 0x3FEFAE147AE147AE = (0x3FEFAE147AE147AE : Int) by decide +kernel]
    omega

theorem isNaN_pk {c : Nat} (h : c ≤ 0x3F800000) : F32.isNaN (pk32 ⟨false, c⟩) = false ∧ F32.key (pk32 ⟨false, c⟩) = c := by
  have hnat : (pk32 ⟨false, c⟩).toNat = c := by simp [pk32]; omega
  constructor
  · simp only [F32.isNaN, F32.mag, hnat, decide_eq_false_iff_not]; omega
  · simp only [F32.key, F32.neg, F32.mag, hnat]
    rw [decide_eq_false (by omega), Nat.mod_eq_of_lt (by omega)]
    simp

/-- The comparison with 0.99, from the quotient. -/
def over (q : F64) : Bool :=
  F64.lt 0x3FEFAE147AE147AE ((ops id).widen
    (if F32.lt (narrow q) ((ops id).sub 0x3F800000 (narrow q)) then (ops id).sub 0x3F800000 (narrow q) else narrow q))

theorem over99_eq {l r : Nat} {x y : F64} (hx : (ops id).widen (pk32 ⟨false, roundRat f32 (l * 2^f32.unit) 1⟩) = x)
    (hy : (ops id).widen (pk32 ⟨false, roundRat f32 (r * 2^f32.unit) 1⟩) = y) :
    soft.over99 l r = over ((ops id).divD x ((ops id).addD ((ops id).addD x y) 0x3E112E0BE826D695)) := by
  subst hx hy
  simp only [soft, imbalance, over]

theorem over_bounds {m : Nat} (h1 : 0x3FEFF00000000000 ≤ m) (h2 : m ≤ 0x3FF0000000000000) : over (pk64 ⟨false, m⟩) = true := by
  obtain ⟨c, hc, c1, c2⟩ := narrow_bounds h1 h2
  unfold over
  rw [hc]
  obtain ⟨k1, k2⟩ := isNaN_pk c2
  generalize (ops id).sub 0x3F800000 (pk32 ⟨false, c⟩) = g
  cases hlt : F32.lt (pk32 ⟨false, c⟩) g with
  | true =>
    simp only [F32.lt, Bool.and_eq_true, Bool.not_eq_true', decide_eq_true_eq] at hlt
    rw [if_pos rfl]
    exact widen_over hlt.1.2 (by omega)
  | false =>
    rw [if_neg (by simp)]
    exact widen_over k1 (by omega)

theorem soft_left (n : Nat) (h : n < 2^31) : soft.over99 n 0 = true := by
  rcases Nat.eq_zero_or_pos n with rfl | h0
  · decide +kernel
  · rw [over99_eq (size_eq h0 h) size_zero, addD_zero_right (wideMag_lt h0 h).2 (wideMag_lt h0 h).1, addD_eps h0 h,
      divD_pos (wideMag_lt h0 h).2 (sumMag_lt h0 h).2 (sumMag_lt h0 h).1]
    obtain ⟨q1, q2⟩ := quot_bounds h0 h
    exact over_bounds q1 q2

theorem soft_right (n : Nat) (h : n < 2^31) : soft.over99 0 n = true := by
  rcases Nat.eq_zero_or_pos n with rfl | h0
  · decide +kernel
  · rw [over99_eq size_zero (size_eq h0 h), addD_zero_left (wideMag_lt h0 h).2 (wideMag_lt h0 h).1, addD_eps h0 h,
      divD_pos (by decide) (sumMag_lt h0 h).2 (sumMag_lt h0 h).1, val_zero, Nat.zero_mul,
      roundRat_zero _ _ (Nat.pos_of_ne_zero (val_pos (by have := (sumMag_lt h0 h).1; omega)))]
    decide +kernel

/-! ### The sort -/

theorem ins_perm (x : F32 × Nat) (l : List (F32 × Nat)) : (soft.ins x l).Perm (x :: l) := by
  induction l with
  | nil => exact .refl _
  | cons y ys ih =>
    unfold soft.ins
    split
    · exact (ih.cons y).trans (.swap _ _ _)
    · exact .refl _

theorem pairLt_total {a b c : F32 × Nat} (ha : F32.isNaN a.1 = false) (hb : F32.isNaN b.1 = false) (hc : F32.isNaN c.1 = false) :
    (pairLt b a = false → pairLt c b = false → pairLt c a = false) ∧ (pairLt b a = true → pairLt a b = false) := by
  simp only [pairLt, F32.lt, ha, hb, hc, Bool.not_false, Bool.true_and, Bool.or_eq_true, Bool.or_eq_false_iff, Bool.and_eq_true,
    Bool.and_eq_false_iff, decide_eq_true_eq, decide_eq_false_iff_not, Bool.not_eq_true', Bool.not_eq_false']
  omega

theorem ins_sorted {x : F32 × Nat} {l : List (F32 × Nat)} (hx : F32.isNaN x.1 = false) (hl : ∀ y ∈ l, F32.isNaN y.1 = false)
    (h : l.Pairwise fun a b => pairLt b a = false) : (soft.ins x l).Pairwise fun a b => pairLt b a = false := by
  induction l with
  | nil => simp [soft.ins]
  | cons y ys ih =>
    have hy := hl y (by simp)
    have hys : ∀ z ∈ ys, F32.isNaN z.1 = false := fun z hz => hl z (by simp [hz])
    rw [List.pairwise_cons] at h
    unfold soft.ins
    split
    · rename_i hlt
      refine List.pairwise_cons.2 ⟨fun z hz => ?_, ih hys h.2⟩
      rcases List.mem_cons.1 ((ins_perm x ys).subset hz) with rfl | hz
      · exact (pairLt_total hx hy hy).2 hlt
      · exact h.1 z hz
    · rename_i hlt
      have hlt : pairLt y x = false := by simpa using hlt
      refine List.pairwise_cons.2 ⟨fun z hz => ?_, List.pairwise_cons.2 h⟩
      rcases List.mem_cons.1 hz with rfl | hz
      · exact hlt
      · exact (pairLt_total hx hy (hys z hz)).1 hlt (h.1 z hz)

theorem soft_perm (l : List (F32 × Nat)) : (soft.sort l).Perm l := by
  induction l with
  | nil => exact .refl _
  | cons x xs ih => exact (ins_perm x _).trans (ih.cons x)

theorem soft_sorted (l : List (F32 × Nat)) (h : ∀ x ∈ l, F32.isNaN x.1 = false) :
    (soft.sort l).Pairwise fun a b => pairLt b a = false := by
  induction l with
  | nil => exact .nil
  | cons x xs ih =>
    refine ins_sorted (h x (by simp)) (fun y hy => h y ?_) (ih fun y hy => h y (by simp [hy]))
    exact List.mem_cons_of_mem _ ((soft_perm xs).subset hy)

/-- The assumptions are met. -/
theorem soft_ok : soft.Ok := ⟨soft_left, soft_right, soft_perm, soft_sorted⟩

end Annoy
end Veri
