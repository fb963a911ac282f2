import Verif.Vector.Props
/-
A concrete instance of `FOps` on bit patterns: IEEE-754 binary32/binary64 arithmetic, round to nearest
even, every operation rounded separately, NaN results canonical.  It satisfies all of `FLaws` and `Bits`,
so the theorems that assume those laws are about something.
-/
set_option autoImplicit false
namespace Veri.SF
set_option exponentiation.threshold 4000

/-- A binary format: mantissa bits and exponent bits. -/
structure Fmt where
  mb : Nat
  eb : Nat

def f32 : Fmt := ⟨23, 8⟩
def f64 : Fmt := ⟨52, 11⟩

/-- Magnitude pattern of infinity. -/
def Fmt.inf (f : Fmt) : Nat := (2^f.eb - 1) * 2^f.mb
/-- Magnitude pattern of the canonical NaN. -/
def Fmt.nan (f : Fmt) : Nat := f.inf + 2^(f.mb - 1)
/-- The least positive number is `2^-unit`. -/
def Fmt.unit (f : Fmt) : Nat := 2^(f.eb - 1) - 2 + f.mb

/-- Value of a finite magnitude pattern, in units of the least positive number. -/
def val (f : Fmt) (n : Nat) : Nat :=
  if n < 2^f.mb then n else (2^f.mb + n % 2^f.mb) * 2^(n / 2^f.mb - 1)

/-- The largest pattern whose value is at most `N`. -/
def floorPat (f : Fmt) (N : Nat) : Nat :=
  if N < 2^f.mb then N else (Nat.log2 N - f.mb) * 2^f.mb + N / 2^(Nat.log2 N - f.mb)

/-- Choose between a pattern and its successor by comparing twice the number with the sum of the two
values (`c`), ties to even; overflow to infinity. -/
def pick (f : Fmt) (n : Nat) (c : Ordering) : Nat :=
  min f.inf (match c with
    | .lt => n
    | .gt => n + 1
    | .eq => if n % 2 = 0 then n else n + 1)

/-- Round the rational `p / q` (in units). -/
def roundRat (f : Fmt) (p q : Nat) : Nat :=
  let n := floorPat f (p / q)
  pick f n (compare (2 * p) (q * (val f n + val f (n + 1))))

/-- A float as sign and magnitude pattern. -/
structure Num where
  neg : Bool
  mag : Nat
  deriving DecidableEq, Repr

variable (f : Fmt)

def nanN : Num := ⟨false, f.nan⟩
def Num.isNaN (x : Num) : Bool := decide (f.inf < x.mag)
def Num.isInf (x : Num) : Bool := decide (x.mag = f.inf)
/-- Signed value in units. -/
def Num.sval (x : Num) : Int := if x.neg then -(val f x.mag : Int) else val f x.mag

def addN (a b : Num) : Num :=
  if a.isNaN f || b.isNaN f then nanN f
  else if a.isInf f then (if b.isInf f && (a.neg != b.neg) then nanN f else a)
  else if b.isInf f then b
  else
    let s := a.sval f + b.sval f
    if s = 0 then ⟨a.neg && b.neg, 0⟩
    else ⟨decide (s < 0), roundRat f s.natAbs 1⟩

def negN (a : Num) : Num := ⟨!a.neg, a.mag⟩

def subN (a b : Num) : Num := addN f a (negN b)

def mulN (a b : Num) : Num :=
  if a.isNaN f || b.isNaN f then nanN f
  else if a.isInf f || b.isInf f then
    (if a.mag = 0 || b.mag = 0 then nanN f else ⟨a.neg != b.neg, f.inf⟩)
  else ⟨a.neg != b.neg, roundRat f (val f a.mag * val f b.mag) (2^f.unit)⟩

def divN (a b : Num) : Num :=
  if a.isNaN f || b.isNaN f then nanN f
  else if a.isInf f then (if b.isInf f then nanN f else ⟨a.neg != b.neg, f.inf⟩)
  else if b.isInf f then ⟨a.neg != b.neg, 0⟩
  else if b.mag = 0 then (if a.mag = 0 then nanN f else ⟨a.neg != b.neg, f.inf⟩)
  else ⟨a.neg != b.neg, roundRat f (val f a.mag * 2^f.unit) (val f b.mag)⟩

/-- Integer square root, bit by bit: `isqrt (k+1) n r` extends the root `r` by the bits `k, ..., 0`. -/
def isqrt : Nat → Nat → Nat → Nat
  | 0, _, r => r
  | k + 1, n, r => isqrt k n (if (r + 2^k) * (r + 2^k) ≤ n then r + 2^k else r)

def sqrtN (a : Num) : Num :=
  if a.isNaN f then nanN f
  else if a.mag = 0 then a
  else if a.neg then nanN f
  else if a.isInf f then a
  else
    let sq := val f a.mag * 2^f.unit
    let n := floorPat f (isqrt (sq.log2 / 2 + 1) sq 0)
    let m := val f n + val f (n + 1)
    ⟨false, pick f n (compare (4 * sq) (m * m))⟩

def absN (a : Num) : Num := ⟨false, a.mag⟩

/-- float32 to float64, exact. -/
def widenN (a : Num) : Num :=
  if a.isNaN f32 then nanN f64
  else if a.isInf f32 then ⟨a.neg, f64.inf⟩
  else ⟨a.neg, roundRat f64 (val f32 a.mag * 2^(f64.unit - f32.unit)) 1⟩

def un32 (x : F32) : Num := ⟨decide (2^31 ≤ x.toNat), x.toNat % 2^31⟩
def pk32 (x : Num) : F32 := UInt32.ofNat ((if x.neg then 2^31 else 0) + x.mag)
def un64 (x : F64) : Num := ⟨decide (2^63 ≤ x.toNat), x.toNat % 2^63⟩
def pk64 (x : Num) : F64 := UInt64.ofNat ((if x.neg then 2^63 else 0) + x.mag)

/-- The instance.  `acos` and pi have no influence on the laws; `acos` is left to the caller. -/
def ops (acos : F64 → F64) : FOps F32 F64 where
  zero := 0
  isZero := F32.isZero
  add a b := pk32 (addN f32 (un32 a) (un32 b))
  sub a b := pk32 (subN f32 (un32 a) (un32 b))
  mul a b := pk32 (mulN f32 (un32 a) (un32 b))
  div a b := pk32 (divN f32 (un32 a) (un32 b))
  madd acc a b := pk32 (addN f32 (un32 acc) (un32 (pk32 (mulN f32 (un32 a) (un32 b)))))
  sq a := pk32 (mulN f32 (un32 a) (un32 a))
  abs a := pk32 (absN (un32 a))
  sqrt a := pk32 (sqrtN f32 (un32 a))
  widen a := pk64 (widenN (un32 a))
  zeroD := 0
  oneD := F64.one
  negOneD := F64.negOne
  piD := 0x400921FB54442D18
  ltD := F64.lt
  addD a b := pk64 (addN f64 (un64 a) (un64 b))
  subD a b := pk64 (subN f64 (un64 a) (un64 b))
  mulD a b := pk64 (mulN f64 (un64 a) (un64 b))
  divD a b := pk64 (divN f64 (un64 a) (un64 b))
  sqrtD a := pk64 (sqrtN f64 (un64 a))
  acosD := acos
  ofNatD n := pk64 ⟨false, roundRat f64 (n * 2^f64.unit) 1⟩

theorem val_pos {f : Fmt} {n : Nat} (h : n ≠ 0) : val f n ≠ 0 := by
  unfold val
  split
  · exact h
  · have : 0 < 2^f.mb := Nat.two_pow_pos _
    have := Nat.mul_pos (show 0 < 2^f.mb + n % 2^f.mb by omega) (Nat.two_pow_pos (n / 2^f.mb - 1))
    omega

theorem val_zero (f : Fmt) : val f 0 = 0 := by
  unfold val
  rw [if_pos (Nat.two_pow_pos _)]

theorem log2_eq {N k : Nat} (h1 : 2^k ≤ N) (h2 : N < 2^(k+1)) : Nat.log2 N = k := by
  have hN : N ≠ 0 := by have := Nat.two_pow_pos k; omega
  exact (Nat.log2_eq_iff hN).2 ⟨h1, h2⟩

theorem floorPat_val (f : Fmt) (n : Nat) : floorPat f (val f n) = n := by
  unfold val
  have hp : 0 < 2^f.mb := Nat.two_pow_pos _
  split
  · rename_i h; unfold floorPat; rw [if_pos h]
  · rename_i h
    have hE : 1 ≤ n / 2^f.mb := (Nat.one_le_div_iff hp).2 (by omega)
    have hF : n % 2^f.mb < 2^f.mb := Nat.mod_lt _ hp
    have hdm := Nat.div_add_mod n (2^f.mb)
    generalize hE' : n / 2^f.mb = E at *
    generalize n % 2^f.mb = F at *
    have hpe : 0 < 2^(E-1) := Nat.two_pow_pos _
    have hge : 2^(f.mb + (E-1)) ≤ (2^f.mb + F) * 2^(E-1) := by
      rw [Nat.pow_add]; exact Nat.mul_le_mul_right _ (by omega)
    have hlt : (2^f.mb + F) * 2^(E-1) < 2^(f.mb + (E-1) + 1) := by
      have : 2^(f.mb + (E-1) + 1) = (2^f.mb + 2^f.mb) * 2^(E-1) := by
        rw [Nat.pow_succ, Nat.pow_add]; rw [Nat.mul_comm (_ * _) 2, ← Nat.mul_assoc]; congr 1; omega
      rw [this]
      exact Nat.mul_lt_mul_of_pos_right (by omega) hpe
    have hlog := log2_eq hge hlt
    unfold floorPat
    have hnot : ¬ (2^f.mb + F) * 2^(E-1) < 2^f.mb := by
      have : 2^f.mb ≤ 2^(f.mb + (E-1)) := Nat.pow_le_pow_right (by omega) (by omega)
      omega
    rw [if_neg hnot, hlog, Nat.add_sub_cancel_left, Nat.mul_div_cancel _ hpe]
    have : (E - 1) * 2^f.mb + 2^f.mb = 2^f.mb * E := by
      rw [Nat.mul_comm (2^f.mb) E]
      conv => rhs; rw [show E = (E - 1) + 1 by omega]
      rw [Nat.add_mul, Nat.one_mul]
    omega

theorem val_lt_succ (f : Fmt) (n : Nat) : val f n < val f (n + 1) := by
  have hp : 0 < 2^f.mb := Nat.two_pow_pos _
  unfold val
  by_cases h : n + 1 < 2^f.mb
  · rw [if_pos (by omega), if_pos h]; omega
  · by_cases h2 : n < 2^f.mb
    · rw [if_pos h2, if_neg h]
      have : n + 1 = 2^f.mb := by omega
      rw [this, Nat.mod_self, Nat.div_self hp]
      simp; omega
    · rw [if_neg h2, if_neg h]
      have hE : 1 ≤ n / 2^f.mb := (Nat.one_le_div_iff hp).2 (by omega)
      have hF : n % 2^f.mb < 2^f.mb := Nat.mod_lt _ hp
      have hdm := Nat.div_add_mod n (2^f.mb)
      by_cases hc : n % 2^f.mb + 1 < 2^f.mb
      · have e : n + 1 = 2^f.mb * (n / 2^f.mb) + (n % 2^f.mb + 1) := by omega
        rw [e, Nat.mul_add_mod, Nat.mod_eq_of_lt hc, Nat.mul_add_div hp, Nat.div_eq_of_lt hc, Nat.add_zero]
        exact Nat.mul_lt_mul_of_pos_right (by omega) (Nat.two_pow_pos _)
      · have e : n + 1 = 2^f.mb * (n / 2^f.mb + 1) := by rw [Nat.mul_add]; omega
        rw [e, Nat.mul_mod_right, Nat.mul_div_cancel_left _ hp, Nat.add_zero]
        have : 2^(n / 2^f.mb + 1 - 1) = 2 * 2^(n / 2^f.mb - 1) := by
          rw [← Nat.pow_succ']; congr 1; omega
        rw [this, ← Nat.mul_assoc]
        exact Nat.mul_lt_mul_of_pos_right (by omega) (Nat.two_pow_pos _)

/-- Rounding leaves a representable number alone. -/
theorem roundRat_val (f : Fmt) (n : Nat) (h : n ≤ f.inf) : roundRat f (val f n) 1 = n := by
  unfold roundRat
  simp only [Nat.div_one, floorPat_val, Nat.one_mul]
  have hlt : compare (2 * val f n) (val f n + val f (n + 1)) = .lt := by
    rw [Nat.compare_eq_lt]; have := val_lt_succ f n; omega
  rw [hlt]
  simp [pick, Nat.min_eq_right h]

theorem pick_le (f : Fmt) (n : Nat) (c : Ordering) : pick f n c ≤ f.inf := Nat.min_le_left _ _

theorem roundRat_le (f : Fmt) (p q : Nat) : roundRat f p q ≤ f.inf := pick_le _ _ _

theorem floorPat_pos {f : Fmt} {N : Nat} (h : N ≠ 0) : floorPat f N ≠ 0 := by
  unfold floorPat
  split
  · exact h
  · have h1 : 2 ^ Nat.log2 N ≤ N := Nat.log2_self_le h
    have h2 : 2 ^ (Nat.log2 N - f.mb) ≤ N :=
      Nat.le_trans (Nat.pow_le_pow_right (by omega) (by omega)) h1
    have := (Nat.one_le_div_iff (Nat.two_pow_pos (Nat.log2 N - f.mb))).2 h2
    omega

theorem roundRat_pos {f : Fmt} (hf : f.inf ≠ 0) {N : Nat} (h : N ≠ 0) : roundRat f N 1 ≠ 0 := by
  unfold roundRat
  simp only [Nat.div_one]
  have := floorPat_pos (f := f) h
  generalize floorPat f N = n at *
  generalize compare (2 * N) _ = c
  unfold pick
  cases c <;> simp only <;> (try split) <;> omega

theorem roundRat_zero (f : Fmt) (q : Nat) (hq : 0 < q) : roundRat f 0 q = 0 := by
  unfold roundRat
  have h0 : floorPat f 0 = 0 := by unfold floorPat; rw [if_pos (Nat.two_pow_pos _)]
  simp only [Nat.zero_div, h0, Nat.mul_zero, val_zero, Nat.zero_add]
  have h1 : val f 1 ≠ 0 := val_pos (by decide)
  have : compare 0 (q * val f 1) = .lt := by
    rw [Nat.compare_eq_lt]; exact Nat.mul_pos hq (by omega)
  rw [this]
  simp [pick]

theorem un_pk32 (x : Num) (h : x.mag < 2^31) : un32 (pk32 x) = x := by
  unfold un32 pk32
  cases x with
  | mk n m =>
    simp only [UInt32.toNat_ofNat'] at *
    cases n <;> simp at * <;> omega

theorem pk_un32 (x : F32) : pk32 (un32 x) = x := by
  unfold un32 pk32
  apply UInt32.toNat_inj.1
  have := x.toNat_lt
  simp only [decide_eq_true_eq, UInt32.toNat_ofNat']
  split <;> omega

theorem un32_mag_lt (x : F32) : (un32 x).mag < 2^31 := Nat.mod_lt _ (by decide)

theorem inf32 : f32.inf = 0x7F800000 := by decide
theorem nan32 : f32.nan = 0x7FC00000 := by decide

theorem addN_mag_lt (a b : Num) (ha : a.mag < 2^31) (hb : b.mag < 2^31) : (addN f32 a b).mag < 2^31 := by
  have h1 := inf32
  have h2 := nan32
  have h3 := roundRat_le f32 (a.sval f32 + b.sval f32).natAbs 1
  unfold addN
  simp only []
  repeat' split
  all_goals first | assumption | (simp only [nanN]; omega)

theorem subN_mag_lt (a b : Num) (ha : a.mag < 2^31) (hb : b.mag < 2^31) : (subN f32 a b).mag < 2^31 :=
  addN_mag_lt a (negN b) ha hb

theorem mulN_mag_lt (a b : Num) : (mulN f32 a b).mag < 2^31 := by
  have h1 := inf32
  have h2 := nan32
  have h3 := roundRat_le f32 (val f32 a.mag * val f32 b.mag) (2^f32.unit)
  unfold mulN
  repeat' split
  all_goals (simp only [nanN]; omega)

theorem sval_neg (f : Fmt) (a : Num) : (negN a).sval f = -(a.sval f) := by
  unfold Num.sval negN
  cases a.neg <;> simp

theorem subN_mag_symm (f : Fmt) (a b : Num) : (subN f a b).mag = (subN f b a).mag := by
  unfold subN addN
  have e1 : ∀ x : Num, (negN x).isNaN f = x.isNaN f := fun _ => rfl
  have e2 : ∀ x : Num, (negN x).isInf f = x.isInf f := fun _ => rfl
  simp only [e1, e2, sval_neg]
  rw [Bool.or_comm (b.isNaN f)]
  cases hn : (a.isNaN f || b.isNaN f)
  · cases ha : a.isInf f <;> cases hb : b.isInf f
    · simp only [if_neg Bool.false_ne_true]
      by_cases hz : a.sval f + -b.sval f = 0
      · rw [if_pos hz, if_pos (by omega)]
      · rw [if_neg hz, if_neg (by omega)]
        simp only []
        congr 1; omega
    · simp [negN]
    · simp [negN]
    · simp only [Num.isInf, decide_eq_true_eq] at ha hb
      cases han : a.neg <;> cases hbn : b.neg <;> simp [negN, han, hbn, ha, hb]
  · simp

theorem mulN_self_of_mag {f : Fmt} {x y : Num} (h : x.mag = y.mag) : mulN f x x = mulN f y y := by
  unfold mulN Num.isNaN Num.isInf
  rw [h]
  cases x.neg <;> cases y.neg <;> rfl

theorem mulN_comm (f : Fmt) (a b : Num) : mulN f a b = mulN f b a := by
  unfold mulN
  rw [Bool.or_comm (a.isNaN f), Bool.or_comm (a.isInf f), Nat.mul_comm (val f a.mag)]
  have : (a.neg != b.neg) = (b.neg != a.neg) := by cases a.neg <;> cases b.neg <;> rfl
  rw [this, Bool.or_comm (decide (a.mag = 0))]

theorem isZero_iff (x : F32) : F32.isZero x = true ↔ (un32 x).mag = 0 := by
  unfold F32.isZero F32.mag un32; exact decide_eq_true_iff

theorem isFinite_iff (x : F32) : F32.isFinite x = true ↔ (un32 x).mag < f32.inf := by
  rw [inf32]; unfold F32.isFinite F32.mag un32; exact decide_eq_true_iff

theorem mulN_zero (x y : Num) (hx : x.mag < f32.inf) (hy : y.mag = 0) : (mulN f32 x y).mag = 0 := by
  have h1 : x.isNaN f32 = false := by simp [Num.isNaN]; omega
  have h2 : x.isInf f32 = false := by simp [Num.isInf]; omega
  have h3 : y.isNaN f32 = false := by simp [Num.isNaN, hy]
  have h4 : y.isInf f32 = false := by simp [Num.isInf, hy, inf32]
  simp [mulN, h1, h2, h3, h4, hy, val_zero, roundRat_zero _ _ (Nat.two_pow_pos _)]

/-- Sums from +0: not -0, and NaN only in canonical form. -/
def IsSum (x : Num) : Prop := (x.mag = 0 → x.neg = false) ∧ (f32.inf < x.mag → x = nanN f32)

theorem isSum_nan : IsSum (nanN f32) := ⟨by decide, fun _ => rfl⟩

theorem isSum_addN (a b : Num) (h : IsSum a) : IsSum (addN f32 a b) := by
  unfold addN
  split
  · exact isSum_nan
  · rename_i hn
    simp only [Bool.or_eq_true, not_or, Bool.not_eq_true] at hn
    split
    · split
      · exact isSum_nan
      · exact h
    · split
      · rename_i hbi
        simp only [Num.isInf, decide_eq_true_eq] at hbi
        exact ⟨by rw [hbi]; simp [inf32], by rw [hbi]; simp⟩
      · simp only []
        split
        · rename_i hai hbi hz
          constructor
          · intro _
            simp only [Bool.and_eq_false_iff]
            by_cases ha : a.neg = true
            · by_cases ham : a.mag = 0
              · exact absurd (h.1 ham) (by simp [ha])
              · right
                have hv := val_pos (f := f32) ham
                cases hb : b.neg
                · rfl
                · exfalso
                  simp only [Num.sval, ha, hb, if_true] at hz
                  omega
            · left; simpa using ha
          · simp [inf32]
        · rename_i hz
          have hp : roundRat f32 (a.sval f32 + b.sval f32).natAbs 1 ≠ 0 :=
            roundRat_pos (by decide) (by omega)
          have hle := roundRat_le f32 (a.sval f32 + b.sval f32).natAbs 1
          exact ⟨fun h => absurd h hp, fun h => by simp only at h; omega⟩

theorem addN_zero_right (a z : Num) (h : IsSum a) (hz : z.mag = 0) : addN f32 a z = a := by
  unfold addN
  have hz1 : z.isNaN f32 = false := by simp [Num.isNaN, hz]
  have hz2 : z.isInf f32 = false := by simp [Num.isInf, hz, inf32]
  have hz3 : z.sval f32 = 0 := by simp [Num.sval, hz, val_zero]
  simp only [hz1, hz2, hz3, Bool.or_false, Bool.false_and, Int.add_zero]
  cases hn : a.isNaN f32
  · simp only [if_neg Bool.false_ne_true]
    cases hi : a.isInf f32
    · simp only [if_neg Bool.false_ne_true]
      by_cases hm : a.mag = 0
      · have hs : a.sval f32 = 0 := by simp [Num.sval, hm, val_zero]
        rw [if_pos hs, h.1 hm]
        cases a with
        | mk n m => simp only at hm; have := h.1 hm; simp only at this; simp [hm, this]
      · have hv := val_pos (f := f32) hm
        have hs : a.sval f32 ≠ 0 := by unfold Num.sval; split <;> omega
        rw [if_neg hs]
        have h1 : (a.sval f32).natAbs = val f32 a.mag := by unfold Num.sval; split <;> omega
        have h2 : decide (a.sval f32 < 0) = a.neg := by
          unfold Num.sval
          cases a.neg <;> simp <;> omega
        simp only [Num.isNaN, decide_eq_false_iff_not, Nat.not_lt] at hn
        rw [h1, h2, roundRat_val f32 a.mag hn]
    · simp
  · simp only [if_true]
    simp only [Num.isNaN, decide_eq_true_eq] at hn
    exact (h.2 hn).symm

/-- The soft-float arithmetic satisfies the laws. -/
def laws (acos : F64 → F64) : FLaws (ops acos) where
  same := Eq
  same_refl _ := rfl
  sq_sub acc acc' a b h := by
    subst h
    simp only [ops]
    have hm : (un32 (pk32 (subN f32 (un32 a) (un32 b)))).mag = (un32 (pk32 (subN f32 (un32 b) (un32 a)))).mag := by
      rw [un_pk32 _ (subN_mag_lt _ _ (un32_mag_lt a) (un32_mag_lt b)),
        un_pk32 _ (subN_mag_lt _ _ (un32_mag_lt b) (un32_mag_lt a))]
      exact subN_mag_symm _ _ _
    rw [mulN_self_of_mag hm]
  abs_sub a b := by
    simp only [ops, absN]
    have hm : (un32 (pk32 (subN f32 (un32 a) (un32 b)))).mag = (un32 (pk32 (subN f32 (un32 b) (un32 a)))).mag := by
      rw [un_pk32 _ (subN_mag_lt _ _ (un32_mag_lt a) (un32_mag_lt b)),
        un_pk32 _ (subN_mag_lt _ _ (un32_mag_lt b) (un32_mag_lt a))]
      exact subN_mag_symm _ _ _
    rw [hm]
  madd_comm acc acc' a b h := by subst h; simp only [ops]; rw [mulN_comm]
  madd_congr acc acc' a b h := by rw [h]
  mul_comm_sqrt n n' a a' b b' h1 h2 h3 := by subst h1; subst h2; subst h3; simp only [ops]; rw [mulN_comm]
  widen_congr a b h := by rw [h]
  isZero_congr a b h := by rw [h]
  finite x := F32.isFinite x = true
  sub_self x hx := by
    have hs : (ops acos).sub x x = 0 := by
      simp only [ops, subN]
      rw [isFinite_iff] at hx
      generalize un32 x = u at hx
      have h1 : u.isNaN f32 = false := by simp [Num.isNaN]; omega
      have h2 : u.isInf f32 = false := by simp [Num.isInf]; omega
      have h3 : (negN u).isNaN f32 = false := h1
      have h4 : (negN u).isInf f32 = false := h2
      have h5 : u.sval f32 + (negN u).sval f32 = 0 := by rw [sval_neg]; omega
      unfold addN
      simp only [h1, h2, h3, h4, h5, Bool.or_self, if_neg Bool.false_ne_true, if_true]
      cases hu : u.neg <;> simp [negN, hu] <;> decide
    rw [hs]
    constructor <;> rfl
  add_zero_zero := by rfl
  sqrtD_zero := show pk64 (sqrtN f64 (un64 (pk64 (widenN (un32 0))))) = 0 by decide +kernel
  addD_zero := show pk64 (addN f64 (un64 0) (un64 (pk64 (widenN (un32 0))))) = 0 by decide +kernel
  isZero_zero := by rfl
  madd_isZero acc x h1 h2 := by
    simp only [ops] at h1 h2 ⊢
    rw [isZero_iff] at *
    rw [un_pk32 _ (mulN_mag_lt _ _)]
    have hz := mulN_zero (un32 x) (un32 x) (by rw [h2]; decide) h2
    rw [un_pk32 _ (addN_mag_lt _ _ (un32_mag_lt _) (mulN_mag_lt _ _))]
    generalize un32 acc = a at *
    generalize mulN f32 (un32 x) (un32 x) = z at *
    have e1 : a.isNaN f32 = false := by simp [Num.isNaN, h1]
    have e2 : a.isInf f32 = false := by simp [Num.isInf, h1, inf32]
    have e3 : z.isNaN f32 = false := by simp [Num.isNaN, hz]
    have e4 : z.isInf f32 = false := by simp [Num.isInf, hz, inf32]
    have e5 : a.sval f32 = 0 := by simp [Num.sval, h1, val_zero]
    have e6 : z.sval f32 = 0 := by simp [Num.sval, hz, val_zero]
    simp [addN, e1, e2, e3, e4, e5, e6]
  sum x := IsSum (un32 x)
  sum_zero := show IsSum (un32 0) from ⟨by decide, by decide⟩
  sum_madd acc a b h := by
    simp only [ops]
    rw [un_pk32 _ (addN_mag_lt _ _ (un32_mag_lt _) (un32_mag_lt _))]
    exact isSum_addN _ _ h
  madd_zero acc x h hx := by
    simp only [ops]
    rw [isFinite_iff] at hx
    have hz : (un32 0).mag = 0 := by decide
    have h1 : un32 (pk32 (mulN f32 (un32 x) (un32 0))) = mulN f32 (un32 x) (un32 0) := un_pk32 _ (mulN_mag_lt _ _)
    constructor
    · rw [h1, addN_zero_right _ _ h (mulN_zero _ _ hx hz), pk_un32]
    · rw [mulN_comm, h1, addN_zero_right _ _ h (mulN_zero _ _ hx hz), pk_un32]
  finite_zero := by rfl

theorem bits (acos : F64 → F64) : Bits (ops acos) :=
  ⟨rfl, fun _ => rfl, rfl, rfl, rfl, fun _ _ => rfl⟩

/-- Some sums on bit patterns: 1 + 2 = 3, 0.1 + 0.2 rounds to 0.3 (float32), sqrt 2, 1/3, overflow to infinity,
infinity minus infinity. -/
example : (ops id).add 0x3F800000 0x40000000 = 0x40400000 ∧
    (ops id).add 0x3DCCCCCD 0x3E4CCCCD = 0x3E99999A ∧
    (ops id).sqrt 0x40000000 = 0x3FB504F3 ∧
    (ops id).div 0x3F800000 0x40400000 = 0x3EAAAAAB ∧
    (ops id).mul 0x7F7FFFFF 0x40000000 = 0x7F800000 ∧
    (ops id).sub 0x7F800000 0x7F800000 = 0x7FC00000 ∧
    (ops id).widen 0x3DCCCCCD = 0x3FB99999A0000000 := by decide +kernel

/-- The vector functions computed: a 3-4-5 triangle, and two parallel vectors of different length. -/
example : Vec.vectorDistance (ops id) [0, 0x40400000] [0x40800000, 0] = 0x4014000000000000 := by
  decide +kernel

example : Vec.cosineSimilarity (ops id) [0x3F800000, 0] [0x40000000] = F64.one := by
  decide +kernel

end Veri.SF
