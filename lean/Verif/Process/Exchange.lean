import Verif.Process.Props
import Verif.Search.Limits
/-
C107: peers exchange data until their statistics are close (data/data.go:170-195).
-/
set_option autoImplicit false
namespace Veri
open SF Proc

namespace Exch
set_option exponentiation.threshold 4000

theorem ofNat_fin {t : Nat} (h : t < 2^64) : un64 ((ops id).ofNatD t) = ⟨false, Tmo.ofNatPat t⟩ ∧ Tmo.ofNatPat t < f64.inf := by
  have hX := Tmo.ofNatPat_finite h
  have hinf : f64.inf < 2^63 := by decide
  refine ⟨?_, hX⟩
  show un64 (pk64 ⟨false, Tmo.ofNatPat t⟩) = _
  exact un_pk64 _ (by simp only; omega)

theorem val_ofNat {t : Nat} (h : t < 2^53) : val f64 (Tmo.ofNatPat t) = t * 2^f64.unit := by
  refine val_round_nat h ?_
  refine Nat.le_trans (floorPat_mono (M := 2^53 * 2^f64.unit) (Nat.mul_le_mul_right _ (Nat.le_of_lt h))) ?_
  decide +kernel

/-- `float64(a) / float64(b)` for integers below `2^53`. -/
theorem div_nat (acos : F64 → F64) {a b : Nat} (ha : a < 2^53) (hb : b < 2^53) (hb0 : 0 < b) :
    (ops acos).divD ((ops acos).ofNatD a) ((ops acos).ofNatD b) = pk64 ⟨false, roundRat f64 (a * 2^f64.unit) b⟩ := by
  show pk64 (divN f64 (un64 ((ops id).ofNatD a)) (un64 ((ops id).ofNatD b))) = _
  obtain ⟨ea, fa⟩ := ofNat_fin (t := a) (by omega)
  obtain ⟨eb, fb⟩ := ofNat_fin (t := b) (by omega)
  rw [ea, eb]
  have hva := val_ofNat ha
  have hvb := val_ofNat hb
  have hU : 0 < 2^f64.unit := Nat.two_pow_pos _
  have hb1 : Tmo.ofNatPat b ≠ 0 := by
    intro h0
    rw [h0, val_zero] at hvb
    have := Nat.mul_pos hb0 hU
    omega
  unfold divN
  have a1 : (Num.mk false (Tmo.ofNatPat a)).isNaN f64 = false := by simp [Num.isNaN]; omega
  have a2 : (Num.mk false (Tmo.ofNatPat a)).isInf f64 = false := by simp [Num.isInf]; omega
  have a3 : (Num.mk false (Tmo.ofNatPat b)).isNaN f64 = false := by simp [Num.isNaN]; omega
  have a4 : (Num.mk false (Tmo.ofNatPat b)).isInf f64 = false := by simp [Num.isInf]; omega
  rw [a1, a2, a3, a4]
  simp only [Bool.or_self, if_neg Bool.false_ne_true, hb1, if_false, bne_self_eq_false, hva, hvb]
  rw [roundRat_scale hU]

theorem round_001 : roundRat f64 (1 * 2^f64.unit) 100 = 0x3F847AE147AE147B := by decide +kernel

theorem val_001 : 100 * val f64 (0x3F847AE147AE147B - 1) + 88 * 2^(f64.unit - 59) = 2^f64.unit := by decide +kernel

theorem unit59 : 2^f64.unit = 2^59 * 2^(f64.unit - 59) := by decide +kernel

/-- The comparison `fraction < 0.01` is the comparison of the exact numbers. -/
theorem fraction_lt (acos : F64 → F64) {a b : Nat} (ha : a ≤ 1000) (hb : b < 2^53) (hb0 : 0 < b) :
    (ops acos).ltD ((ops acos).divD ((ops acos).ofNatD a) ((ops acos).ofNatD b)) c001 = true ↔ 100 * a < b := by
  rw [div_nat acos (by omega) hb hb0]
  have hle := roundRat_le f64 (a * 2^f64.unit) b
  have hinf : f64.inf < 2^63 := by decide
  generalize hR : roundRat f64 (a * 2^f64.unit) b = R at *
  have hmag : F64.mag (pk64 ⟨false, R⟩) = R := by
    unfold F64.mag pk64
    simp only [UInt64.toNat_ofNat']
    simp; omega
  have hneg : F64.neg (pk64 ⟨false, R⟩) = false := by
    unfold F64.neg pk64
    simp only [UInt64.toNat_ofNat']
    simp; omega
  have hkey : F64.key (pk64 ⟨false, R⟩) = R := by unfold F64.key; rw [hneg, hmag]; rfl
  have hnan : F64.isNaN (pk64 ⟨false, R⟩) = false := by
    unfold F64.isNaN; rw [hmag]; have := inf64; simp; omega
  have hck : F64.key c001 = 0x3F847AE147AE147B := by decide
  have hcn : F64.isNaN c001 = false := by decide
  show F64.lt _ _ = true ↔ _
  rw [F64.lt_iff, hkey, hck]
  constructor
  · rintro ⟨-, -, hlt⟩
    apply Nat.lt_of_not_le
    intro hc
    have h1 : roundRat f64 (1 * 2^f64.unit) 100 ≤ roundRat f64 (a * 2^f64.unit) b := by
      refine roundRat_mono_quot (by decide) hb0 ?_
      rw [Nat.mul_right_comm, Nat.one_mul, Nat.mul_right_comm]
      exact Nat.mul_le_mul_right _ (by omega)
    rw [round_001, hR] at h1
    omega
  · intro hlt
    refine ⟨hnan, hcn, ?_⟩
    have h1 : roundRat f64 (a * 2^f64.unit) b ≤ 0x3F847AE147AE147B - 1 := by
      refine roundRat_le_of hb0 ?_
      have hv := val_001
      have hu := unit59
      have hVpos : 0 < 2^(f64.unit - 59) := Nat.two_pow_pos _
      generalize val f64 (0x3F847AE147AE147B - 1) = C at *
      generalize 2^(f64.unit - 59) = V at *
      generalize 2^f64.unit = U at *
      -- 100 * a * U ≤ b * (U - 88 * V)
      have h2 : 100 * (a * U) ≤ 100 * (b * C) := by
        have e : 100 * (b * C) = b * (100 * C) := Nat.mul_left_comm _ _ _
        have e2 : 100 * C = (2^59 - 88) * V := by omega
        rw [e, e2, hu, ← Nat.mul_assoc, ← Nat.mul_assoc, ← Nat.mul_assoc]
        exact Nat.mul_le_mul_right _ (by omega)
      omega
    rw [hR] at h1
    omega

end Exch

/-- C107, full statement: data are planned for a peer exactly as long as the statistics of the two sides are not close. -/
def C107_statement : Prop := ∀ (P : PEnv) (loc info : DataInfo), diffFor P loc info = 0 ↔ closeStats P loc info = true

/-- C107.  As long as they are not close, at least one datum is planned for the peer. -/
theorem C107_goes_on (P : PEnv) (loc info : DataInfo) (h : closeStats P loc info = false) : diffFor P loc info ≠ 0 := by
  intro h0
  have h1 := (C45_planned_number P loc info).1 h
  rw [h0] at h1
  change 0 = _ at h1
  split at h1 <;> omega

/-- The number of data that the sizes of the two sides alone would call for: half of what the peer has less, plus one, at
most 1000.  If the peer has more, the difference is taken modulo `2^64`. -/
def sizeDiff (loc info : DataInfo) : Nat :=
  min ((if info.n.toNat ≤ loc.n.toNat then loc.n.toNat - info.n.toNat else 2^64 + loc.n.toNat - info.n.toNat) / 2 + 1) 1000

/-- C107, exactly: nothing is planned if and only if the statistics are close and `sizeDiff` is below one per cent of the
local number. -/
theorem C107_exact (acos : F64 → F64) (P : PEnv) (hP : P.o = SF.ops acos) (loc info : DataInfo) (hn : loc.n.toNat + 1 < 2^53) :
    diffFor P loc info = 0 ↔ closeStats P loc info = true ∧ 100 * sizeDiff loc info < loc.n.toNat + 1 := by
  have hl := loc.n.toNat_lt
  have hi := info.n.toNat_lt
  have hone : (1 : UInt64).toNat = 1 := rfl
  have htwo : (2 : UInt64).toNat = 2 := rfl
  have hk : (1000 : UInt64).toNat = 1000 := rfl
  have hsub : (loc.n - info.n).toNat =
      if info.n.toNat ≤ loc.n.toNat then loc.n.toNat - info.n.toNat else 2^64 + loc.n.toNat - info.n.toNat := by
    rw [UInt64.toNat_sub]
    split <;> omega
  have hd : ((loc.n - info.n) / 2 + 1).toNat = (loc.n - info.n).toNat / 2 + 1 := by
    have := (loc.n - info.n).toNat_lt
    rw [UInt64.toNat_add, UInt64.toNat_div, htwo, hone]
    omega
  have hdiff : (if (loc.n - info.n) / 2 + 1 < 1000 then (loc.n - info.n) / 2 + 1 else 1000).toNat = sizeDiff loc info := by
    unfold sizeDiff
    rw [← hsub, ← hd]
    split
    · rename_i h
      have := UInt64.lt_iff_toNat_lt.1 h
      omega
    · rename_i h
      have : ¬ _ := fun hh => h (UInt64.lt_iff_toNat_lt.2 hh)
      omega
  have hn1 : (loc.n + 1).toNat = loc.n.toNat + 1 := by rw [UInt64.toNat_add, hone]; omega
  have hle : sizeDiff loc info ≤ 1000 := Nat.min_le_right _ _
  by_cases hc : closeStats P loc info = true
  · have hfr := Exch.fraction_lt acos (a := sizeDiff loc info) (b := loc.n.toNat + 1) hle hn (by omega)
    unfold diffFor
    simp only [hc, if_true, true_and]
    rw [hdiff, hn1, hP, ← hfr]
    split
    · rename_i h; simp [h]
    · rename_i h; simp [h]
  · have := C107_goes_on P loc info (by simpa using hc)
    simp [hc, this]

/-- C107 fails: two data sets with the same ninety-nine data go on exchanging one datum per run for ever. -/
theorem C107_small_goes_on (acos : F64 → F64) (P : PEnv) (hP : P.o = SF.ops acos) (loc info : DataInfo)
    (hn : loc.n.toNat < 100) : diffFor P loc info ≠ 0 := by
  rw [ne_eq, C107_exact acos P hP loc info (by omega)]
  rintro ⟨-, h⟩
  unfold sizeDiff at h
  omega

/-- C107: nor does a data set with fewer than a hundred thousand data stop sending to a larger peer, although the comment on
line 187 says "small or negative": the negative difference has wrapped. -/
theorem C107_larger_peer_goes_on (acos : F64 → F64) (P : PEnv) (hP : P.o = SF.ops acos) (loc info : DataInfo)
    (hn : loc.n.toNat < 100000) (hi : loc.n.toNat < info.n.toNat) (hi2 : info.n.toNat < 2^63) : diffFor P loc info ≠ 0 := by
  rw [ne_eq, C107_exact acos P hP loc info (by omega)]
  rintro ⟨-, h⟩
  unfold sizeDiff at h
  rw [if_neg (by omega)] at h
  omega

/-- C107, the part that holds: equal numbers of data, at least a hundred. -/
theorem C107_partial (acos : F64 → F64) (P : PEnv) (hP : P.o = SF.ops acos) (loc info : DataInfo)
    (hn : 100 ≤ loc.n.toNat) (hn2 : loc.n.toNat + 1 < 2^53) (hi : info.n = loc.n) :
    diffFor P loc info = 0 ↔ closeStats P loc info = true := by
  rw [C107_exact acos P hP loc info hn2]
  refine ⟨And.left, fun h => ⟨h, ?_⟩⟩
  unfold sizeDiff
  rw [hi, if_pos (Nat.le_refl _)]
  omega

/-- Statistics of a data set with `n` data at one point. -/
def exInfo (n : UInt64) : DataInfo :=
  { name := "d", timestamp := 0, version := 1, avg := [0x3F800000, 0], hist := [0x3F800000], n := n, maxDistance := F64.one,
    targetN := 1000, targetUtilization := F64.one, noTarget := false, replicationOnInsert := 0,
    enforceReplicationOnInsert := false, retention := 0 }

/-- The same statistics: close, and a transfer planned with 99 data, none with 100. -/
example : closeStats softP (exInfo 99) (exInfo 99) = true ∧ diffFor softP (exInfo 99) (exInfo 99) = 1 ∧
    diffFor softP (exInfo 100) (exInfo 100) = 0 ∧ diffFor softP (exInfo 5000) (exInfo 5001) = 1 ∧
    diffFor softP (exInfo 100000) (exInfo 100001) = 0 := by decide +kernel

theorem C107_fails : ¬ C107_statement := by
  intro h
  exact C107_small_goes_on id softP rfl (exInfo 99) (exInfo 99) (by decide) ((h softP _ _).2 (by decide +kernel))

end Veri
