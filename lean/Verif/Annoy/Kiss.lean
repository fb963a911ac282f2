import Verif.Annoy.Ends
/-
The random number generator of the native index (annoyindex/kissrandom.h:67-111): what its three parts do, against the comments
in the code.
-/
set_option autoImplicit false
namespace Veri
namespace Ref

/-- The comment of kissrandom.h:96, in whole numbers: `t = (2^58 + 1) * x + c`, of which the upper 64 bits are the new carry and the
lower ones the new number. -/
def multiplyWithCarry (x c : Nat) : Nat × Nat := (((2^58 + 1) * x + c) % 2^64, ((2^58 + 1) * x + c) / 2^64)

end Ref

namespace Annoy

/-- The generator made with this seed (kissrandom.h:80-85). -/
def Kiss.seeded (seed : UInt64) : Kiss := { Kiss.new with x := seed }

/-- The part that multiplies with carry, in whole numbers. -/
theorem mwc_nat (k : Kiss) (hc : k.c.toNat ≤ 2^58) :
    k.kiss.2.x.toNat = (Ref.multiplyWithCarry k.x.toNat k.c.toNat).1 ∧
    k.kiss.2.c.toNat + (if k.c.toNat = 2^58 ∧ k.x.toNat % 64 = 63 then 1 else 0) = (Ref.multiplyWithCarry k.x.toNat k.c.toNat).2 ∧
    k.kiss.2.c.toNat ≤ 2^58 := by
  have hx := k.x.toNat_lt
  have e1 : (k.x <<< 58).toNat = k.x.toNat % 64 * 2^58 := by
    rw [UInt64.toNat_shiftLeft]
    have : (58 : UInt64).toNat % 64 = 58 := rfl
    rw [this, Nat.shiftLeft_eq]
    omega
  have e2 : (k.x >>> 6).toNat = k.x.toNat / 64 := by
    rw [UInt64.toNat_shiftRight]
    have : (6 : UInt64).toNat % 64 = 6 := rfl
    rw [this, Nat.shiftRight_eq_div_pow]
  have e3 : ((k.x <<< 58) + k.c).toNat = (k.x.toNat % 64 * 2^58 + k.c.toNat) % 2^64 := by
    rw [UInt64.toNat_add, e1]
  have e4 : k.kiss.2.x = k.x + ((k.x <<< 58) + k.c) := rfl
  have e5 : k.kiss.2.c = (k.x >>> 6) + (if k.x + ((k.x <<< 58) + k.c) < (k.x <<< 58) + k.c then 1 else 0) := rfl
  have e6 : k.kiss.2.x.toNat = (k.x.toNat + (k.x.toNat % 64 * 2^58 + k.c.toNat) % 2^64) % 2^64 := by
    rw [e4, UInt64.toNat_add, e3]
  have e7 : (k.x + ((k.x <<< 58) + k.c) < (k.x <<< 58) + k.c) ↔
      (k.x.toNat + (k.x.toNat % 64 * 2^58 + k.c.toNat) % 2^64) % 2^64 < (k.x.toNat % 64 * 2^58 + k.c.toNat) % 2^64 := by
    rw [UInt64.lt_iff_toNat_lt, UInt64.toNat_add, e3]
  have e8 : k.kiss.2.c.toNat = (k.x.toNat / 64 + (if (k.x.toNat + (k.x.toNat % 64 * 2^58 + k.c.toNat) % 2^64) % 2^64 <
      (k.x.toNat % 64 * 2^58 + k.c.toNat) % 2^64 then 1 else 0)) % 2^64 := by
    rw [e5, UInt64.toNat_add, e2]
    by_cases h : k.x + ((k.x <<< 58) + k.c) < (k.x <<< 58) + k.c
    · rw [if_pos h, if_pos (e7.1 h)]; rfl
    · rw [if_neg h, if_neg fun h' => h (e7.2 h')]; rfl
  rw [e6, e8]
  unfold Ref.multiplyWithCarry
  generalize k.x.toNat = x at *
  generalize k.c.toNat = c at *
  simp only
  have hdm := Nat.div_add_mod x 64
  have hr : x % 64 < 64 := Nat.mod_lt _ (by decide)
  generalize x / 64 = q at *
  generalize x % 64 = r at *
  subst hdm
  clear e1 e2 e3 e4 e5 e6 e7 e8
  have hq : q < 2^58 := by omega
  have hm : ∀ b : Nat, b ≤ 1 → (q + b) % 2^64 = q + b := fun b hb => Nat.mod_eq_of_lt (by omega)
  rw [hm _ (by split <;> omega)]
  refine ⟨by omega, ?_, by split <;> omega⟩
  have hT : (2^58 + 1) * (64 * q + r) + c = 2^64 * q + (64 * q + r + (r * 2^58 + c)) := by omega
  rw [hT, Nat.mul_add_div (by decide)]
  by_cases hedge : c = 2^58 ∧ r = 63
  · rw [if_pos hedge]
    obtain ⟨rfl, rfl⟩ := hedge
    have : (63 * 2^58 + 2^58) % 2^64 = 0 := by decide
    rw [this, if_neg (Nat.not_lt_zero _)]
    omega
  · rw [if_neg hedge]
    have hlt : r * 2^58 + c < 2^64 := by omega
    rw [Nat.mod_eq_of_lt hlt]
    generalize 64 * q + r = x at *
    generalize r * 2^58 + c = t at *
    clear hT hedge hm hc
    split
    · rename_i h
      have : (x + t) / 2^64 = 1 := by omega
      rw [this]
    · rename_i h
      have : (x + t) / 2^64 = 0 := by omega
      rw [this]

theorem after_carry : ∀ (n : Nat) (k : Kiss), k.c.toNat ≤ 2^58 → (k.after n).c.toNat ≤ 2^58
  | 0, _, h => h
  | n + 1, k, h => after_carry n _ (mwc_nat k h).2.2

end Annoy

open Annoy

/-- C152, full statement: whatever the seed, each number adds up a linear congruence, an exclusive-or shift and a multiplication with
carry as the comments describe them. -/
def C152_description_statement : Prop := ∀ (seed : UInt64) (n : Nat),
  ((Kiss.seeded seed).after (n + 1)).x.toNat = (Ref.multiplyWithCarry ((Kiss.seeded seed).after n).x.toNat ((Kiss.seeded seed).after n).c.toNat).1 ∧
  ((Kiss.seeded seed).after (n + 1)).c.toNat = (Ref.multiplyWithCarry ((Kiss.seeded seed).after n).x.toNat ((Kiss.seeded seed).after n).c.toNat).2

theorem Annoy.after_succ (n : Nat) (k : Kiss) : k.after (n + 1) = (k.after n).kiss.2 := by
  rw [after_add]; rfl

/-- C152, exactly: the number is right, and the carry is right unless it was `2^58` and the last six bits of the number were all
ones: then it is one too small (the sum of kissrandom.h:97 has overflowed). -/
theorem C152_description_exact (seed : UInt64) (n : Nat) :
    ((Kiss.seeded seed).after (n + 1)).x.toNat = (Ref.multiplyWithCarry ((Kiss.seeded seed).after n).x.toNat ((Kiss.seeded seed).after n).c.toNat).1 ∧
    (((Kiss.seeded seed).after (n + 1)).c.toNat = (Ref.multiplyWithCarry ((Kiss.seeded seed).after n).x.toNat ((Kiss.seeded seed).after n).c.toNat).2 ↔
      ¬ (((Kiss.seeded seed).after n).c.toNat = 2^58 ∧ ((Kiss.seeded seed).after n).x.toNat % 64 = 63)) := by
  have hc := after_carry n (Kiss.seeded seed) (by show (123456123456123456 : UInt64).toNat ≤ 2^58; decide)
  obtain ⟨h1, h2, -⟩ := mwc_nat _ hc
  rw [after_succ]
  refine ⟨h1, ?_⟩
  rw [← h2]
  split
  · rename_i h
    exact ⟨fun h' => absurd h' (by omega), fun h' => absurd h h'⟩
  · rename_i h
    exact ⟨fun _ => h, fun _ => rfl⟩

/-- C152, the other two parts: the linear congruence, whose last bit alternates, and the exclusive-or shift.  The number is the sum of
the three. -/
theorem C152_parts_partial (k : Kiss) :
    k.kiss.2.z.toNat = (6906969069 * k.z.toNat + 1234567) % 2^64 ∧ k.kiss.2.z.toNat % 2 ≠ k.z.toNat % 2 ∧
    k.kiss.1.toNat = (k.kiss.2.x.toNat + k.kiss.2.y.toNat + k.kiss.2.z.toNat) % 2^64 ∧
    (∃ y1 y2 : UInt64, y1 = k.y ^^^ (k.y <<< 13) ∧ y2 = y1 ^^^ (y1 >>> 17) ∧ k.kiss.2.y = y2 ^^^ (y2 <<< 43)) ∧
    (k.flip.1 = true ↔ k.kiss.1.toNat % 2 = 1) ∧ (∀ n r, k.index n = .ok r → r.1 < n ∧ r.1 = k.kiss.1.toNat % n) := by
  have hz : k.kiss.2.z.toNat = (6906969069 * k.z.toNat + 1234567) % 2^64 := by
    show (6906969069 * k.z + 1234567).toNat = _
    rw [UInt64.toNat_add, UInt64.toNat_mul]
    show (6906969069 * k.z.toNat % 2^64 + 1234567) % 2^64 = _
    omega
  refine ⟨hz, by omega, ?_, ⟨_, _, rfl, rfl, rfl⟩, ?_, ?_⟩
  · show (k.kiss.2.x + k.kiss.2.y + k.kiss.2.z).toNat = _
    rw [UInt64.toNat_add, UInt64.toNat_add]
    omega
  · unfold Kiss.flip
    simp only [decide_eq_true_eq]
    rw [← UInt64.toNat_inj, UInt64.toNat_and]
    show k.kiss.1.toNat &&& 1 = 1 ↔ _
    rw [Nat.and_one_is_mod]
  · intro n r h
    unfold Kiss.index at h
    split at h
    · cases h
    · rename_i h0
      simp only [Out.ok.injEq] at h
      rw [← h]
      exact ⟨Nat.mod_lt _ (Nat.pos_of_ne_zero h0), rfl⟩

/-- With this seed the first number brings the generator to where the carry is lost; the seed the index uses is another. -/
theorem C152_example : (Kiss.seeded 18446744073709551615).after 0 = Kiss.seeded 18446744073709551615 ∧
    ((Kiss.seeded 18446744073709551615).after 1).c = 288230376151711744 ∧
    ((Kiss.seeded 18446744073709551615).after 1).x.toNat % 64 = 63 ∧
    Kiss.seeded 1234567890987654321 = Kiss.new := by decide +kernel

/-- C152 is false: with this seed the second carry is lost. -/
theorem C152_description_fails : ¬ C152_description_statement := by
  intro h
  have := (h 18446744073709551615 1).2
  revert this
  decide +kernel

end Veri
