import Verif.Store.Props

/-!
# How long a datum lives, for every TTL (C14)

`C14_longer_ttl_partial` needs TTLs that do not overflow the clock.  Here is what happens with all others: which
TTLs a datum is stored with for its time, which make it expired at once and which make it permanent, and so for
which pairs of TTLs the longer one means the longer life.
-/

set_option autoImplicit false

namespace Veri

open Store Gencoder

/-- How a datum stored at `now` (seconds, not negative) with TTL `t` lives, in exact arithmetic. -/
inductive Life where
  /-- until that second -/
  | until (s : Int)
  /-- for ever -/
  | always
  /-- not at all -/
  | never
  deriving DecidableEq, Repr

/-- Whether a datum that lives so is gone at a time not before the insert. -/
def Life.goneAt : Life → Int → Prop
  | .until s, t => s ≤ t
  | .always, _ => False
  | .never, _ => True

/-- The life of a datum by the clock of its insert and its TTL: the sum is kept in 64 bits with a sign. -/
def lifeOf (now : Int) (t : Nat) : Life :=
  if now + t < 2^63 then .until (now + t) else if now + t = 2^64 then .always else .never

theorem Store.sum_cases (now : Int64) (t : UInt64) (h0 : 0 ≤ now.toInt) :
    (now + t.toInt64).toInt = if now.toInt + t.toNat < 2^63 then now.toInt + t.toNat else now.toInt + t.toNat - 2^64 := by
  have h1 := now.toInt_lt
  have h2 := t.toNat_lt
  rw [Int64.toInt_add, toInt_toInt64]
  simp only [Int.bmod_def]
  split <;> split <;> omega

/-- C14, exactly: what becomes of a datum that is not in the store and is inserted with a TTL. -/
theorem C14_life_exact (m m' : DBMap) (now : Int64) (k : DatumKey) (v : DatumValue) (t : UInt64) (b : Bool)
    (h0 : 0 ≤ now.toInt) (ht : t ≠ 0) (hnew : m.get? (encKey k) = none)
    (hi : insertBDMap now m (some ⟨some k, some v⟩) (some ⟨t, 0⟩) = .ok (m', b)) :
    b = true ∧ ∃ e, m'.get? (encKey k) = some e ∧ e.datum = ⟨some k, some v⟩ ∧
      ∀ later : Int64, now ≤ later →
        (isExpired e later = true ↔ (lifeOf now.toInt t.toNat).goneAt later.toInt) := by
  simp [insertBDMap, getKeyAsBytes_some, encodeToString, hnew] at hi
  obtain ⟨rfl, rfl⟩ := hi
  refine ⟨rfl, _, AMap.get?_set_self _ _ _, rfl, ?_⟩
  intro later hl
  have hs := sum_cases now t h0
  have hl' := Int64.le_iff_toInt_le.1 hl
  have h1 := now.toInt_lt
  have h2 := t.toNat_lt
  have ht' : t.toNat ≠ 0 := fun h => ht (UInt64.toNat_inj.1 (by simpa using h))
  have hz : now + t.toInt64 ≠ 0 ↔ (now + t.toInt64).toInt ≠ 0 := by
    rw [← Int64.toInt_zero, ne_eq, ne_eq, Int64.toInt_inj]
  simp only [isExpired, expireAtOf, ht, if_false, Bool.and_eq_true, decide_eq_true_eq, hz,
    Int64.le_iff_toInt_le, lifeOf]
  by_cases hc : now.toInt + (t.toNat : Int) < 2^63
  · rw [if_pos hc] at hs
    simp only [if_pos hc, Life.goneAt]
    omega
  · rw [if_neg hc] at hs
    simp only [if_neg hc]
    by_cases hd : now.toInt + (t.toNat : Int) = 2^64
    · simp only [if_pos hd, Life.goneAt, iff_false]
      omega
    · simp only [if_neg hd, Life.goneAt, iff_true]
      omega

/-- C14, exactly, for two TTLs: the longer one means the longer life exactly if it does not overflow, if it comes out
as no expiry at all, or if the datum is expired at once with the shorter one too. -/
theorem C14_longer_ttl_exact (m m1 m2 : DBMap) (now : Int64) (k : DatumKey) (v : DatumValue) (t1 t2 : UInt64)
    (b1 b2 : Bool) (e1 e2 : Entry) (h0 : 0 ≤ now.toInt) (h1 : t1 ≠ 0) (h12 : t1 ≤ t2)
    (hnew : m.get? (encKey k) = none)
    (hi1 : insertBDMap now m (some ⟨some k, some v⟩) (some ⟨t1, 0⟩) = .ok (m1, b1))
    (hi2 : insertBDMap now m (some ⟨some k, some v⟩) (some ⟨t2, 0⟩) = .ok (m2, b2))
    (hg1 : m1.get? (encKey k) = some e1) (hg2 : m2.get? (encKey k) = some e2) :
    (∀ later : Int64, now ≤ later → isExpired e2 later = true → isExpired e1 later = true) ↔
      now.toInt + t2.toNat < 2^63 ∨ now.toInt + t2.toNat = 2^64 ∨
        (2^63 ≤ now.toInt + t1.toNat ∧ now.toInt + t1.toNat ≠ 2^64) := by
  have h12' : t1.toNat ≤ t2.toNat := UInt64.le_iff_toNat_le.1 h12
  have ht1 : t1.toNat ≠ 0 := fun h => h1 (UInt64.toNat_inj.1 (by simpa using h))
  have h2 : t2 ≠ 0 := by
    intro h
    subst h
    simp at h12'
    exact ht1 (by omega)
  obtain ⟨_, f1, hf1, _, hx1⟩ := C14_life_exact m m1 now k v t1 b1 h0 h1 hnew hi1
  obtain ⟨_, f2, hf2, _, hx2⟩ := C14_life_exact m m2 now k v t2 b2 h0 h2 hnew hi2
  rw [hg1] at hf1
  rw [hg2] at hf2
  cases hf1
  cases hf2
  constructor
  · intro h
    by_cases hc : now.toInt + t2.toNat < 2^63 ∨ now.toInt + t2.toNat = 2^64
    · rcases hc with hc | hc
      · exact Or.inl hc
      · exact Or.inr (Or.inl hc)
    · have := (hx1 now (Int64.le_refl _)).1 (h now (Int64.le_refl _) ((hx2 now (Int64.le_refl _)).2 (by
        simp only [lifeOf]
        rw [if_neg (by omega), if_neg (by omega)]
        trivial)))
      simp only [lifeOf] at this
      split at this
      · simp only [Life.goneAt] at this; omega
      · split at this
        · exact this.elim
        · omega
  · intro h later hl hx
    rw [hx2 later hl] at hx
    rw [hx1 later hl]
    simp only [lifeOf] at hx ⊢
    split at hx
    · rw [if_pos (by omega)]
      simp only [Life.goneAt] at hx ⊢
      omega
    · split at hx
      · exact hx.elim
      · rw [if_neg (by omega), if_neg (by omega)]
        trivial

/-- Non-vacuity of `C14_life_exact` and `C14_longer_ttl_exact`: at second 1000 a TTL of a minute, one that overflows and the one that comes
out as no expiry. -/
theorem C14_life_example :
    lifeOf 1000 60 = .until 1060 ∧ lifeOf 1000 (2^63) = .never ∧ lifeOf 1000 (2^64 - 1000) = .always ∧
    ∀ t : UInt64, ∃ m', insertBDMap 1000 [] (some ⟨some (exKey 1), some (exVal 1)⟩) (some ⟨t, 0⟩) = .ok (m', true) :=
  ⟨by decide, by decide, by decide, fun _ => ⟨_, insert_empty _ _ _ _⟩⟩

end Veri
