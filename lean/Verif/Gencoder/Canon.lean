import Verif.Gencoder.Props
/-
C199: the byte strings that decode to a key or a value.
-/
set_option autoImplicit false
namespace Veri
namespace Gencoder

/-- The bytes of a length: up to the first that is below 128. -/
def lenBytes : Bytes → Bytes
  | [] => []
  | b :: r => if b < 128 then [b] else b :: lenBytes r

/-- The number that they stand for, seven bits in each, the lowest first. -/
def lenValue : Bytes → Nat
  | [] => 0
  | b :: r => b.toNat % 128 + 128 * lenValue r

/-- Written with as few bytes as possible. -/
def Shortest (p : Bytes) : Prop := p.length ≤ 9 ∧ (p.length = 1 ∨ p.getLast? ≠ some 0)

theorem high_bit (b : UInt8) : b &&& 0x80 = 0x80 ↔ ¬ b < 128 := by
  have h : ∀ n : Fin 256, (UInt8.ofNat n.val &&& 0x80 = 0x80 ↔ ¬ UInt8.ofNat n.val < 128) := by decide +kernel
  have := h ⟨b.toNat, b.toNat_lt⟩
  simpa using this

theorem low_bits (b : UInt8) : (b &&& 0x7F).toNat = b.toNat % 128 := by
  rw [UInt8.toNat_and, show (0x7F : UInt8).toNat = 2^7 - 1 from rfl, Nat.and_two_pow_sub_one_eq_mod]

theorem loop_bytes : ∀ (rest : Bytes) (b : UInt8) (t : UInt64) (bs : UInt8) (l : UInt64) (rest' : Bytes),
    getVarintLoop b t bs rest = some (l, rest') → b :: rest = lenBytes (b :: rest) ++ rest'
  | rest, b, t, bs, l, rest', h => by
    rw [getVarintLoop.eq_def] at h
    by_cases hb : b &&& 0x80 = 0x80
    · rw [if_pos hb] at h
      have hn := (high_bit b).1 hb
      cases rest with
      | nil => cases h
      | cons b' rest2 =>
        have := loop_bytes rest2 b' _ _ l rest' h
        rw [lenBytes, if_neg hn, List.cons_append, ← this]
    · rw [if_neg hb] at h
      cases h
      have hn : b < 128 := by
        by_cases hn : b < 128
        · exact hn
        · exact absurd ((high_bit b).2 hn) hb
      rw [lenBytes, if_pos hn]; rfl

theorem loop_value : ∀ (rest : Bytes) (b : UInt8) (t : UInt64) (k : Nat) (l : UInt64) (rest' : Bytes),
    getVarintLoop b t (UInt8.ofNat k) rest = some (l, rest') → t.toNat < 2^k → k + 7 * (lenBytes (b :: rest)).tail.length ≤ 63 →
    l.toNat = t.toNat + 2^k * lenValue (lenBytes (b :: rest)).tail
  | rest, b, t, k, l, rest', h, ht, hk => by
    rw [getVarintLoop.eq_def] at h
    by_cases hb : b &&& 0x80 = 0x80
    · rw [if_pos hb] at h
      have hn := (high_bit b).1 hb
      rw [lenBytes, if_neg hn, List.tail_cons] at hk ⊢
      cases rest with
      | nil => cases h
      | cons b' rest2 =>
        have hcons : lenBytes (b' :: rest2) = b' :: (lenBytes (b' :: rest2)).tail := by
          rw [lenBytes]; split <;> rfl
        have hlen : (lenBytes (b' :: rest2)).length = (lenBytes (b' :: rest2)).tail.length + 1 := by
          rw [hcons]; rfl
        have hk7 : k + 7 ≤ 63 := by omega
        have hb7 : (b' &&& 0x7F).toNat < 128 := by rw [low_bits]; omega
        have hp : 2^k * 128 = 2^(k+7) := by rw [Nat.pow_add]
        have hp64 : 2^(k+7) ≤ 2^63 := Nat.pow_le_pow_right (by decide) hk7
        have hmul : (b' &&& 0x7F).toNat * 2^k + 2^k ≤ 2^(k+7) := by
          rw [← hp, Nat.mul_comm (2^k) 128]
          have : ((b' &&& 0x7F).toNat + 1) * 2^k ≤ 128 * 2^k := Nat.mul_le_mul_right _ (by omega)
          rw [Nat.add_mul, Nat.one_mul] at this
          exact this
        have hacc := acc_step t (b' &&& 0x7F) k ht (by omega) (by omega)
        have hadd : UInt8.ofNat k + 7 = UInt8.ofNat (k + 7) := by
          rw [UInt8.ofNat_add]; rfl
        rw [hadd] at h
        have ih := loop_value rest2 b' _ (k + 7) l rest' h (by rw [hacc]; omega) (by omega)
        rw [ih, hacc, hcons, lenValue, low_bits, ← hp, List.tail_cons]
        rw [Nat.mul_add, Nat.mul_assoc, Nat.mul_comm (b'.toNat % 128)]
        omega
    · rw [if_neg hb] at h
      cases h
      have hn : b < 128 := by
        by_cases hn : b < 128
        · exact hn
        · exact absurd ((high_bit b).2 hn) hb
      rw [lenBytes, if_pos hn]; simp [lenValue]

theorem varint_bytes {buf : Bytes} {l : UInt64} {rest : Bytes} (h : getVarint buf = some (l, rest)) :
    buf = lenBytes buf ++ rest ∧ ((lenBytes buf).length ≤ 9 → l.toNat = lenValue (lenBytes buf)) := by
  cases buf with
  | nil => cases h
  | cons b r =>
    rw [getVarint] at h
    refine ⟨loop_bytes r b _ _ l rest h, fun h9 => ?_⟩
    have hcons : lenBytes (b :: r) = b :: (lenBytes (b :: r)).tail := by
      rw [lenBytes]; split <;> rfl
    have hlen : (lenBytes (b :: r)).length = (lenBytes (b :: r)).tail.length + 1 := by
      rw [hcons]; rfl
    have h1 : (b &&& 0x7F).toUInt64.toNat = b.toNat % 128 := by rw [UInt8.toNat_toUInt64, low_bits]
    have := loop_value r b _ 7 l rest h (by rw [h1]; omega) (by omega)
    rw [this, h1, hcons, lenValue, List.tail_cons]

/-- The bytes of a length: high bits set but for the last. -/
inductive IsLen : Bytes → Prop
  | one {b : UInt8} : b < 128 → IsLen [b]
  | more {b : UInt8} {p : Bytes} : ¬ b < 128 → IsLen p → IsLen (b :: p)

theorem varint_isLen : ∀ {rest : Bytes} {b : UInt8} {t : UInt64} {bs : UInt8} {l : UInt64} {rest' : Bytes},
    getVarintLoop b t bs rest = some (l, rest') → IsLen (lenBytes (b :: rest))
  | rest, b, t, bs, l, rest', h => by
    rw [getVarintLoop.eq_def] at h
    by_cases hb : b &&& 0x80 = 0x80
    · rw [if_pos hb] at h
      have hn := (high_bit b).1 hb
      cases rest with
      | nil => cases h
      | cons b' rest2 =>
        rw [lenBytes, if_neg hn]
        exact .more hn (varint_isLen h)
    · have hn : b < 128 := by
        by_cases hn : b < 128
        · exact hn
        · exact absurd ((high_bit b).2 hn) hb
      rw [lenBytes, if_pos hn]
      exact .one hn

theorem isLen_ne {p : Bytes} (h : IsLen p) : p ≠ [] := by cases h <;> simp

theorem isLen_pos {p : Bytes} (h : IsLen p) : p.getLast? ≠ some 0 → 0 < lenValue p := by
  induction h with
  | @one b hb =>
    intro h
    have h0 : b ≠ 0 := by rintro rfl; exact h rfl
    have h1 : b.toNat ≠ 0 := fun e => h0 (UInt8.toNat_inj.1 (by rw [e]; rfl))
    have h2 : b.toNat < 128 := by simpa using UInt8.lt_iff_toNat_lt.1 hb
    simp only [lenValue]
    omega
  | @more b p hb hp ih =>
    intro h
    have : p.getLast? ≠ some 0 := by
      cases p with
      | nil => exact absurd rfl (isLen_ne hp)
      | cons x p => simpa [List.getLast?_cons_cons] using h
    have := ih this
    simp only [lenValue]
    omega

/-- The shortest way to write a length is the one of the encoder. -/
theorem isLen_enc {p : Bytes} (h : IsLen p) : (p.length = 1 ∨ p.getLast? ≠ some 0) → encVarint (lenValue p) = p := by
  induction h with
  | @one b hb =>
    intro _
    have h2 : b.toNat < 128 := by simpa using UInt8.lt_iff_toNat_lt.1 hb
    have : lenValue [b] = b.toNat := by simp only [lenValue]; omega
    rw [this, encVarint, if_pos h2]
    simp
  | @more b p hb hp ih =>
    intro h
    have hl : p.getLast? ≠ some 0 := by
      cases p with
      | nil => exact absurd rfl (isLen_ne hp)
      | cons x p =>
        rcases h with h | h
        · simp at h
        · simpa [List.getLast?_cons_cons] using h
    have h2 : 128 ≤ b.toNat := by
      have : ¬ b.toNat < 128 := fun h => hb (UInt8.lt_iff_toNat_lt.2 h)
      omega
    have hpos := isLen_pos hp hl
    have hv : lenValue (b :: p) = b.toNat % 128 + 128 * lenValue p := rfl
    rw [encVarint, if_neg (by omega)]
    have hd : lenValue (b :: p) / 128 = lenValue p := by omega
    rw [hd, ih (.inr hl)]
    congr 1
    apply UInt8.toNat_inj.1
    have : ∀ n : Fin 256, 128 ≤ n.val → (UInt8.ofNat n.val ||| 0x80) = UInt8.ofNat n.val := by decide +kernel
    have h3 := this ⟨b.toNat, b.toNat_lt⟩ h2
    have h4 : UInt8.ofNat (lenValue (b :: p)) ||| 0x80 = UInt8.ofNat b.toNat ||| 0x80 := by
      have : ∀ n m : Nat, n % 128 = m % 128 → UInt8.ofNat n ||| 0x80 = UInt8.ofNat m ||| 0x80 := by
        intro n m hnm
        apply UInt8.toNat_inj.1
        rw [UInt8.toNat_or, UInt8.toNat_or, UInt8.toNat_ofNat', UInt8.toNat_ofNat']
        apply Nat.eq_of_testBit_eq
        intro i
        rw [Nat.testBit_or, Nat.testBit_or, show (0x80 : UInt8).toNat = 2^7 from rfl, Nat.testBit_two_pow]
        by_cases hi : 7 = i
        · simp [hi]
        · simp only [hi, decide_false, Bool.or_false]
          rw [Nat.testBit_mod_two_pow, Nat.testBit_mod_two_pow]
          by_cases h7 : i < 7
          · have e1 := Nat.testBit_mod_two_pow n 7 i
            have e2 := Nat.testBit_mod_two_pow m 7 i
            rw [show 2^7 = 128 from rfl] at e1 e2
            rw [hnm, e2] at e1
            simp only [h7, decide_true, Bool.true_and] at e1
            rw [e1]
          · have : ¬ i < 8 := by omega
            simp [this]
      exact this _ _ (by omega)
    rw [h4, h3]
    simp

theorem getVarint_isLen {buf : Bytes} {l : UInt64} {rest : Bytes} (h : getVarint buf = some (l, rest)) : IsLen (lenBytes buf) := by
  cases buf with
  | nil => cases h
  | cons b r => exact varint_isLen h

theorem lenBytes_append : ∀ {p : Bytes} (rest : Bytes), IsLen p → lenBytes (p ++ rest) = p
  | _, rest, .one hb => by rw [List.singleton_append, lenBytes, if_pos hb]
  | _, rest, .more hb hp => by rw [List.cons_append, lenBytes, if_neg hb, lenBytes_append rest hp]

theorem enc_isLen (n : Nat) : IsLen (encVarint n) := by
  induction n using Nat.strongRecOn with
  | _ n ih =>
    rw [encVarint]
    by_cases h : n < 128
    · rw [if_pos h]
      refine .one (UInt8.lt_iff_toNat_lt.2 ?_)
      rw [UInt8.toNat_ofNat']
      have : (128 : UInt8).toNat = 128 := rfl
      omega
    · rw [if_neg h]
      exact .more ((high_bit _).1 (cont_bit _)) (ih _ (by omega))

theorem enc_last (n : Nat) : (encVarint n).length = 1 ∨ (encVarint n).getLast? ≠ some 0 := by
  induction n using Nat.strongRecOn with
  | _ n ih =>
    rw [encVarint]
    by_cases h : n < 128
    · rw [if_pos h]; exact .inl rfl
    · rw [if_neg h]
      right
      have hne := encVarint_ne_nil (n / 128)
      have h0 : (encVarint (n / 128)).getLast? ≠ some 0 := by
        rcases ih (n / 128) (by omega) with h1 | h1
        · rw [encVarint] at h1 ⊢
          by_cases h2 : n / 128 < 128
          · rw [if_pos h2]
            simp only [List.getLast?_singleton, ne_eq, Option.some.injEq]
            intro h3
            have := congrArg UInt8.toNat h3
            rw [UInt8.toNat_ofNat'] at this
            have e : (0 : UInt8).toNat = 0 := rfl
            omega
          · rw [if_neg h2] at h1
            have := List.length_pos_iff.2 (encVarint_ne_nil (n / 128 / 128))
            simp only [List.length_cons] at h1
            omega
        · exact h1
      cases he : encVarint (n / 128) with
      | nil => exact absurd he hne
      | cons x p => rw [he] at h0; rw [List.getLast?_cons_cons]; exact h0

theorem enc_length_le : ∀ (j n : Nat), n < 128^(j+1) → (encVarint n).length ≤ j + 1
  | j, n, h => by
    rw [encVarint]
    by_cases h1 : n < 128
    · rw [if_pos h1]; simp
    · rw [if_neg h1]
      cases j with
      | zero => simp at h; omega
      | succ j =>
        have : n / 128 < 128^(j+1) := by
          rw [Nat.div_lt_iff_lt_mul (by decide), ← Nat.pow_succ]; exact h
        have := enc_length_le j _ this
        simp only [List.length_cons]; omega

theorem enc_shortest {n : Nat} (h : n ≤ maxAlloc) : Shortest (encVarint n) := by
  refine ⟨enc_length_le 8 n (Nat.lt_of_le_of_lt h (by decide)), enc_last n⟩

theorem getU32_bytes {buf rest : Bytes} {v : UInt32} (h : getU32 buf = some (v, rest)) : buf = le32 v ++ rest := by
  unfold getU32 at h
  split at h
  · rename_i b0 b1 b2 b3 r
    simp only [Option.some.injEq, Prod.mk.injEq] at h
    obtain ⟨h, rfl⟩ := h
    have h0 := b0.toNat_lt
    have h1 := b1.toNat_lt
    have h2 := b2.toNat_lt
    have h3 := b3.toNat_lt
    have hv : v.toNat = b0.toNat + b1.toNat * 2^8 + b2.toNat * 2^16 + b3.toNat * 2^24 := by
      rw [← h]
      simp only [UInt32.toNat_or, UInt32.toNat_shiftLeft, UInt8.toNat_toUInt32]
      have s : ∀ b k, b < 2^8 → k ≤ 24 → b <<< k % 2^32 = b <<< k := by
        intro b k hb hk
        apply Nat.mod_eq_of_lt
        rw [Nat.shiftLeft_eq]
        have : 2^k ≤ 2^24 := Nat.pow_le_pow_right (by decide) hk
        calc b * 2^k ≤ b * 2^24 := Nat.mul_le_mul_left _ this
          _ < 2^32 := by omega
      have e0 : (0 : UInt32).toNat = 0 := rfl
      have e8 : (8 : UInt32).toNat % 32 = 8 := rfl
      have e16 : (16 : UInt32).toNat % 32 = 16 := rfl
      have e24 : (24 : UInt32).toNat % 32 = 24 := rfl
      rw [e0, e8, e16, e24, Nat.zero_mod, s _ _ h0 (by decide), s _ _ h1 (by decide), s _ _ h2 (by decide), s _ _ h3 (by decide), Nat.zero_or,
        Nat.shiftLeft_zero, or_shift _ _ 8 h0, or_shift _ _ 16 (by omega), or_shift _ _ 24 (by omega)]
    have c : ∀ (b : UInt8) (w : UInt32), b.toNat = w.toNat % 256 → b = w.toUInt8 := by
      intro b w hw
      apply UInt8.toNat_inj.1
      rw [UInt32.toNat_toUInt8, hw]
    have e0 : (0 : UInt32).toNat % 32 = 0 := rfl
    have e8 : (8 : UInt32).toNat % 32 = 8 := rfl
    have e16 : (16 : UInt32).toNat % 32 = 16 := rfl
    have e24 : (24 : UInt32).toNat % 32 = 24 := rfl
    unfold le32
    rw [← c b0 (v >>> 0) (by rw [UInt32.toNat_shiftRight, e0, Nat.shiftRight_eq_div_pow, hv]; omega),
      ← c b1 (v >>> 8) (by rw [UInt32.toNat_shiftRight, e8, Nat.shiftRight_eq_div_pow, hv]; omega),
      ← c b2 (v >>> 16) (by rw [UInt32.toNat_shiftRight, e16, Nat.shiftRight_eq_div_pow, hv]; omega),
      ← c b3 (v >>> 24) (by rw [UInt32.toNat_shiftRight, e24, Nat.shiftRight_eq_div_pow, hv]; omega)]
    rfl
  · cases h

theorem getU64_bytes {buf rest : Bytes} {v : UInt64} (h : getU64 buf = some (v, rest)) : buf = le64 v ++ rest := by
  unfold getU64 at h
  split at h
  · rename_i b0 b1 b2 b3 b4 b5 b6 b7 r
    simp only [Option.some.injEq, Prod.mk.injEq] at h
    obtain ⟨h, rfl⟩ := h
    have h0 := b0.toNat_lt
    have h1 := b1.toNat_lt
    have h2 := b2.toNat_lt
    have h3 := b3.toNat_lt
    have h4 := b4.toNat_lt
    have h5 := b5.toNat_lt
    have h6 := b6.toNat_lt
    have h7 := b7.toNat_lt
    have hv : v.toNat = b0.toNat + b1.toNat * 2^8 + b2.toNat * 2^16 + b3.toNat * 2^24 + b4.toNat * 2^32 + b5.toNat * 2^40 + b6.toNat * 2^48 +
        b7.toNat * 2^56 := by
      rw [← h]
      simp only [UInt64.toNat_or, UInt64.toNat_shiftLeft, UInt8.toNat_toUInt64]
      have s : ∀ b k, b < 2^8 → k ≤ 56 → b <<< k % 2^64 = b <<< k := by
        intro b k hb hk
        apply Nat.mod_eq_of_lt
        rw [Nat.shiftLeft_eq]
        have : 2^k ≤ 2^56 := Nat.pow_le_pow_right (by decide) hk
        calc b * 2^k ≤ b * 2^56 := Nat.mul_le_mul_left _ this
          _ < 2^64 := by omega
      have e0 : (0 : UInt64).toNat = 0 := rfl
      have e8 : (8 : UInt64).toNat % 64 = 8 := rfl
      have e16 : (16 : UInt64).toNat % 64 = 16 := rfl
      have e24 : (24 : UInt64).toNat % 64 = 24 := rfl
      have e32 : (32 : UInt64).toNat % 64 = 32 := rfl
      have e40 : (40 : UInt64).toNat % 64 = 40 := rfl
      have e48 : (48 : UInt64).toNat % 64 = 48 := rfl
      have e56 : (56 : UInt64).toNat % 64 = 56 := rfl
      rw [e0, e8, e16, e24, e32, e40, e48, e56, Nat.zero_mod, s _ _ h0 (by decide), s _ _ h1 (by decide), s _ _ h2 (by decide),
        s _ _ h3 (by decide), s _ _ h4 (by decide), s _ _ h5 (by decide), s _ _ h6 (by decide), s _ _ h7 (by decide), Nat.zero_or,
        Nat.shiftLeft_zero, or_shift _ _ 8 h0, or_shift _ _ 16 (by omega), or_shift _ _ 24 (by omega), or_shift _ _ 32 (by omega),
        or_shift _ _ 40 (by omega), or_shift _ _ 48 (by omega), or_shift _ _ 56 (by omega)]
    have c : ∀ (b : UInt8) (k : Nat) (n : UInt64), n.toNat % 64 = k → b.toNat = v.toNat / 2^k % 256 → b = (v >>> n).toUInt8 := by
      intro b k n hn hw
      apply UInt8.toNat_inj.1
      rw [UInt64.toNat_toUInt8, UInt64.toNat_shiftRight, hn, Nat.shiftRight_eq_div_pow, hw]
    unfold le64
    rw [← c b0 0 0 rfl (by rw [hv]; omega), ← c b1 8 8 rfl (by rw [hv]; omega), ← c b2 16 16 rfl (by rw [hv]; omega),
      ← c b3 24 24 rfl (by rw [hv]; omega), ← c b4 32 32 rfl (by rw [hv]; omega), ← c b5 40 40 rfl (by rw [hv]; omega),
      ← c b6 48 48 rfl (by rw [hv]; omega), ← c b7 56 56 rfl (by rw [hv]; omega)]
    rfl
  · cases h

theorem getFeatures_bytes : ∀ (n : Nat) {buf rest : Bytes} {vs : List F32}, getFeatures n buf = some (vs, rest) →
    buf = encFeatures vs ++ rest ∧ vs.length = n
  | 0, buf, rest, vs, h => by
    simp only [getFeatures, Option.some.injEq, Prod.mk.injEq] at h
    obtain ⟨rfl, rfl⟩ := h
    exact ⟨rfl, rfl⟩
  | n + 1, buf, rest, vs, h => by
    simp only [getFeatures, Option.bind_eq_bind, Option.bind_eq_some_iff] at h
    obtain ⟨⟨v, r1⟩, h1, ⟨ws, r2⟩, h2, h3⟩ := h
    simp only [Option.some.injEq, Prod.mk.injEq] at h3
    obtain ⟨rfl, rfl⟩ := h3
    obtain ⟨h4, h5⟩ := getFeatures_bytes n h2
    simp only at h4
    refine ⟨?_, by simp [h5]⟩
    rw [getU32_bytes h1, h4, encFeatures, List.append_assoc]

theorem resize_le {old base : Bytes} {l : Nat} (h : resize old l = some base) : l ≤ max old.length maxAlloc := by
  unfold resize at h
  split at h
  · omega
  · split at h
    · omega
    · cases h

theorem copyInto_whole {base src : Bytes} (h : base.length ≤ src.length) : copyInto base src = src.take base.length := by
  unfold copyInto
  rw [List.drop_eq_nil_of_le h, List.append_nil]

end Gencoder
open Gencoder

/-- C199, what is read of a key: whatever bytes decode to a key are a length, the words of its features, a length, its group label and its four
numbers; nothing is left out, nothing read twice, and the lengths, if written with at most nine bytes, say how much follows. -/
theorem C199_parts (old buf : Bytes) (k : DatumKey) (n : Nat) (h : unmarshalKey old buf = some (k, n)) :
    buf.take n = lenBytes buf ++ encFeatures k.feature ++ lenBytes (buf.drop ((lenBytes buf).length + 4 * k.feature.length)) ++ k.groupLabel ++
      le32 k.size1 ++ le32 k.size2 ++ le32 k.dim1 ++ le32 k.dim2 ∧
    IsLen (lenBytes buf) ∧ IsLen (lenBytes (buf.drop ((lenBytes buf).length + 4 * k.feature.length))) ∧
    ((lenBytes buf).length ≤ 9 → k.feature.length = lenValue (lenBytes buf)) ∧
    ((lenBytes (buf.drop ((lenBytes buf).length + 4 * k.feature.length))).length ≤ 9 →
      k.groupLabel.length = lenValue (lenBytes (buf.drop ((lenBytes buf).length + 4 * k.feature.length)))) ∧
    4 * k.feature.length ≤ maxAlloc ∧ k.groupLabel.length ≤ max old.length maxAlloc := by
  rw [unmarshalKey] at h
  simp only [Option.bind_eq_bind, Option.bind_eq_some_iff] at h
  obtain ⟨⟨l1, r1⟩, h1, h⟩ := h
  simp only at h
  by_cases hm : 4 * l1.toNat > maxAlloc
  · rw [if_pos hm] at h; cases h
  rw [if_neg hm] at h
  simp only [Option.bind_eq_some_iff] at h
  obtain ⟨⟨fs, r2⟩, h2, ⟨l2, r3⟩, h3, base, h4, ⟨s1, r4⟩, h5, ⟨s2, r5⟩, h6, ⟨s3, r6⟩, h7, ⟨s4, r7⟩, h8, h9⟩ := h
  simp only [Option.some.injEq, Prod.mk.injEq] at h9
  obtain ⟨rfl, hn⟩ := h9
  simp only at h2 h3 h4 h5 h6 h7 h8 ⊢
  obtain ⟨e1, v1⟩ := varint_bytes h1
  obtain ⟨e2, v2⟩ := getFeatures_bytes _ h2
  obtain ⟨e3, v3⟩ := varint_bytes h3
  have e5 := getU32_bytes h5
  have e6 := getU32_bytes h6
  have e7 := getU32_bytes h7
  have e8 := getU32_bytes h8
  have hb := resize_length _ _ _ h4
  have hlong : l2.toNat ≤ r3.length := by
    by_cases hl : l2.toNat ≤ r3.length
    · exact hl
    · have hnil : r3.drop l2.toNat = [] := List.drop_eq_nil_of_le (by omega)
      rw [hnil] at e5
      have := congrArg List.length e5
      simp at this
      omega
  have hcopy : copyInto base r3 = r3.take l2.toNat := by rw [copyInto_whole (by omega), hb]
  rw [hcopy]
  have i1 := getVarint_isLen h1
  have i3 := getVarint_isLen h3
  generalize lenBytes buf = p1 at e1 v1 i1 ⊢
  subst e1
  subst e2
  have hdrop : (p1 ++ (encFeatures fs ++ r2)).drop (p1.length + 4 * fs.length) = r2 := by
    rw [← List.append_assoc]
    apply List.drop_left'
    simp
  rw [hdrop]
  generalize lenBytes r2 = p2 at e3 v3 i3 ⊢
  subst e3
  refine ⟨?_, i1, i3, fun h => v2.trans (v1 h), fun h => ?_, by omega, ?_⟩
  · have hbuf : p1 ++ (encFeatures fs ++ (p2 ++ r3)) =
        (p1 ++ encFeatures fs ++ p2 ++ r3.take l2.toNat ++ le32 s1 ++ le32 s2 ++ le32 s3 ++ le32 s4) ++ r7 := by
      conv => lhs; rw [← List.take_append_drop l2.toNat r3, e5, e6, e7, e8]
      simp only [List.append_assoc]
    rw [hbuf] at hn ⊢
    apply List.take_left'
    rw [List.length_append] at hn
    omega
  · rw [List.length_take, Nat.min_eq_left hlong]
    exact v3 h
  · rw [List.length_take, Nat.min_eq_left hlong]
    exact resize_le h4

/-- C199 (full statement): whatever bytes decode to a key are its encoding.  FALSE: see `C199_fails`. -/
def C199_statement : Prop :=
  ∀ (old buf : Bytes) (k : DatumKey) (n : Nat), unmarshalKey old buf = some (k, n) → marshalKey k = some (buf.take n)

namespace Gencoder

theorem getVarint_one (r : Bytes) : getVarint (0 :: r) = some (0, r) := by
  rw [getVarint, getVarintLoop.eq_def, if_neg (by decide)]; rfl

theorem getVarint_two (r : Bytes) : getVarint (0x80 :: 0 :: r) = some (0, r) := by
  rw [getVarint, getVarintLoop.eq_def, if_pos (by decide)]
  simp only
  rw [getVarintLoop.eq_def, if_neg (by decide)]; rfl

end Gencoder

/-- A key without features, its first length in two bytes and in one. -/
theorem C199_example : unmarshalKey [] ([0x80, 0] ++ List.replicate 17 0) = some (⟨[], [], 0, 0, 0, 0⟩, 19) ∧
    ¬ Shortest (lenBytes ([0x80, 0] ++ List.replicate 17 0)) ∧
    unmarshalKey [] ([0] ++ List.replicate 17 0) = some (⟨[], [], 0, 0, 0, 0⟩, 18) ∧ Shortest (lenBytes ([0] ++ List.replicate 17 0)) := by
  refine ⟨?_, ?_, ?_, ?_⟩
  · unfold unmarshalKey
    simp only [List.cons_append, List.nil_append, getVarint_two, List.replicate, Option.bind_eq_bind, Option.bind_some]
    decide +kernel
  · rintro ⟨-, h⟩
    simp [lenBytes] at h
  · unfold unmarshalKey
    simp only [List.cons_append, List.nil_append, List.replicate, getVarint_one, Option.bind_eq_bind, Option.bind_some]
    decide +kernel
  · exact ⟨by decide, .inl rfl⟩

/-- C199 fails: a length may be written with more bytes than it needs. -/
theorem C199_fails : ¬ C199_statement := by
  intro h
  have := h [] _ _ _ C199_example.1
  rw [(marshalKey_eq _).1] at this
  have := congrArg (Option.map List.length) this
  simp [encKey, encVarint, encFeatures] at this

/-- **C199.**  Bytes that decode to a key are its encoding exactly if the two lengths in them are written with as few bytes as possible. -/
theorem C199_exact (old buf : Bytes) (k : DatumKey) (n : Nat) (hold : old.length ≤ maxAlloc) (h : unmarshalKey old buf = some (k, n)) :
    marshalKey k = some (buf.take n) ↔
      Shortest (lenBytes buf) ∧ Shortest (lenBytes (buf.drop ((lenBytes buf).length + 4 * k.feature.length))) := by
  obtain ⟨h1, h2, h3, h4, h5, h6, h7⟩ := C199_parts old buf k n h
  rw [(marshalKey_eq k).1, h1]
  generalize lenBytes (buf.drop ((lenBytes buf).length + 4 * k.feature.length)) = p2 at h3 h5 ⊢
  generalize lenBytes buf = p1 at h2 h4 ⊢
  constructor
  · intro he
    rw [Option.some.injEq, encKey] at he
    simp only [List.append_assoc] at he
    have e1 := congrArg lenBytes he
    rw [lenBytes_append _ (enc_isLen _), lenBytes_append _ h2] at e1
    subst e1
    have e2 := congrArg lenBytes (List.append_cancel_left (List.append_cancel_left he))
    rw [lenBytes_append _ (enc_isLen _), lenBytes_append _ h3] at e2
    subst e2
    exact ⟨enc_shortest (by omega), enc_shortest (by omega)⟩
  · rintro ⟨s1, s2⟩
    rw [encKey, h4 s1.1, h5 s2.1, isLen_enc h2 s1.2, isLen_enc h3 s2.2]

/-- C199, with the condition: bytes with the shortest lengths that decode to a key are its encoding. -/
theorem C199_partial (old buf : Bytes) (k : DatumKey) (n : Nat) (hold : old.length ≤ maxAlloc) (h : unmarshalKey old buf = some (k, n))
    (h1 : Shortest (lenBytes buf)) (h2 : Shortest (lenBytes (buf.drop ((lenBytes buf).length + 4 * k.feature.length)))) :
    marshalKey k = some (buf.take n) :=
  (C199_exact old buf k n hold h).2 ⟨h1, h2⟩

/-- C199, values: bytes that decode to a value are its encoding exactly if the label is not cut off (C05) and its length is written with as few
bytes as possible. -/
theorem C199_value_exact (old buf : Bytes) (v : DatumValue) (n : Nat) (hold : old.length ≤ maxAlloc)
    (h : unmarshalValue old buf = some (v, n)) :
    marshalValue v = some (buf.take n) ↔ n ≤ buf.length ∧ Shortest (lenBytes (buf.drop 8)) := by
  rw [unmarshalValue] at h
  simp only [Option.bind_eq_bind, Option.bind_eq_some_iff] at h
  obtain ⟨⟨w, r1⟩, h1, ⟨l, r2⟩, h2, base, h3, h4⟩ := h
  simp only [Option.some.injEq, Prod.mk.injEq] at h4
  obtain ⟨rfl, hn⟩ := h4
  simp only at h1 h2 h3
  have e1 := getU64_bytes h1
  obtain ⟨e2, v2⟩ := varint_bytes h2
  have i2 := getVarint_isLen h2
  have hb := resize_length _ _ _ h3
  have hle := resize_le h3
  subst e1
  have hdrop : (le64 w ++ r1).drop 8 = r1 := List.drop_left' (le64_length w)
  rw [hdrop, (marshalValue_eq _).1, encValue]
  generalize lenBytes r1 = p at e2 v2 i2 ⊢
  subst e2
  have hlab : (copyInto base r2).length = l.toNat := by
    unfold copyInto
    rw [List.length_append, List.length_take, List.length_drop]; omega
  have hn' : 8 + p.length + l.toNat = n := by
    rw [← hn]; simp; omega
  simp only [hlab, Option.some.injEq]
  constructor
  · intro he
    have hlen := congrArg List.length he
    rw [List.append_assoc] at he
    have hsplit : (le64 w ++ (p ++ r2)).take n = le64 w ++ (p ++ r2.take l.toNat) := by
      rw [← hn', List.take_append, le64_length, List.take_of_length_le (by simp; omega),
        show 8 + p.length + l.toNat - 8 = p.length + l.toNat by omega, List.take_append, List.take_of_length_le (by omega),
        show p.length + l.toNat - p.length = l.toNat by omega]
    rw [hsplit] at he hlen
    have e3 := congrArg lenBytes (List.append_cancel_left he)
    rw [lenBytes_append _ (enc_isLen _), lenBytes_append _ i2] at e3
    simp only [List.length_append, List.length_take, hlab, le64_length] at hlen ⊢
    rw [e3] at hlen
    refine ⟨by omega, ?_⟩
    rw [← e3]
    exact enc_shortest (by omega)
  · rintro ⟨hle, hs⟩
    have hl2 : l.toNat ≤ r2.length := by
      simp only [List.length_append, le64_length] at hle; omega
    rw [copyInto_whole (by omega), hb, v2 hs.1, isLen_enc i2 hs.2, ← v2 hs.1]
    symm
    rw [← hn', ← List.append_assoc, ← List.take_append_drop l.toNat r2, ← List.append_assoc]
    rw [List.take_left' (by simp; omega)]
    rw [List.take_append_drop]

end Veri
