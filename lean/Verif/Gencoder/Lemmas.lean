import Verif.Gencoder.Spec
set_option autoImplicit false
namespace Veri.Gencoder

/-! ### Little-endian words -/

theorem or_shift (a b k : Nat) (h : a < 2^k) : a ||| (b <<< k) = a + b * 2^k := by
  rw [Nat.or_comm, ← Nat.shiftLeft_add_eq_or_of_lt h, Nat.shiftLeft_eq, Nat.add_comm]

theorem nat_bytes32 (v : Nat) (hv : v < 2^32) :
    0 ||| (v >>> 0 % 256) <<< 0 % 2^32 ||| (v >>> 8 % 256) <<< 8 % 2^32 ||| (v >>> 16 % 256) <<< 16 % 2^32
      ||| (v >>> 24 % 256) <<< 24 % 2^32 = v := by
  have s : ∀ b k, b < 256 → k ≤ 24 → b <<< k % 2^32 = b <<< k := by
    intro b k hb hk
    apply Nat.mod_eq_of_lt
    rw [Nat.shiftLeft_eq]
    calc b * 2^k < 256 * 2^k := Nat.mul_lt_mul_of_pos_right hb (Nat.two_pow_pos k)
      _ ≤ 256 * 2^24 := Nat.mul_le_mul_left _ (Nat.pow_le_pow_right (by decide) hk)
      _ = 2^32 := by decide
  have m : ∀ x, x % 256 < 256 := fun x => Nat.mod_lt _ (by decide)
  rw [s _ 0 (m _) (by decide), s _ 8 (m _) (by decide), s _ 16 (m _) (by decide), s _ 24 (m _) (by decide)]
  rw [Nat.zero_or, Nat.shiftLeft_zero, or_shift _ _ 8 (by omega), or_shift _ _ 16 (by omega), or_shift _ _ 24 (by omega)]
  simp only [Nat.shiftRight_eq_div_pow]
  omega

theorem nat_bytes64 (v : Nat) (hv : v < 2^64) :
    0 ||| (v >>> 0 % 256) <<< 0 % 2^64 ||| (v >>> 8 % 256) <<< 8 % 2^64 ||| (v >>> 16 % 256) <<< 16 % 2^64
      ||| (v >>> 24 % 256) <<< 24 % 2^64 ||| (v >>> 32 % 256) <<< 32 % 2^64 ||| (v >>> 40 % 256) <<< 40 % 2^64
      ||| (v >>> 48 % 256) <<< 48 % 2^64 ||| (v >>> 56 % 256) <<< 56 % 2^64 = v := by
  have s : ∀ b k, b < 256 → k ≤ 56 → b <<< k % 2^64 = b <<< k := by
    intro b k hb hk
    apply Nat.mod_eq_of_lt
    rw [Nat.shiftLeft_eq]
    calc b * 2^k < 256 * 2^k := Nat.mul_lt_mul_of_pos_right hb (Nat.two_pow_pos k)
      _ ≤ 256 * 2^56 := Nat.mul_le_mul_left _ (Nat.pow_le_pow_right (by decide) hk)
      _ = 2^64 := by decide
  have m : ∀ x, x % 256 < 256 := fun x => Nat.mod_lt _ (by decide)
  rw [s _ 0 (m _) (by decide), s _ 8 (m _) (by decide), s _ 16 (m _) (by decide), s _ 24 (m _) (by decide),
    s _ 32 (m _) (by decide), s _ 40 (m _) (by decide), s _ 48 (m _) (by decide), s _ 56 (m _) (by decide)]
  rw [Nat.zero_or, Nat.shiftLeft_zero, or_shift _ _ 8 (by omega), or_shift _ _ 16 (by omega), or_shift _ _ 24 (by omega),
    or_shift _ _ 32 (by omega), or_shift _ _ 40 (by omega), or_shift _ _ 48 (by omega), or_shift _ _ 56 (by omega)]
  simp only [Nat.shiftRight_eq_div_pow]
  omega

theorem getU32_le32 (v : UInt32) (rest : Bytes) : getU32 (le32 v ++ rest) = some (v, rest) := by
  simp only [le32, List.cons_append, List.nil_append, getU32, Option.some.injEq, Prod.mk.injEq, and_true]
  apply UInt32.toNat_inj.1
  simp only [UInt32.toNat_or, UInt32.toNat_shiftLeft, UInt8.toNat_toUInt32, UInt32.toNat_toUInt8, UInt32.toNat_shiftRight]
  exact nat_bytes32 v.toNat v.toNat_lt

theorem getU64_le64 (v : UInt64) (rest : Bytes) : getU64 (le64 v ++ rest) = some (v, rest) := by
  simp only [le64, List.cons_append, List.nil_append, getU64, Option.some.injEq, Prod.mk.injEq, and_true]
  apply UInt64.toNat_inj.1
  simp only [UInt64.toNat_or, UInt64.toNat_shiftLeft, UInt8.toNat_toUInt64, UInt64.toNat_toUInt8, UInt64.toNat_shiftRight]
  exact nat_bytes64 v.toNat v.toNat_lt

@[simp] theorem le32_length (v : UInt32) : (le32 v).length = 4 := rfl
@[simp] theorem le64_length (v : UInt64) : (le64 v).length = 8 := rfl

@[simp] theorem encFeatures_length (vs : List F32) : (encFeatures vs).length = 4 * vs.length := by
  induction vs with
  | nil => rfl
  | cons v vs ih => simp [encFeatures, ih]; omega

/-! ### Varints -/

theorem encVarint_length (t : Nat) : (encVarint t).length = varintSize t := by
  induction t using Nat.strongRecOn with
  | _ t ih =>
    rw [encVarint, varintSize]
    split
    · rfl
    · rename_i h
      rw [List.length_cons, ih (t / 128) (by omega)]
      simp [Nat.shiftRight_eq_div_pow]

theorem encVarint_ne_nil (t : Nat) : encVarint t ≠ [] := by
  rw [encVarint]; split <;> simp

theorem cont_bit (b : UInt8) : (b ||| 0x80) &&& 0x80 = 0x80 := by
  have : ∀ b : UInt8, (b ||| 0x80) &&& 0x80 = 0x80 := by
    intro b; apply UInt8.toBitVec_inj.1
    simp only [UInt8.toBitVec_and, UInt8.toBitVec_or]
    ext i hi; simp; exact Or.inr
  exact this b

theorem payload (n : Nat) : ((UInt8.ofNat n ||| 0x80) &&& 0x7F).toNat = n % 128 := by
  have : ((UInt8.ofNat n ||| 0x80) &&& 0x7F).toNat = (n % 256 ||| 128) &&& 127 := by
    simp [UInt8.toNat_and, UInt8.toNat_or]
  rw [this, show (127 : Nat) = 2^7 - 1 from rfl, Nat.and_two_pow_sub_one_eq_mod]
  apply Nat.eq_of_testBit_eq
  intro i
  rw [show (128 : Nat) = 2^7 from rfl, show (256 : Nat) = 2^8 from rfl]
  simp only [Nat.testBit_mod_two_pow, Nat.testBit_or, Nat.testBit_two_pow]
  by_cases h : i < 7
  · have h1 : i < 8 := by omega
    have h2 : ¬ 7 = i := by omega
    simp [h, h1, h2]
  · simp [h]

theorem small_and (n : Nat) (h : n < 128) : UInt8.ofNat n &&& 0x80 ≠ 0x80 := by
  intro hc
  have := congrArg UInt8.toNat hc
  simp only [UInt8.toNat_and, UInt8.toNat_ofNat'] at this
  have e : n % 2^8 = n := Nat.mod_eq_of_lt (by omega)
  rw [e] at this
  have h7 := congrArg (fun x => Nat.testBit x 7) this
  simp only [Nat.testBit_and] at h7
  rw [Nat.testBit_lt_two_pow (show n < 2^7 from h)] at h7
  simp at h7
  revert h7; decide

theorem small_payload (n : Nat) (h : n < 128) : (UInt8.ofNat n &&& 0x7F).toNat = n := by
  have : (UInt8.ofNat n &&& 0x7F).toNat = n % 256 &&& 127 := by simp [UInt8.toNat_and]
  rw [this, show (127 : Nat) = 2^7 - 1 from rfl, Nat.and_two_pow_sub_one_eq_mod]
  omega

/-- Value of one accumulation step of the varint reader. -/
theorem acc_step (t : UInt64) (b : UInt8) (k : Nat) (ht : t.toNat < 2^k) (hk : k < 64)
    (hb : b.toNat * 2^k + t.toNat < 2^64) :
    (t ||| shl64 b.toUInt64 (UInt8.ofNat k)).toNat = t.toNat + b.toNat * 2^k := by
  have hk8 : (UInt8.ofNat k).toNat = k := by simp; omega
  have : (shl64 b.toUInt64 (UInt8.ofNat k)).toNat = b.toNat <<< k := by
    rw [shl64, if_pos (by rw [hk8]; exact hk)]
    rw [UInt64.toNat_shiftLeft, UInt8.toNat_toUInt64, UInt8.toNat_toUInt64, hk8, Nat.mod_eq_of_lt hk]
    apply Nat.mod_eq_of_lt
    rw [Nat.shiftLeft_eq]; omega
  rw [UInt64.toNat_or, this, or_shift _ _ _ ht]

theorem getVarintLoop_enc (n : Nat) : ∀ (k : Nat) (t : UInt64) (b : UInt8) (tl rest : Bytes),
    encVarint n = b :: tl → t.toNat < 2^k → k < 64 → n * 2^k + t.toNat < 2^64 →
    ∀ u : UInt64, u.toNat = t.toNat + (b &&& 0x7F).toNat * 2^k →
    getVarintLoop b u (UInt8.ofNat (k + 7)) (tl ++ rest)
      = some (UInt64.ofNat (t.toNat + n * 2^k), rest) := by
  induction n using Nat.strongRecOn with
  | _ n ih =>
    intro k t b tl rest henc ht hk hlt u hu
    rw [encVarint] at henc
    by_cases hn : n < 128
    · rw [if_pos hn] at henc
      injection henc with hb htl
      subst hb; subst htl
      rw [getVarintLoop.eq_def, if_neg (small_and n hn)]
      rw [small_payload n hn] at hu
      simp only [List.nil_append, Option.some.injEq, Prod.mk.injEq, and_true]
      apply UInt64.toNat_inj.1
      rw [hu, UInt64.toNat_ofNat']
      symm; apply Nat.mod_eq_of_lt; omega
    · rw [if_neg hn] at henc
      injection henc with hb htl
      subst hb
      rw [getVarintLoop.eq_def, if_pos (cont_bit _)]
      obtain ⟨b', tl', h'⟩ : ∃ b' tl', encVarint (n / 128) = b' :: tl' := by
        cases h : encVarint (n / 128) with
        | nil => exact absurd h (encVarint_ne_nil _)
        | cons b' tl' => exact ⟨b', tl', rfl⟩
      rw [← htl, h']
      simp only [List.cons_append]
      rw [payload] at hu
      have hpow : (2:Nat)^(k+7) = 128 * 2^k := by rw [Nat.pow_add]; omega
      have hdm : n = 128 * (n / 128) + n % 128 := (Nat.div_add_mod n 128).symm
      have hmul : n * 2^k = n / 128 * 2^(k+7) + n % 128 * 2^k := by
        rw [hpow]
        calc n * 2^k = (128 * (n/128) + n % 128) * 2^k := by rw [← hdm]
          _ = _ := by rw [Nat.add_mul, Nat.mul_comm 128 (n/128), Nat.mul_assoc]
      have hu2 : u.toNat < 2^(k+7) := by
        rw [hu, hpow]
        have : n % 128 * 2^k ≤ 127 * 2^k := Nat.mul_le_mul_right _ (by omega)
        omega
      have hk7 : k + 7 < 64 := by
        have h1 : 1 ≤ n / 128 := by omega
        have h2 : 2^(k+7) ≤ n / 128 * 2^(k+7) := Nat.le_mul_of_pos_left _ h1
        have h3 : 2^(k+7) < 2^64 := by omega
        exact (Nat.pow_lt_pow_iff_right (by decide)).1 h3
      have hb' : (b' &&& 0x7F).toNat ≤ n / 128 := by
        rw [encVarint] at h'
        by_cases hs : n / 128 < 128
        · rw [if_pos hs] at h'
          injection h' with hb' _
          rw [← hb', small_payload _ hs]; exact Nat.le_refl _
        · rw [if_neg hs] at h'
          injection h' with hb' _
          rw [← hb', payload]; exact Nat.mod_le _ _
      have hb'' : (b' &&& 0x7F).toNat * 2^(k+7) ≤ n / 128 * 2^(k+7) := Nat.mul_le_mul_right _ hb'
      have hacc := acc_step u (b' &&& 0x7F) (k+7) hu2 hk7 (by omega)
      have h88 : UInt8.ofNat (k + 7) + 7 = UInt8.ofNat (k + 7 + 7) := by
        rw [UInt8.ofNat_add (k+7) 7]; rfl
      rw [h88, ih (n / 128) (by omega) (k + 7) u b' tl' rest h' hu2 hk7 (by omega) _ hacc]
      simp only [Option.some.injEq, Prod.mk.injEq, and_true]
      congr 1
      omega

theorem getVarint_enc (n : Nat) (rest : Bytes) (h : n < 2^64) :
    getVarint (encVarint n ++ rest) = some (UInt64.ofNat n, rest) := by
  obtain ⟨b, tl, he⟩ : ∃ b tl, encVarint n = b :: tl := by
    cases h : encVarint n with
    | nil => exact absurd h (encVarint_ne_nil _)
    | cons b' tl' => exact ⟨b', tl', rfl⟩
  rw [he, List.cons_append, getVarint]
  have := getVarintLoop_enc n 0 0 b tl rest he (by decide) (by decide) (by simpa using h)
    (b &&& 0x7F).toUInt64 (by simp)
  simpa using this

/-- Varints are prefix-free, for lengths of any size. -/
theorem encVarint_append_inj (n : Nat) : ∀ (m : Nat) (r s : Bytes),
    encVarint n ++ r = encVarint m ++ s → n = m ∧ r = s := by
  induction n using Nat.strongRecOn with
  | _ n ih =>
    intro m r s h
    rw [encVarint.eq_1 n, encVarint.eq_1 m] at h
    by_cases hn : n < 128 <;> by_cases hm : m < 128
    · rw [if_pos hn, if_pos hm] at h
      injection h with h1 h2
      have := congrArg UInt8.toNat h1
      simp only [UInt8.toNat_ofNat'] at this
      exact ⟨by omega, h2⟩
    · rw [if_pos hn, if_neg hm] at h
      injection h with h1 h2
      exact absurd (h1 ▸ cont_bit _) (small_and n hn)
    · rw [if_neg hn, if_pos hm] at h
      injection h with h1 h2
      exact absurd (h1 ▸ cont_bit _) (small_and m hm)
    · rw [if_neg hn, if_neg hm] at h
      injection h with h1 h2
      have hp := congrArg (fun b => (b &&& 0x7F).toNat) h1
      simp only [payload] at hp
      obtain ⟨hd, hr⟩ := ih (n / 128) (by omega) (m / 128) r s h2
      exact ⟨by omega, hr⟩

theorem le32_append_inj (v w : UInt32) (r s : Bytes) (h : le32 v ++ r = le32 w ++ s) :
    v = w ∧ r = s := by
  have h1 := getU32_le32 v r
  rw [h, getU32_le32 w s] at h1
  simp at h1
  exact ⟨h1.1.symm, h1.2.symm⟩

theorem le64_append_inj (v w : UInt64) (r s : Bytes) (h : le64 v ++ r = le64 w ++ s) :
    v = w ∧ r = s := by
  have h1 := getU64_le64 v r
  rw [h, getU64_le64 w s] at h1
  simp at h1
  exact ⟨h1.1.symm, h1.2.symm⟩

theorem encFeatures_append_inj : ∀ (v w : List F32) (r s : Bytes), v.length = w.length →
    encFeatures v ++ r = encFeatures w ++ s → v = w ∧ r = s
  | [], [], _, _, _, h => ⟨rfl, h⟩
  | a :: v, b :: w, r, s, hl, h => by
    simp only [encFeatures, List.append_assoc] at h
    obtain ⟨h1, h2⟩ := le32_append_inj _ _ _ _ h
    obtain ⟨h3, h4⟩ := encFeatures_append_inj v w r s (by simpa using hl) h2
    exact ⟨by rw [h1, h3], h4⟩

theorem getFeatures_enc (vs : List F32) (rest : Bytes) :
    getFeatures vs.length (encFeatures vs ++ rest) = some (vs, rest) := by
  induction vs with
  | nil => rfl
  | cons v vs ih =>
    simp only [encFeatures, List.length_cons, getFeatures, List.append_assoc]
    rw [getU32_le32]
    simp [ih]

theorem encKey_append_inj (k l : DatumKey) (r s : Bytes) (h : encKey k ++ r = encKey l ++ s) :
    k = l ∧ r = s := by
  simp only [encKey, List.append_assoc] at h
  obtain ⟨h1, h⟩ := encVarint_append_inj _ _ _ _ h
  obtain ⟨h2, h⟩ := encFeatures_append_inj _ _ _ _ h1 h
  obtain ⟨h3, h⟩ := encVarint_append_inj _ _ _ _ h
  obtain ⟨h4, h⟩ := List.append_inj h h3
  obtain ⟨h5, h⟩ := le32_append_inj _ _ _ _ h
  obtain ⟨h6, h⟩ := le32_append_inj _ _ _ _ h
  obtain ⟨h7, h⟩ := le32_append_inj _ _ _ _ h
  obtain ⟨h8, h⟩ := le32_append_inj _ _ _ _ h
  cases k; cases l
  simp_all

theorem encValue_append_inj (v w : DatumValue) (r s : Bytes) (h : encValue v ++ r = encValue w ++ s) :
    v = w ∧ r = s := by
  simp only [encValue, List.append_assoc] at h
  obtain ⟨h1, h⟩ := le64_append_inj _ _ _ _ h
  obtain ⟨h2, h⟩ := encVarint_append_inj _ _ _ _ h
  obtain ⟨h3, h⟩ := List.append_inj h h2
  cases v; cases w
  simp_all

/-! ### The write pass fills the buffer -/

theorem wrAll_fill (bs : Bytes) : ∀ (pre : Bytes) (r : Nat), bs.length ≤ r →
    wrAll (pre ++ List.replicate r 0) pre.length bs
      = some (pre ++ bs ++ List.replicate (r - bs.length) 0) := by
  induction bs with
  | nil => intro pre r _; simp [wrAll]
  | cons b bs ih =>
    intro pre r hr
    obtain ⟨r', rfl⟩ : ∃ r', r = r' + 1 := ⟨r - 1, by simp at hr; omega⟩
    have hw : wr (pre ++ List.replicate (r' + 1) 0) pre.length b
        = some ((pre ++ [b]) ++ List.replicate r' 0) := by
      rw [wr, if_pos (by simp)]
      simp [List.replicate_succ]
    rw [wrAll, hw]
    have := ih (pre ++ [b]) r' (by simpa using hr)
    simp only [List.length_append, List.length_singleton, Option.bind_some] at this ⊢
    rw [this]
    simp

theorem putVarint_fill (t : Nat) : ∀ (pre : Bytes) (r : Nat), varintSize t ≤ r →
    putVarint (pre ++ List.replicate r 0) pre.length t
      = some (pre ++ encVarint t ++ List.replicate (r - varintSize t) 0,
              (pre ++ encVarint t).length) := by
  induction t using Nat.strongRecOn with
  | _ t ih =>
    intro pre r hr
    rw [putVarint, encVarint]
    rw [varintSize] at hr ⊢
    have hpos : 1 ≤ r := by split at hr <;> omega
    obtain ⟨r', rfl⟩ : ∃ r', r = r' + 1 := ⟨r - 1, by omega⟩
    have hw : ∀ b, wr (pre ++ List.replicate (r' + 1) 0) pre.length b
        = some ((pre ++ [b]) ++ List.replicate r' 0) := by
      intro b
      rw [wr, if_pos (by simp)]
      simp [List.replicate_succ]
    by_cases ht : t < 128
    · rw [if_pos ht, if_pos ht, if_pos ht, hw]
      simp
    · rw [if_neg ht] at hr
      rw [if_neg ht, if_neg ht, if_neg ht, hw]
      have hs : t >>> 7 = t / 128 := by simp [Nat.shiftRight_eq_div_pow]
      rw [hs] at hr ⊢
      have := ih (t / 128) (by omega) (pre ++ [UInt8.ofNat t ||| 0x80]) r' (by omega)
      simp only [List.length_append, List.length_singleton, Option.bind_some] at this ⊢
      rw [this]
      simp [Nat.add_assoc, Nat.add_comm 1]

theorem putFeatures_fill (vs : List F32) : ∀ (pre : Bytes) (r : Nat), 4 * vs.length ≤ r →
    putFeatures (pre ++ List.replicate r 0) pre.length vs
      = some (pre ++ encFeatures vs ++ List.replicate (r - 4 * vs.length) 0,
              (pre ++ encFeatures vs).length) := by
  induction vs with
  | nil => intro pre r _; simp [putFeatures, encFeatures]
  | cons v vs ih =>
    intro pre r hr
    simp only [List.length_cons] at hr
    rw [putFeatures, wrAll_fill _ _ _ (by simp; omega)]
    have := ih (pre ++ le32 v) (r - 4) (by omega)
    simp only [List.length_append, le32_length, Option.bind_some] at this ⊢
    rw [this]
    simp only [encFeatures, List.append_assoc, Option.some.injEq, Prod.mk.injEq,
      List.length_cons, List.length_append, le32_length]
    refine ⟨?_, by omega⟩
    congr 4
    omega

theorem putCopy_fill (src pre : Bytes) (r : Nat) (hr : src.length ≤ r) :
    putCopy (pre ++ List.replicate r 0) pre.length src
      = some (pre ++ src ++ List.replicate (r - src.length) 0, (pre ++ src).length) := by
  rw [putCopy, if_pos (by simp)]
  have h2 : List.take r src = src := List.take_of_length_le hr
  simp [List.drop_append, h2]

theorem marshalKey_eq (k : DatumKey) : marshalKey k = some (encKey k) ∧ (encKey k).length = sizeKey k := by
  have hlen : (encKey k).length = sizeKey k := by
    simp only [encKey, List.length_append, encVarint_length, encFeatures_length, le32_length, sizeKey]
  refine ⟨?_, hlen⟩
  rw [marshalKey]
  generalize hS : sizeKey k = S
  simp only [sizeKey] at hS
  have h1 := putVarint_fill k.feature.length [] S (by omega)
  simp only [List.nil_append, List.length_nil] at h1
  simp only [h1, Option.bind_eq_bind, Option.bind_some]
  rw [putFeatures_fill k.feature (encVarint k.feature.length) _ (by omega)]
  simp only [Option.bind_some]
  rw [putVarint_fill k.groupLabel.length _ _ (by omega)]
  simp only [Option.bind_some]
  rw [putCopy_fill _ _ _ (by omega)]
  simp only [Option.bind_some]
  rw [wrAll_fill _ _ _ (by simp; omega)]
  simp only [Option.bind_some]
  rw [show ∀ p : Bytes, p.length + 4 = (p ++ le32 k.size1).length from fun p => by simp]
  rw [wrAll_fill _ _ _ (by simp; omega)]
  simp only [Option.bind_some]
  rw [show ∀ p : Bytes, p.length + 8 = (p ++ le32 k.size1 ++ le32 k.size2).length from fun p => by simp]
  rw [wrAll_fill _ _ _ (by simp; omega)]
  simp only [Option.bind_some]
  rw [show ∀ p : Bytes, p.length + 12 = (p ++ le32 k.size1 ++ le32 k.size2 ++ le32 k.dim1).length from fun p => by simp]
  rw [wrAll_fill _ _ _ (by simp; omega)]
  simp only [Option.bind_some]
  rw [sliceTo, if_pos (by simp; omega)]
  simp only [encKey]
  congr 1
  rw [List.take_append_of_le_length (by simp; omega)]
  apply List.take_of_length_le
  simp; omega

theorem marshalValue_eq (v : DatumValue) :
    marshalValue v = some (encValue v) ∧ (encValue v).length = sizeValue v := by
  have hlen : (encValue v).length = sizeValue v := by
    simp only [encValue, List.length_append, encVarint_length, le64_length, sizeValue]; omega
  refine ⟨?_, hlen⟩
  rw [marshalValue]
  generalize hS : sizeValue v = S
  simp only [sizeValue] at hS
  have h1 := wrAll_fill (le64 v.version) [] S (by simp; omega)
  simp only [List.nil_append, List.length_nil] at h1
  simp only [h1, Option.bind_eq_bind, Option.bind_some]
  have h2 := putVarint_fill v.label.length (le64 v.version) (S - 8) (by omega)
  simp only [le64_length] at h2 ⊢
  rw [h2]
  simp only [Option.bind_some]
  rw [putCopy_fill _ _ _ (by omega)]
  simp only [Option.bind_some]
  rw [sliceTo, if_pos (by simp)]
  simp only [encValue]
  congr 1
  rw [List.take_append_of_le_length (by simp)]
  exact List.take_of_length_le (Nat.le_refl _)

theorem marshalScore_eq (v : F64) : marshalScore v = some (le64 v) := rfl

/-! ### The read pass -/

theorem resize_ok (old : Bytes) (l : Nat) (h : l ≤ maxAlloc) :
    ∃ base, resize old l = some base ∧ base.length = l := by
  rw [resize]
  by_cases h1 : l ≤ old.length
  · exact ⟨old.take l, by rw [if_pos h1], by simp [h1]⟩
  · exact ⟨List.replicate l 0, by rw [if_neg h1, if_pos h], by simp⟩

theorem resize_length (old : Bytes) (l : Nat) (base : Bytes) (h : resize old l = some base) :
    base.length = l := by
  rw [resize] at h
  split at h
  · injection h with h; subst h; simp; omega
  · split at h
    · injection h with h; subst h; simp
    · cases h

theorem copyInto_full (base src rest : Bytes) (h : base.length = src.length) :
    copyInto base (src ++ rest) = src := by
  rw [copyInto, h, List.take_left]
  simp [h]

theorem u64_ofNat_toNat (n : Nat) (h : n ≤ maxAlloc) : (UInt64.ofNat n).toNat = n := by
  rw [UInt64.toNat_ofNat']
  apply Nat.mod_eq_of_lt
  simp only [maxAlloc] at h; omega

theorem unmarshalKey_enc (k : DatumKey) (hk : DatumKey.Fits k) (old rest : Bytes) :
    unmarshalKey old (encKey k ++ rest) = some (k, (encKey k).length) := by
  obtain ⟨hf, hg⟩ := hk
  have hf' : k.feature.length ≤ maxAlloc := by omega
  have hM : maxAlloc < 2^64 := by decide
  rw [unmarshalKey]
  have hsplit : encKey k ++ rest = encVarint k.feature.length ++ (encFeatures k.feature ++
    (encVarint k.groupLabel.length ++ (k.groupLabel ++ (le32 k.size1 ++ (le32 k.size2 ++
    (le32 k.dim1 ++ (le32 k.dim2 ++ rest))))))) := by
    simp only [encKey, List.append_assoc]
  rw [hsplit, getVarint_enc _ _ (by omega)]
  simp only [Option.bind_eq_bind, Option.bind_some]
  rw [u64_ofNat_toNat _ hf', if_neg (by omega), getFeatures_enc]
  simp only [Option.bind_some]
  rw [getVarint_enc _ _ (by omega)]
  simp only [Option.bind_some]
  rw [u64_ofNat_toNat _ hg]
  obtain ⟨base, hb, hbl⟩ := resize_ok old k.groupLabel.length hg
  rw [hb]
  simp only [Option.bind_some]
  rw [List.drop_left]
  simp only [getU32_le32, Option.bind_some]
  rw [copyInto_full _ _ _ hbl, ← hsplit]
  simp

theorem unmarshalValue_enc (v : DatumValue) (hv : DatumValue.Fits v) (old rest : Bytes) :
    unmarshalValue old (encValue v ++ rest) = some (v, (encValue v).length) := by
  have hM : maxAlloc < 2^64 := by decide
  rw [unmarshalValue]
  have hsplit : encValue v ++ rest = le64 v.version ++ (encVarint v.label.length ++ (v.label ++ rest)) := by
    simp only [encValue, List.append_assoc]
  rw [hsplit, getU64_le64]
  simp only [Option.bind_eq_bind, Option.bind_some]
  have hv' : v.label.length ≤ maxAlloc := hv
  rw [getVarint_enc _ _ (by omega)]
  simp only [Option.bind_some]
  rw [u64_ofNat_toNat _ hv']
  obtain ⟨base, hb, hbl⟩ := resize_ok old v.label.length hv'
  rw [hb]
  simp only [Option.bind_some]
  rw [copyInto_full _ _ _ hbl, ← hsplit]
  simp only [encValue, Option.some.injEq, Prod.mk.injEq, true_and, List.length_append]
  omega

end Veri.Gencoder
