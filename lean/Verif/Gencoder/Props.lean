import Verif.Gencoder.Lemmas
/-
Properties C01-C07: encoding of keys, values and scores; the datum constructor.
-/
set_option autoImplicit false
namespace Veri
open Gencoder

/-! ### C01 key encoding round-trips -/

/-- C01.  The encoding of every key decodes to that key, consuming exactly the encoding, whatever
follows and whatever the destination held before. -/
theorem C01_key_roundtrip (k : DatumKey) (hk : DatumKey.Fits k) :
    ∃ enc, marshalKey k = some enc ∧
      (∀ old rest, unmarshalKey old (enc ++ rest) = some (k, enc.length)) :=
  ⟨encKey k, (marshalKey_eq k).1, unmarshalKey_enc k hk⟩

/-- C01 at the level of `Datum.GetKeyAsBytes` / `ToDatumKey`. -/
theorem C01_datum_key_roundtrip (d : Datum) (k : DatumKey) (hd : d.key = some k)
    (hk : DatumKey.Fits k) :
    ∃ enc, getKeyAsBytes d = some enc ∧ ∀ rest, toDatumKey (enc ++ rest) = some k := by
  refine ⟨encKey k, ?_, ?_⟩
  · simp [getKeyAsBytes, hd, (marshalKey_eq k).1]
  · intro rest; simp [toDatumKey, unmarshalKey_enc k hk]

/-- A key with a two-byte length prefix (200 features) meets the hypothesis. -/
example : DatumKey.Fits ⟨List.replicate 200 0x3F800000, [1, 2, 3], 7, 8, 9, 10⟩ := by
  rw [DatumKey.Fits, List.length_replicate]; decide

example : marshalKey ⟨[0x3F800000, 0xFFC00000], [65], 1, 2, 3, 258⟩ =
    some [2, 0, 0, 128, 63, 0, 0, 192, 255, 1, 65, 1, 0, 0, 0, 2, 0, 0, 0, 3, 0, 0, 0, 2, 1, 0, 0] := by
  simp [marshalKey, sizeKey, varintSize, putVarint, putFeatures, putCopy, wrAll, wr, le32, sliceTo]
  try decide

/-! ### C02 value encoding round-trips -/

/-- C02. -/
theorem C02_value_roundtrip (v : DatumValue) (hv : DatumValue.Fits v) :
    ∃ enc, marshalValue v = some enc ∧
      (∀ old rest, unmarshalValue old (enc ++ rest) = some (v, enc.length)) :=
  ⟨encValue v, (marshalValue_eq v).1, unmarshalValue_enc v hv⟩

/-- C02 at the level of whole datums: `ToDatum(GetKeyAsBytes, GetValueAsBytes)`. -/
theorem C02_datum_roundtrip (k : DatumKey) (v : DatumValue) (hk : DatumKey.Fits k)
    (hv : DatumValue.Fits v) :
    ∃ ek ev, getKeyAsBytes ⟨some k, some v⟩ = some ek ∧ getValueAsBytes ⟨some k, some v⟩ = some ev ∧
      toDatum ek ev = some ⟨some k, some v⟩ := by
  refine ⟨encKey k, encValue v, (marshalKey_eq k).1, (marshalValue_eq v).1, ?_⟩
  have h1 := unmarshalKey_enc k hk [] []
  have h2 := unmarshalValue_enc v hv [] []
  rw [List.append_nil] at h1 h2
  simp [toDatum, toDatumKey, toDatumValue, h1, h2]

example : DatumValue.Fits { version := 0xFFFFFFFFFFFFFFFF, label := List.replicate 300 7 } := by
  rw [DatumValue.Fits, List.length_replicate]; decide

/-! ### C03 keys never collide -/

/-- C03.  If one key's encoding is a prefix of another's (in particular if they are equal), the keys
are equal.  No size hypothesis. -/
theorem C03_key_encoding_prefix_free (k l : DatumKey) (a b : Bytes)
    (ha : marshalKey k = some a) (hb : marshalKey l = some b) (h : a <+: b) : k = l := by
  rw [(marshalKey_eq k).1] at ha
  rw [(marshalKey_eq l).1] at hb
  injection ha with ha; injection hb with hb
  obtain ⟨t, ht⟩ := h
  subst ha; subst hb
  exact (encKey_append_inj k l t [] (by simpa using ht)).1

/-- C03 for the string used as map key. -/
theorem C03_store_key_injective (k l : DatumKey)
    (h : (marshalKey k).map encodeToString = (marshalKey l).map encodeToString) : k = l := by
  rw [(marshalKey_eq k).1, (marshalKey_eq l).1] at h
  simp [encodeToString] at h
  exact C03_key_encoding_prefix_free k l _ _ (marshalKey_eq k).1 (marshalKey_eq l).1 (h ▸ List.prefix_rfl)

/-- C03, companion: two values with the same encoding are equal (used by the duplicate check of
the store, which compares encodings). -/
theorem C03_value_encoding_injective (v w : DatumValue) (h : marshalValue v = marshalValue w) : v = w := by
  rw [(marshalValue_eq v).1, (marshalValue_eq w).1] at h
  simp at h
  exact (encValue_append_inj v w [] [] (by simpa using h)).1

/-- Two different keys whose field bytes concatenate to similar data get different encodings. -/
example : marshalKey { feature := [], groupLabel := [1, 0, 0, 0], size1 := 0, size2 := 0, dim1 := 0, dim2 := 0 }
    ≠ marshalKey { feature := [], groupLabel := [], size1 := 1, size2 := 0, dim1 := 0, dim2 := 0 } := by
  intro h
  have := C03_store_key_injective _ _ (congrArg (Option.map encodeToString) h)
  simp at this

/-! ### C04 encoding fills its buffer exactly -/

/-- C04.  Encoding never panics (no `none`) and returns exactly the computed size. -/
theorem C04_encode_exact :
    (∀ k : DatumKey, ∃ b, marshalKey k = some b ∧ b.length = sizeKey k) ∧
    (∀ v : DatumValue, ∃ b, marshalValue v = some b ∧ b.length = sizeValue v) ∧
    (∀ s : F64, ∃ b, marshalScore s = some b ∧ b.length = 8) :=
  ⟨fun k => ⟨_, marshalKey_eq k⟩, fun v => ⟨_, marshalValue_eq v⟩, fun s => ⟨_, marshalScore_eq s, rfl⟩⟩

/-- The computed size is the number of bytes of the fields: at the varint boundary 127/128. -/
example : sizeKey { feature := [], groupLabel := List.replicate 127 0, size1 := 0, size2 := 0, dim1 := 0, dim2 := 0 } = 145
    ∧ sizeKey { feature := [], groupLabel := List.replicate 128 0, size1 := 0, size2 := 0, dim1 := 0, dim2 := 0 } = 147 := by
  constructor <;> simp [sizeKey, varintSize]

/-! ### C05 truncated encodings -/

namespace Gencoder

theorem getU32_mono {p r : Bytes} {v : UInt32} (h : getU32 p = some (v, r)) (q : Bytes) :
    getU32 (p ++ q) = some (v, r ++ q) ∧ p.length = r.length + 4 := by
  match p, h with
  | b0 :: b1 :: b2 :: b3 :: rest, h =>
    simp only [getU32, Option.some.injEq, Prod.mk.injEq] at h
    obtain ⟨h1, h2⟩ := h
    subst h2
    exact ⟨by simp [getU32, ← h1], by simp⟩

theorem getU64_mono {p r : Bytes} {v : UInt64} (h : getU64 p = some (v, r)) (q : Bytes) :
    getU64 (p ++ q) = some (v, r ++ q) ∧ p.length = r.length + 8 := by
  match p, h with
  | b0 :: b1 :: b2 :: b3 :: b4 :: b5 :: b6 :: b7 :: rest, h =>
    simp only [getU64, Option.some.injEq, Prod.mk.injEq] at h
    obtain ⟨h1, h2⟩ := h
    subst h2
    exact ⟨by simp [getU64, ← h1], by simp⟩

theorem getVarintLoop_mono : ∀ (p : Bytes) (b : UInt8) (t : UInt64) (bs : UInt8) (v : UInt64) (r : Bytes),
    getVarintLoop b t bs p = some (v, r) → ∀ q, getVarintLoop b t bs (p ++ q) = some (v, r ++ q) := by
  intro p
  induction p with
  | nil =>
    intro b t bs v r h q
    rw [getVarintLoop.eq_def] at h ⊢
    split at h
    · cases h
    · rename_i hb
      rw [if_neg hb]
      simp only [Option.some.injEq, Prod.mk.injEq] at h
      simp [← h.1, ← h.2]
  | cons c p ih =>
    intro b t bs v r h q
    rw [getVarintLoop.eq_def] at h ⊢
    split at h
    · rename_i hb
      rw [if_pos hb]
      exact ih _ _ _ _ _ h q
    · rename_i hb
      rw [if_neg hb]
      simp only [Option.some.injEq, Prod.mk.injEq] at h
      simp [← h.1, ← h.2]

theorem getVarint_mono {p r : Bytes} {v : UInt64} (h : getVarint p = some (v, r)) (q : Bytes) :
    getVarint (p ++ q) = some (v, r ++ q) := by
  cases p with
  | nil => simp [getVarint] at h
  | cons b p => exact getVarintLoop_mono _ _ _ _ _ _ h q

theorem getFeatures_mono : ∀ (n : Nat) (p : Bytes) (v : List F32) (r : Bytes),
    getFeatures n p = some (v, r) → ∀ q, getFeatures n (p ++ q) = some (v, r ++ q) := by
  intro n
  induction n with
  | zero =>
    intro p v r h q
    simp only [getFeatures, Option.some.injEq, Prod.mk.injEq] at h ⊢
    simp [h.1, h.2]
  | succ n ih =>
    intro p v r h q
    simp only [getFeatures, Option.bind_eq_bind, Option.bind_eq_some_iff] at h ⊢
    obtain ⟨⟨w, p1⟩, h1, ⟨ws, p2⟩, h2, h3⟩ := h
    exact ⟨(w, p1 ++ q), (getU32_mono h1 q).1, (ws, p2 ++ q), ih _ _ _ h2 q, by simp_all⟩

end Gencoder

/-- C05 (keys).  Every proper prefix of an encoded key makes the decoder fail (index out of range),
for keys of any size. -/
theorem C05_truncated_key_rejected (k : DatumKey) (enc p : Bytes) (hk : DatumKey.Fits k)
    (he : marshalKey k = some enc) (hp : p <+: enc) (hne : p ≠ enc) (old : Bytes) :
    unmarshalKey old p = none := by
  rw [(marshalKey_eq k).1] at he
  injection he with he
  obtain ⟨q, hq⟩ := hp
  cases hu : unmarshalKey old p with
  | none => rfl
  | some x =>
    exfalso
    apply hne
    have hM : maxAlloc < 2^64 := by decide
    have hf' : k.feature.length ≤ maxAlloc := by have := hk.1; omega
    have hg := hk.2
    rw [unmarshalKey] at hu
    simp only [Option.bind_eq_bind, Option.bind_eq_some_iff] at hu
    obtain ⟨⟨l1, r1⟩, h1, hu⟩ := hu
    have e1 := getVarint_mono h1 q
    have hsplit : encKey k = encVarint k.feature.length ++ (encFeatures k.feature ++
      (encVarint k.groupLabel.length ++ (k.groupLabel ++ (le32 k.size1 ++ (le32 k.size2 ++
      (le32 k.dim1 ++ le32 k.dim2)))))) := by
      simp only [encKey, List.append_assoc]
    rw [hq, ← he, hsplit, getVarint_enc _ _ (by omega)] at e1
    simp only [Option.some.injEq, Prod.mk.injEq] at e1
    obtain ⟨e1, e1'⟩ := e1
    subst e1
    simp only at hu
    rw [u64_ofNat_toNat _ hf'] at hu
    split at hu
    · cases hu
    simp only [Option.bind_eq_some_iff] at hu
    obtain ⟨⟨fs, r2⟩, h2, ⟨l2, r3⟩, h3, base, h4, ⟨s1, r4⟩, h5, ⟨s2, r5⟩, h6, ⟨s3, r6⟩, h7, ⟨s4, r7⟩, h8, _⟩ := hu
    have e2 := getFeatures_mono _ _ _ _ h2 q
    rw [← e1', getFeatures_enc] at e2
    simp only [Option.some.injEq, Prod.mk.injEq] at e2
    obtain ⟨_, e2⟩ := e2
    have e3 := getVarint_mono h3 q
    simp only at e3
    rw [← e2, getVarint_enc _ _ (by omega)] at e3
    simp only [Option.some.injEq, Prod.mk.injEq] at e3
    obtain ⟨e3, e3'⟩ := e3
    subst e3
    simp only at h5 h6 h7 h8
    rw [u64_ofNat_toNat _ hg] at h5
    have g5 := (getU32_mono h5 []).2
    have g6 := (getU32_mono h6 []).2
    have g7 := (getU32_mono h7 []).2
    have g8 := (getU32_mono h8 []).2
    have g := congrArg List.length e3'
    simp at g g5
    have hq0 : q.length = 0 := by omega
    have : q = [] := List.eq_nil_of_length_eq_zero hq0
    subst this
    simpa [← he] using hq

/-- C05, full statement for values.  It is FALSE of the code: see
`C05_truncated_value_rejected_fails`. -/
def C05_truncated_value_rejected_statement : Prop :=
  ∀ (v : DatumValue) (enc p : Bytes), DatumValue.Fits v → marshalValue v = some enc → p <+: enc →
    p ≠ enc → ∀ old, unmarshalValue old p = none

/-- C05 (values), exact behaviour: cutting inside the version or the length prefix fails; cutting the
label after `j` of its bytes is accepted and yields the first `j` bytes followed by zero bytes
(fresh destination), with the full length reported as consumed. -/
theorem C05_truncated_value_partial (v : DatumValue) (hv : DatumValue.Fits v) :
    (∀ p, p <+: le64 v.version ++ encVarint v.label.length →
      p ≠ le64 v.version ++ encVarint v.label.length → ∀ old, unmarshalValue old p = none) ∧
    (∀ j, j ≤ v.label.length →
      unmarshalValue [] (le64 v.version ++ encVarint v.label.length ++ v.label.take j)
        = some ({ version := v.version
                  label := v.label.take j ++ List.replicate (v.label.length - j) 0 },
                (encValue v).length)) := by
  have hM : maxAlloc < 2^64 := by decide
  have hv' : v.label.length ≤ maxAlloc := hv
  constructor
  · intro p ⟨q, hq⟩ hne old
    cases hu : unmarshalValue old p with
    | none => rfl
    | some x =>
      exfalso
      apply hne
      rw [unmarshalValue] at hu
      simp only [Option.bind_eq_bind, Option.bind_eq_some_iff] at hu
      obtain ⟨⟨w, r1⟩, h1, ⟨l, r2⟩, h2, _⟩ := hu
      have e1 := (getU64_mono h1 q).1
      rw [hq, getU64_le64] at e1
      simp only [Option.some.injEq, Prod.mk.injEq] at e1
      have e2 := getVarint_mono h2 q
      simp only at e2
      have e3 := getVarint_enc v.label.length [] (by omega)
      rw [List.append_nil] at e3
      rw [← e1.2, e3] at e2
      simp only [Option.some.injEq, Prod.mk.injEq] at e2
      have : q = [] := (List.append_eq_nil_iff.1 e2.2.symm).2
      subst this
      simpa using hq
  · intro j hj
    rw [unmarshalValue, List.append_assoc, getU64_le64]
    simp only [Option.bind_eq_bind, Option.bind_some]
    rw [getVarint_enc _ _ (by omega)]
    simp only [Option.bind_some]
    rw [u64_ofNat_toNat _ hv', resize]
    by_cases h0 : v.label.length = 0
    · have hnil : v.label = [] := List.eq_nil_of_length_eq_zero h0
      simp [hnil, copyInto, encValue]
    · rw [if_neg (by simpa using fun h => h0 (by simp [h])), if_pos hv']
      simp only [Option.bind_some, copyInto, Option.some.injEq, Prod.mk.injEq, encValue, List.length_append]
      refine ⟨?_, ?_⟩
      · congr 1
        rw [List.take_of_length_le (by simp; omega)]
        simp [Nat.min_eq_left hj]
      · omega

/-- Witness: the encoding of the one-byte label "A" without its last byte decodes to the label
"\\0", which was never encoded. -/
theorem C05_truncated_value_rejected_fails : ¬ C05_truncated_value_rejected_statement := by
  intro h
  let v : DatumValue := { version := 5, label := [65] }
  have hv : DatumValue.Fits v := by simp [DatumValue.Fits, maxAlloc, v]
  have h2 := (C05_truncated_value_partial v hv).2 0 (by simp [v])
  have h1 := h v (encValue v) (le64 v.version ++ encVarint v.label.length ++ v.label.take 0) hv
    (marshalValue_eq v).1 ⟨v.label, by simp [encValue]⟩ (by simp [encValue, v]) []
  rw [h1] at h2
  cases h2

/-- The same truncation into a re-used destination leaks bytes of the previous label. -/
theorem C05_truncated_value_leaks_old :
    unmarshalValue [66, 67] (le64 5 ++ encVarint 1) = some ({ version := 5, label := [66] }, 10) := by
  rw [unmarshalValue, getU64_le64]
  have := getVarint_enc 1 [] (by decide)
  rw [List.append_nil] at this
  simp only [Option.bind_eq_bind, Option.bind_some, this]
  have h1 : (encVarint 1).length = 1 := by rw [encVarint_length]; simp [varintSize]
  simp [resize, copyInto, h1]

example : (5 : Nat) < (encKey { feature := [1], groupLabel := [2], size1 := 0, size2 := 0, dim1 := 0, dim2 := 0 }).length := by
  simp [encKey]; omega

/-! ### C06 datum constructor -/

/-- C06, full statement.  FALSE of the code (`Size2: size1`). -/
def C06_newDatum_keeps_arguments_statement : Prop :=
  ∀ (feature : List F32) (dim1 dim2 size1 size2 : UInt32) (groupLabel label : Bytes) (version : UInt64),
    newDatum feature dim1 dim2 size1 size2 groupLabel label version =
      { key := some { feature, groupLabel, size1, size2, dim1, dim2 }
        value := some { version, label } }

theorem C06_newDatum_keeps_arguments_fails : ¬ C06_newDatum_keeps_arguments_statement := by
  intro h
  have := h [] 0 0 1 2 [] [] 0
  simp [newDatum] at this

/-- C06, exact behaviour: every argument is kept except `size2`, which is replaced by `size1`; so the
claim holds exactly when the two sizes are equal. -/
theorem C06_newDatum_partial (feature : List F32) (dim1 dim2 size1 size2 : UInt32)
    (groupLabel label : Bytes) (version : UInt64) :
    newDatum feature dim1 dim2 size1 size2 groupLabel label version =
      { key := some { feature, groupLabel, size1, size2 := size1, dim1, dim2 }
        value := some { version, label } } ∧
    (newDatum feature dim1 dim2 size1 size2 groupLabel label version =
      { key := some { feature, groupLabel, size1, size2, dim1, dim2 }
        value := some { version, label } } ↔ size1 = size2) := by
  refine ⟨rfl, ?_⟩
  simp [newDatum]

/-- Consequence of C06: two datums that differ only in `size2` get the same key, so the second
insert overwrites the first. -/
theorem C06_size2_collision (feature : List F32) (dim1 dim2 size1 a b : UInt32)
    (groupLabel l1 l2 : Bytes) (v1 v2 : UInt64) :
    getKeyAsBytes (newDatum feature dim1 dim2 size1 a groupLabel l1 v1)
      = getKeyAsBytes (newDatum feature dim1 dim2 size1 b groupLabel l2 v2) := rfl

/-! ### C07 score encoding -/

/-- C07. -/
theorem C07_score_roundtrip (v : F64) (rest : Bytes) :
    ∃ enc, marshalScore v = some enc ∧ unmarshalScore (enc ++ rest) = some (v, 8) := by
  refine ⟨le64 v, marshalScore_eq v, ?_⟩
  simp [unmarshalScore, getU64_le64]

/-- A NaN payload survives. -/
example : (marshalScore 0x7FF800000000BEEF).bind (fun b => unmarshalScore b) = some (0x7FF800000000BEEF, 8) := by
  obtain ⟨enc, h1, h2⟩ := C07_score_roundtrip 0x7FF800000000BEEF []
  rw [List.append_nil] at h2
  rw [h1]; exact h2

end Veri
