import Verif.Gencoder.Canon
/-
C199: lengths written with more bytes than needed (gencoder.go:171-180, 206-215, 330-339).
-/
set_option autoImplicit false
namespace Veri
open Gencoder

namespace Gencoder

theorem shl64_zero (s : UInt8) : shl64 0 s = 0 := by
  unfold shl64
  split
  · exact UInt64.zero_shiftLeft
  · rfl

theorem loop_stop {b : UInt8} {t : UInt64} {bs : UInt8} {rest : Bytes} (h : ¬ b &&& 0x80 = 0x80) :
    getVarintLoop b t bs rest = some (t, rest) := by
  rw [getVarintLoop.eq_def, if_neg h]

theorem loop_on {b b' : UInt8} {t : UInt64} {bs : UInt8} {rest : Bytes} (h : b &&& 0x80 = 0x80) :
    getVarintLoop b t bs (b' :: rest) = getVarintLoop b' (t ||| shl64 (b' &&& 0x7F).toUInt64 bs) (bs + 7) rest := by
  rw [getVarintLoop.eq_def, if_pos h]

theorem loop_padded (rest : Bytes) : ∀ (k : Nat) (b : UInt8) (t : UInt64) (bs : UInt8), b &&& 0x80 = 0x80 →
    getVarintLoop b t bs (List.replicate k 0x80 ++ 0 :: rest) = some (t, rest)
  | 0, b, t, bs, h => by
    have e : ((0 : UInt8) &&& 0x7F).toUInt64 = 0 := by decide
    rw [List.replicate_zero, List.nil_append, loop_on h, e, shl64_zero, UInt64.or_zero, loop_stop (by decide)]
  | k + 1, b, t, bs, h => by
    have e : ((0x80 : UInt8) &&& 0x7F).toUInt64 = 0 := by decide
    rw [List.replicate_succ, List.cons_append, loop_on h, e, shl64_zero, UInt64.or_zero]
    exact loop_padded rest k _ _ _ (by decide)

theorem small_byte (l : UInt8) (hl : l < 128) :
    (l ||| 0x80) &&& 0x80 = 0x80 ∧ (l ||| 0x80) &&& 0x7F = l &&& 0x7F ∧ ¬ l &&& 0x80 = 0x80 := by
  have h : ∀ n : Fin 256, UInt8.ofNat n < 128 → (UInt8.ofNat n ||| 0x80) &&& 0x80 = 0x80 ∧
      (UInt8.ofNat n ||| 0x80) &&& 0x7F = UInt8.ofNat n &&& 0x7F ∧ ¬ UInt8.ofNat n &&& 0x80 = 0x80 := by
    decide +kernel
  have e : UInt8.ofNat l.toNat = l := UInt8.ofNat_toNat
  have := h ⟨l.toNat, l.toNat_lt⟩
  simp only [e] at this
  exact this hl

theorem getVarint_padded (l : UInt8) (hl : l < 128) (k : Nat) (rest : Bytes) :
    getVarint ((l ||| 0x80) :: (List.replicate k 0x80 ++ 0 :: rest)) = getVarint (l :: rest) := by
  obtain ⟨h1, h2, h3⟩ := small_byte l hl
  show getVarintLoop (l ||| 0x80) ((l ||| 0x80) &&& 0x7F).toUInt64 7 _ = getVarintLoop l (l &&& 0x7F).toUInt64 7 rest
  rw [loop_padded rest k _ _ _ h1, h2, loop_stop h3]

end Gencoder

/-- C199: however many bytes more than needed the length of a label is written with, the same value is decoded; only the number
of bytes read grows. -/
theorem C199_padded (old : Bytes) (w : UInt64) (l : UInt8) (hl : l < 128) (k : Nat) (rest : Bytes) :
    unmarshalValue old (le64 w ++ (l ||| 0x80) :: (List.replicate k 0x80 ++ 0 :: rest)) =
      (unmarshalValue old (le64 w ++ l :: rest)).map fun r => (r.1, r.2 + (k + 1)) := by
  have hg : ∀ x, getU64 (le64 w ++ x) = some (w, x) := fun x => by simp [getU64_le64]
  unfold unmarshalValue
  simp only [hg, Option.bind_eq_bind, Option.bind_some, getVarint_padded l hl]
  have hv : ∃ t, getVarint (l :: rest) = some (t, rest) := by
    exact ⟨(l &&& 0x7F).toUInt64, loop_stop (small_byte l hl).2.2⟩
  obtain ⟨t, ht⟩ := hv
  rw [ht]
  simp only [Option.bind_some]
  cases resize old t.toNat with
  | none => rfl
  | some b =>
    simp only [Option.bind_some, Option.map_some, Option.some.injEq, Prod.mk.injEq, true_and, List.length_append, List.length_cons,
      List.length_replicate]
    omega

/-- C199, an instance: the label "a" with its length in a hundred bytes. -/
theorem C199_padded_example :
    unmarshalValue [] (le64 7 ++ 0x81 :: (List.replicate 98 0x80 ++ 0 :: [97])) = some (⟨7, [97]⟩, 109) := by
  have h := C199_padded [] 7 1 (by decide) 98 [97]
  have e : unmarshalValue [] (le64 7 ++ 1 :: [97]) = some (⟨7, [97]⟩, 10) := by
    unfold unmarshalValue
    have hv : getVarint [1, 97] = some (1, [97]) := loop_stop (by decide)
    have hg : getU64 (le64 7 ++ [1, 97]) = some (7, [1, 97]) := by decide +kernel
    simp only [hg, hv, Option.bind_eq_bind, Option.bind_some]
    decide +kernel
  rw [e] at h
  exact h
end Veri
