import Verif.Float
/-
Model of data/gencoder/gencoder.go and data/datum.go.

A `float32`/`float64` is its bit pattern (the Go code reads it with
`*(*uint32)(unsafe.Pointer(&x))`).  `none` = Go panic (index or slice bound out of range,
or `make` with an impossible length).
-/
set_option autoImplicit false
namespace Veri


/-- veriservice.proto `message DatumKey` (veriservice/veriservice.pb.go:396). -/
structure DatumKey where
  feature : List F32
  groupLabel : Bytes
  size1 : UInt32
  size2 : UInt32
  dim1 : UInt32
  dim2 : UInt32
  deriving DecidableEq, Repr

/-- veriservice.proto `message DatumValue` (veriservice/veriservice.pb.go:483). -/
structure DatumValue where
  version : UInt64
  label : Bytes
  deriving DecidableEq, Repr

/-- veriservice.proto `message Datum` (veriservice/veriservice.pb.go:341); both fields are
pointers and may be nil in a request. -/
structure Datum where
  key : Option DatumKey
  value : Option DatumValue
  deriving DecidableEq, Repr

namespace Gencoder

/-! ### Size pass -/

/-- The loop `t := l; for t >= 0x80 { t >>= 7; s++ }; s++` of gencoder.go:23-32, 40-49, 256-265.
`uint64(len(x))` is modelled as the (unbounded) list length: a Go length is below 2^63, so the
conversion is exact. -/
def varintSize (t : Nat) : Nat :=
  if t < 0x80 then 1 else varintSize (t >>> 7) + 1
termination_by t
decreasing_by
  simp only [Nat.shiftRight_eq_div_pow]; omega

/-- gencoder.go:18-54 `SizeKey`. -/
def sizeKey (d : DatumKey) : Nat :=
  varintSize d.feature.length + 4 * d.feature.length
    + varintSize d.groupLabel.length + d.groupLabel.length + 16

/-- gencoder.go:251-270 `SizeValue`. -/
def sizeValue (d : DatumValue) : Nat :=
  varintSize d.label.length + d.label.length + 8

/-! ### Write pass: a cursor into a buffer of fixed length -/

/-- `buf[i] = b`: panics if `i` is out of range. -/
def wr (buf : Bytes) (i : Nat) (b : UInt8) : Option Bytes :=
  if i < buf.length then some (buf.set i b) else none

/-- Writes at `buf[i+o]`, `buf[i+o+1]`, ... in order. -/
def wrAll (buf : Bytes) (i : Nat) : Bytes → Option Bytes
  | [] => some buf
  | b :: bs => (wr buf i b).bind fun buf => wrAll buf (i + 1) bs

/-- gencoder.go:64-76, 100-112, 298-310:
`for t >= 0x80 { buf[i] = byte(t) | 0x80; t >>= 7; i++ }; buf[i] = byte(t); i++`. -/
def putVarint (buf : Bytes) (i t : Nat) : Option (Bytes × Nat) :=
  if t < 0x80 then
    (wr buf i (UInt8.ofNat t)).map fun buf => (buf, i + 1)
  else
    (wr buf i (UInt8.ofNat t ||| 0x80)).bind fun buf => putVarint buf (i + 1) (t >>> 7)
termination_by t
decreasing_by
  simp only [Nat.shiftRight_eq_div_pow]; omega

/-- The four bytes of gencoder.go:83-89, 118-124, 129-135, 140-146, 151-157:
`byte(v >> 0), byte(v >> 8), byte(v >> 16), byte(v >> 24)`. -/
def le32 (v : UInt32) : Bytes :=
  [(v >>> 0).toUInt8, (v >>> 8).toUInt8, (v >>> 16).toUInt8, (v >>> 24).toUInt8]

/-- The eight bytes of gencoder.go:278-292 and 371-385. -/
def le64 (v : UInt64) : Bytes :=
  [(v >>> 0).toUInt8, (v >>> 8).toUInt8, (v >>> 16).toUInt8, (v >>> 24).toUInt8,
   (v >>> 32).toUInt8, (v >>> 40).toUInt8, (v >>> 48).toUInt8, (v >>> 56).toUInt8]

/-- gencoder.go:77-95 `for k0 := range d.Feature { ...; i += 4 }`. -/
def putFeatures (buf : Bytes) (i : Nat) : List F32 → Option (Bytes × Nat)
  | [] => some (buf, i)
  | v :: vs => (wrAll buf i (le32 v)).bind fun buf => putFeatures buf (i + 4) vs

/-- `copy(buf[i:], src); i += len(src)` (gencoder.go:113-114, 311-312): the slice expression
panics if `i > len(buf)`; the copy is truncated at the end of the buffer. -/
def putCopy (buf : Bytes) (i : Nat) (src : Bytes) : Option (Bytes × Nat) :=
  if i ≤ buf.length then
    some (buf.take i ++ src.take (buf.length - i) ++ buf.drop (i + src.length), i + src.length)
  else none

/-- `buf[:n]` on a buffer of capacity `len(buf)` (made with `make([]byte, size)`): panics if
`n` exceeds it. -/
def sliceTo (buf : Bytes) (n : Nat) : Option Bytes :=
  if n ≤ buf.length then some (buf.take n) else none

/-- gencoder.go:56-161 `MarshalKey` (the error result is always nil). -/
def marshalKey (d : DatumKey) : Option Bytes := do
  let buf := List.replicate (sizeKey d) (0 : UInt8)
  let (buf, i) ← putVarint buf 0 d.feature.length
  let (buf, i) ← putFeatures buf i d.feature
  let (buf, i) ← putVarint buf i d.groupLabel.length
  let (buf, i) ← putCopy buf i d.groupLabel
  let buf ← wrAll buf i (le32 d.size1)
  let buf ← wrAll buf (i + 4) (le32 d.size2)
  let buf ← wrAll buf (i + 8) (le32 d.dim1)
  let buf ← wrAll buf (i + 12) (le32 d.dim2)
  sliceTo buf (i + 16)

/-- gencoder.go:271-315 `MarshalValue`: `i` starts at 0 and all writes after the version are at
`i+8`; here the cursor is `i+8`. -/
def marshalValue (d : DatumValue) : Option Bytes := do
  let buf := List.replicate (sizeValue d) (0 : UInt8)
  let buf ← wrAll buf 0 (le64 d.version)
  let (buf, i) ← putVarint buf 8 d.label.length
  let (buf, i) ← putCopy buf i d.label
  sliceTo buf i

/-- gencoder.go:357-389 `DatumScore.Size` / `DatumScore.Marshal`. -/
def marshalScore (v : F64) : Option Bytes := do
  let buf := List.replicate 8 (0 : UInt8)
  let buf ← wrAll buf 0 (le64 v)
  sliceTo buf 8

/-! ### Read pass

The read cursor `i` only moves forward; it is modelled by the not yet consumed suffix of `buf`,
and the returned count by the number of bytes dropped. -/

/-- Go `x << s` on uint64 with a uint8 count: 0 once the count reaches 64. -/
def shl64 (x : UInt64) (s : UInt8) : UInt64 :=
  if s.toNat < 64 then x <<< s.toUInt64 else 0

/-- gencoder.go:173-178 (also 208-213, 332-337), entered after the first byte `b` was read into
`t`: `for b&0x80 == 0x80 { i++; t |= uint64(buf[i]&0x7F) << bs; bs += 7 }; i++`.
`bs` is a uint8 and wraps. -/
def getVarintLoop (b : UInt8) (t : UInt64) (bs : UInt8) (rest : Bytes) : Option (UInt64 × Bytes) :=
  if b &&& 0x80 = 0x80 then
    match rest with
    | [] => none
    | b' :: rest' => getVarintLoop b' (t ||| shl64 (b' &&& 0x7F).toUInt64 bs) (bs + 7) rest'
  else some (t, rest)
termination_by rest.length

/-- gencoder.go:171-180, 206-215, 330-339. -/
def getVarint (buf : Bytes) : Option (UInt64 × Bytes) :=
  match buf with
  | [] => none
  | b :: rest => getVarintLoop b (b &&& 0x7F).toUInt64 7 rest

/-- gencoder.go:192 and 228-243:
`uint32(b0)<<0 | uint32(b1)<<8 | uint32(b2)<<16 | uint32(b3)<<24`. -/
def getU32 (buf : Bytes) : Option (UInt32 × Bytes) :=
  match buf with
  | b0 :: b1 :: b2 :: b3 :: rest =>
    some ((0 : UInt32) ||| (b0.toUInt32 <<< 0) ||| (b1.toUInt32 <<< 8) ||| (b2.toUInt32 <<< 16)
      ||| (b3.toUInt32 <<< 24), rest)
  | _ => none

/-- gencoder.go:322 and 396. -/
def getU64 (buf : Bytes) : Option (UInt64 × Bytes) :=
  match buf with
  | b0 :: b1 :: b2 :: b3 :: b4 :: b5 :: b6 :: b7 :: rest =>
    some ((0 : UInt64) ||| (b0.toUInt64 <<< 0) ||| (b1.toUInt64 <<< 8) ||| (b2.toUInt64 <<< 16)
      ||| (b3.toUInt64 <<< 24) ||| (b4.toUInt64 <<< 32) ||| (b5.toUInt64 <<< 40)
      ||| (b6.toUInt64 <<< 48) ||| (b7.toUInt64 <<< 56), rest)
  | _ => none

/-- gencoder.go:188-199: `l` little-endian words. -/
def getFeatures : Nat → Bytes → Option (List F32 × Bytes)
  | 0, buf => some ([], buf)
  | n + 1, buf => do
    let (v, buf) ← getU32 buf
    let (vs, buf) ← getFeatures n buf
    some (v :: vs, buf)

/-- Largest allocation the Go runtime accepts on 64-bit Linux (`runtime.maxAlloc`, 2^48);
`make` panics beyond it.  Running out of physical memory before that is not modelled. -/
def maxAlloc : Nat := 2 ^ 48

/-- `d.GroupLabel = d.GroupLabel[:l]` if the capacity suffices, else `make([]byte, l)`
(gencoder.go:218-222, 342-346).  `old` is the content of the destination up to its capacity. -/
def resize (old : Bytes) (l : Nat) : Option Bytes :=
  if l ≤ old.length then some (old.take l)
  else if l ≤ maxAlloc then some (List.replicate l 0) else none

/-- Go `copy(dst, src)`: overwrites the first min(len) elements of `dst`. -/
def copyInto (dst src : Bytes) : Bytes := src.take dst.length ++ dst.drop src.length

/-- gencoder.go:163-247 `UnmarshalKey` into a destination whose `GroupLabel` backing array holds
`old`.  The destination `Feature` slice is completely overwritten, so its old content is
irrelevant; its capacity is taken as 0 (a larger one only avoids the allocation). -/
def unmarshalKey (old : Bytes) (buf : Bytes) : Option (DatumKey × Nat) := do
  let (l, rest) ← getVarint buf
  if 4 * l.toNat > maxAlloc then none else
  let (feature, rest) ← getFeatures l.toNat rest
  let (l, rest) ← getVarint rest
  let base ← resize old l.toNat
  let groupLabel := copyInto base rest
  let rest := rest.drop l.toNat
  let (size1, rest) ← getU32 rest
  let (size2, rest) ← getU32 rest
  let (dim1, rest) ← getU32 rest
  let (dim2, rest) ← getU32 rest
  some ({ feature, groupLabel, size1, size2, dim1, dim2 }, buf.length - rest.length)

/-- gencoder.go:317-351 `UnmarshalValue` into a destination whose `Label` backing array holds
`old`.  The returned count is `i + 8` = 8 + varint length + l, even beyond the buffer. -/
def unmarshalValue (old : Bytes) (buf : Bytes) : Option (DatumValue × Nat) := do
  let (version, rest) ← getU64 buf
  let (l, rest) ← getVarint rest
  let base ← resize old l.toNat
  let label := copyInto base rest
  some ({ version, label }, buf.length - rest.length + l.toNat)

/-- gencoder.go:391-401 `DatumScore.Unmarshal`. -/
def unmarshalScore (buf : Bytes) : Option (F64 × Nat) := do
  let (v, _) ← getU64 buf
  some (v, 8)

end Gencoder

open Gencoder

/-- data/datum.go:10-33 `NewDatum` (note `Size2: size1`, line 25). -/
def newDatum (feature : List F32) (dim1 dim2 size1 _size2 : UInt32) (groupLabel label : Bytes)
    (version : UInt64) : Datum :=
  { key := some { feature := feature, dim1 := dim1, dim2 := dim2, size1 := size1, size2 := size1,
                  groupLabel := groupLabel }
    value := some { label := label, version := version } }

/-- data/datum.go:105-107 `GetKeyAsBytes`: nil key = nil dereference in `SizeKey`. -/
def getKeyAsBytes (d : Datum) : Option Bytes :=
  match d.key with
  | none => none
  | some k => marshalKey k

/-- data/datum.go:109-111 `GetValueAsBytes`. -/
def getValueAsBytes (d : Datum) : Option Bytes :=
  match d.value with
  | none => none
  | some v => marshalValue v

/-- data/datum.go:113-120 `ToDatumKey` (fresh destination). -/
def toDatumKey (b : Bytes) : Option DatumKey := (unmarshalKey [] b).map (·.1)

/-- data/datum.go:122-129 `ToDatumValue` (fresh destination). -/
def toDatumValue (b : Bytes) : Option DatumValue := (unmarshalValue [] b).map (·.1)

/-- data/datum.go:131-144 `ToDatum`. -/
def toDatum (key value : Bytes) : Option Datum := do
  let k ← toDatumKey key
  let v ← toDatumValue value
  some { key := some k, value := some v }

/-- util/util.go:9-14 `EncodeToString`: re-labels the bytes as a string (no copy, same bytes). -/
def encodeToString (b : Bytes) : Bytes := b

end Veri
