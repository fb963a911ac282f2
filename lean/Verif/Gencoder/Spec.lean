import Verif.Gencoder.Model
/-
Independent description of the wire format, used to state the gencoder properties: the encoding
is a plain concatenation of fields, without buffers and cursors.
-/
set_option autoImplicit false
namespace Veri.Gencoder

/-- Base-128 little-endian varint of a length. -/
def encVarint (t : Nat) : Bytes :=
  if t < 128 then [UInt8.ofNat t] else (UInt8.ofNat t ||| 0x80) :: encVarint (t / 128)
termination_by t
decreasing_by omega

/-- Concatenation of the little-endian words of a feature vector. -/
def encFeatures : List F32 → Bytes
  | [] => []
  | v :: vs => le32 v ++ encFeatures vs

/-- Wire format of a datum key. -/
def encKey (k : DatumKey) : Bytes :=
  encVarint k.feature.length ++ encFeatures k.feature ++ encVarint k.groupLabel.length
    ++ k.groupLabel ++ le32 k.size1 ++ le32 k.size2 ++ le32 k.dim1 ++ le32 k.dim2

/-- Wire format of a datum value. -/
def encValue (v : DatumValue) : Bytes :=
  le64 v.version ++ encVarint v.label.length ++ v.label

/-- The slices of this key can exist in a Go process: no slice exceeds the largest possible
allocation. -/
def DatumKey.Fits (k : DatumKey) : Prop :=
  4 * k.feature.length ≤ maxAlloc ∧ k.groupLabel.length ≤ maxAlloc

/-- The label can exist in a Go process. -/
def DatumValue.Fits (v : DatumValue) : Prop := v.label.length ≤ maxAlloc

end Veri.Gencoder
