import Verif.Go
/-
Floating point numbers as bit patterns, with the exact IEEE-754 comparisons of Go.
-/
set_option autoImplicit false
namespace Veri

/-- A Go `float64`, as its bit pattern. -/
abbrev F64 := UInt64

/-- A Go `float32`, as its bit pattern. -/
abbrev F32 := UInt32

namespace F64

/-- Magnitude bits (sign removed). -/
def mag (x : F64) : Nat := x.toNat % 2^63

/-- Sign bit set? -/
def neg (x : F64) : Bool := decide (2^63 ≤ x.toNat)

/-- NaN: exponent all ones and nonzero mantissa. -/
def isNaN (x : F64) : Bool := decide (0x7FF0000000000000 < mag x)

/-- Position on the ordered line of non-NaN values: both zeros are 0. -/
def key (x : F64) : Int := if neg x then -(mag x : Int) else (mag x : Int)

/-- Go's `a < b` on float64: false if either is NaN, otherwise by value. -/
def lt (a b : F64) : Bool := !isNaN a && !isNaN b && decide (key a < key b)

/-- 1.0 -/
def one : F64 := 0x3FF0000000000000
/-- -1.0 -/
def negOne : F64 := 0xBFF0000000000000

theorem lt_iff (a b : F64) : lt a b = true ↔ isNaN a = false ∧ isNaN b = false ∧ key a < key b := by
  simp [lt, and_assoc]

theorem lt_irrefl (a : F64) : lt a a = false := by simp [lt]

theorem lt_trans {a b c : F64} (h1 : lt a b = true) (h2 : lt b c = true) : lt a c = true := by
  rw [lt_iff] at *
  exact ⟨h1.1, h2.2.1, by omega⟩

theorem lt_asymm {a b : F64} (h : lt a b = true) : lt b a = false := by
  cases hb : lt b a with
  | false => rfl
  | true => have := lt_trans h hb; rw [lt_irrefl] at this; cases this

/-- Off NaN, `<` is a strict weak order. -/
theorem not_lt_iff {a b : F64} (ha : isNaN a = false) (hb : isNaN b = false) :
    lt a b = false ↔ key b ≤ key a := by
  simp [lt, ha, hb]

end F64

namespace F32

/-- Magnitude bits (sign removed). -/
def mag (x : F32) : Nat := x.toNat % 2^31

/-- NaN: exponent all ones and nonzero mantissa. -/
def isNaN (x : F32) : Bool := decide (0x7F800000 < mag x)

/-- Neither NaN nor infinite. -/
def isFinite (x : F32) : Bool := decide (mag x < 0x7F800000)

/-- Go's `x == 0`: either zero. -/
def isZero (x : F32) : Bool := decide (mag x = 0)

end F32
end Veri
