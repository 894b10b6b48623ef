import Verif.U128.Spec
import Mathlib.Data.Rat.Floor
/-!
# Specification of IEEE 754 binary formats and of rounding a natural number
-/
namespace Tm.U128

/-- The number a bit pattern of an IEEE 754 binary format represents: `p` fraction bits, `w` exponent bits (finite patterns). -/
def ieee (p w bits : Nat) : ℚ :=
  let fraction := bits % 2 ^ p
  let exponent := bits / 2 ^ p % 2 ^ w
  let bias : ℤ := 2 ^ (w - 1) - 1
  (if bits / 2 ^ (p + w) = 0 then 1 else -1) *
    if exponent = 0 then (fraction : ℚ) * 2 ^ (1 - bias - p) else ((2 ^ p + fraction : ℕ) : ℚ) * 2 ^ ((exponent : ℤ) - bias - p)

/-- The number a `float` represents. -/
def floatValue (bits : BitVec 32) : ℚ := ieee 23 8 bits.toNat
/-- The number a `double` represents. -/
def doubleValue (bits : BitVec 64) : ℚ := ieee 52 11 bits.toNat
/-- The `float` is neither an infinity nor a NaN. -/
def FloatFinite (bits : BitVec 32) : Prop := bits.toNat / 2 ^ 23 % 2 ^ 8 ≠ 255
/-- The `double` is neither an infinity nor a NaN. -/
def DoubleFinite (bits : BitVec 64) : Prop := bits.toNat / 2 ^ 52 % 2 ^ 11 ≠ 2047

/-- `n` has at most `P` significant binary digits (24 for `float`, 53 for `double`; natural numbers below 2^129 with that
property are exactly the natural numbers in the range of interest which the format can represent). -/
def Repr (P n : Nat) : Prop := ∃ m k, m < 2 ^ P ∧ n = m * 2 ^ k

/-- `r` is `v` rounded down (toward zero). -/
def IsRoundDown (P v r : Nat) : Prop := Repr P r ∧ r ≤ v ∧ ∀ r', Repr P r' → r' ≤ v → r' ≤ r
/-- `r` is `v` rounded up. -/
def IsRoundUp (P v r : Nat) : Prop := Repr P r ∧ v ≤ r ∧ ∀ r', Repr P r' → v ≤ r' → r ≤ r'
/-- Distance of two natural numbers. -/
def dist (a b : Nat) : Nat := (a - b) + (b - a)
/-- `r` is `v` rounded to nearest, ties to the number with even last significant digit. -/
def IsNearestEven (P v r : Nat) : Prop :=
  Repr P r ∧ (∀ r', Repr P r' → dist v r ≤ dist v r') ∧
  ∀ r', Repr P r' → r' ≠ r → dist v r' = dist v r → ∃ m k, r = m * 2 ^ k ∧ m % 2 = 0 ∧ 2 ^ (P - 1) ≤ m ∧ m < 2 ^ P

end Tm.U128
