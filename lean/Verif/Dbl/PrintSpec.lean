import Verif.Dbl.Spec
import Verif.Conv.Spec

/-!
# What printing a floating point number means

Independent of the code. Flags are the bits of `tmc_print_flags` (tm_conversion.h): shortest 3, trailing zeroes 4, lowercase 6, signbit 7.
-/

namespace Tm.Dbl
open Tm.Num Tm.Conv

/-- The result of printing a text into the `maxlen` chars from `dest` on: all of it, or an error if there is no room. Other chars keep
their values. -/
def Printed (buf : List Byte) (dest maxlen : Nat) (t : List Byte) (r : C (ConvResult × List Byte)) : Prop :=
  if t.length ≤ maxlen then r = .ok (⟨t.length, .ok⟩, splice buf dest t)
  else ∃ b, r = .ok (⟨maxlen, .eoverflow⟩, b) ∧ SameOutside buf b dest maxlen

/-- Whether the caller leaves the number of decimals open. -/
def short (flags : BitVec 32) (precision : Int) : Bool := decide (precision < 0) || flags.getLsbD 3

/-- The number of decimals: at most 14, and 14 if the caller leaves it open. -/
def decimals (flags : BitVec 32) (precision : Int) : Nat := if short flags precision then 14 else min precision.toNat 14

/-- Whether a number has a sign: negative numbers have one, a negative zero only if the caller asks for it. -/
def hasMinus (flags : BitVec 32) (negative : Bool) (q : ℚ) : Bool := negative && (decide (q ≠ 0) || flags.getLsbD 7)

/-- The fraction of a whole number. -/
def zeroFraction (flags : BitVec 32) (precision : Int) : List Byte :=
  if short flags precision then (if flags.getLsbD 4 then [0x2E, 0x30] else [])
  else if decimals flags precision = 0 then [] else 0x2E :: List.replicate (decimals flags precision) 0x30

/-- What the fraction looks like. If the caller leaves the number of decimals open, there are at most 14, without trailing zeroes, and for
none of them there is no dot, or ".0" if the caller asks for it. Otherwise there are as many as asked for. -/
def FractionShape (flags : BitVec 32) (precision : Int) (fraction : Option (List Nat)) : Prop :=
  if short flags precision then
    fraction = (if flags.getLsbD 4 then some [0] else none) ∨
      ∃ ds, fraction = some ds ∧ ds ≠ [] ∧ ds.length ≤ 14 ∧ ds.getLast? ≠ some 0
  else if decimals flags precision = 0 then fraction = none
  else ∃ ds, fraction = some ds ∧ ds.length = decimals flags precision

/-- The number is far enough from the next whole number: by 1.03 units of the last decimal, or, if all its digits are below 2^46, by 0.52
units. -/
def Clear (p : Nat) (q : ℚ) : Prop :=
  103 / 100 / 10 ^ p ≤ ⌊q⌋ + 1 - q ∨ ((q + 1) * 10 ^ p ≤ 2 ^ 46 ∧ 52 / 100 / 10 ^ p ≤ ⌊q⌋ + 1 - q)

end Tm.Dbl
