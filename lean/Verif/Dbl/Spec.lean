import Verif.Num.Spec
import Mathlib.Data.Rat.Floor

/-!
# Decimal numbers as they are written

Independent of the code: what the text of a decimal number with fraction and exponent is, and what number it stands for.
-/

namespace Tm.Dbl
open Tm.Num

/-- A number as it is written: digits, possibly a dot and more digits, possibly an exponent, which is a letter, possibly a sign, and
digits. -/
structure Number where
  negative : Bool
  whole : List Nat
  fraction : Option (List Nat)
  exponent : Option (Byte × Option Byte × List Nat)

/-- The digits as text. -/
def digitsText (ds : List Nat) : List Byte := ds.map (digitChar false)

/-- The fraction as text. -/
def fractionText : Option (List Nat) → List Byte
  | none => []
  | some ds => 0x2E :: digitsText ds

/-- The exponent as text. -/
def exponentText : Option (Byte × Option Byte × List Nat) → List Byte
  | none => []
  | some (letter, sign, ds) => letter :: (sign.toList ++ digitsText ds)

/-- The number as text. -/
def Number.text (n : Number) : List Byte :=
  (if n.negative then [0x2D] else []) ++ digitsText n.whole ++ fractionText n.fraction ++ exponentText n.exponent

/-- The digits of the fraction. -/
def Number.fractionDigits (n : Number) : List Nat := n.fraction.getD []

/-- All digits in front of the exponent. -/
def Number.digits (n : Number) : List Nat := n.whole ++ n.fractionDigits

/-- Every part is well-formed; the number of digits in front of the exponent is not zero. -/
structure Number.Ok (n : Number) : Prop where
  digits : ∀ d ∈ n.digits, d < 10
  nonempty : n.digits ≠ []
  exponent : ∀ letter sign ds, n.exponent = some (letter, sign, ds) →
    (letter = 0x65 ∨ letter = 0x45) ∧ (sign = none ∨ sign = some 0x2B ∨ sign = some 0x2D) ∧ ds ≠ [] ∧ ∀ d ∈ ds, d < 10

/-- The exponent without its sign. -/
def Number.exponentSize (n : Number) : Nat :=
  match n.exponent with
  | none => 0
  | some (_, _, ds) => numVal 10 ds

/-- The exponent. -/
def Number.exponentValue (n : Number) : Int :=
  match n.exponent with
  | none => 0
  | some (_, sign, ds) => if sign = some 0x2D then -(numVal 10 ds : Int) else numVal 10 ds

/-- The number without its sign. -/
def Number.value (n : Number) : ℚ :=
  (numVal 10 n.whole + numVal 10 n.fractionDigits / 10 ^ n.fractionDigits.length) * 10 ^ n.exponentValue

/-- A number is the longest one that a text begins with. -/
def Longest (s : List Byte) (n : Number) : Prop :=
  n.Ok ∧ n.text <+: s ∧ ∀ n' : Number, n'.Ok → n'.text <+: s → n'.text.length ≤ n.text.length

/-- The text begins with a dot, possibly behind a minus sign, that has no digit behind it. -/
def LoneDot (s : List Byte) : Prop :=
  ∃ rest, (s = 0x2E :: rest ∨ s = 0x2D :: 0x2E :: rest) ∧ ∀ c, rest.head? = some c → ∀ d, ¬ IsDigit 10 c d

end Tm.Dbl
