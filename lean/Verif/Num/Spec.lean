import Verif.Basic
import Batteries.Data.List.Basic
/-!
# Specification of positional numerals

Independent of the code: what a digit character is, the value of a digit sequence, the canonical numeral of a number
and the longest numeral at the start of a text.
-/
namespace Tm.Num

/-- Character code of digit `d` (0..35) using capital letters. -/
def upperCode (d : Nat) : Nat := if d < 10 then 48 + d else 65 + (d - 10)
/-- Character code of digit `d` (0..35) using small letters. -/
def lowerCode (d : Nat) : Nat := if d < 10 then 48 + d else 97 + (d - 10)

/-- `c` is the digit `d` in base `base`, in either letter case. -/
def IsDigit (base : Nat) (c : Byte) (d : Nat) : Prop :=
  d < base ∧ (c.toNat = upperCode d ∨ c.toNat = lowerCode d)

/-- Value of a digit sequence, most significant digit first. -/
def numVal (base : Nat) (ds : List Nat) : Nat := ds.foldl (fun a d => a * base + d) 0

/-- The text `s` starts with the digits `ds` (in base `base`) and the next character, if any, is not a digit. -/
def StartsWithNumeral (base : Nat) (s : List Byte) (ds : List Nat) : Prop :=
  ∃ cs rest, s = cs ++ rest ∧ List.Forall₂ (IsDigit base) cs ds ∧ ∀ c, rest.head? = some c → ∀ d, ¬ IsDigit base c d

/-- `ds` is the canonical numeral of `n`: right value, proper digits, not empty, no leading zero (except "0"). -/
def Canonical (base n : Nat) (ds : List Nat) : Prop :=
  numVal base ds = n ∧ (∀ d ∈ ds, d < base) ∧ ds ≠ [] ∧ (ds.head? = some 0 → ds = [0])

/-- The canonical numeral of `n`, by repeated division (`1 < base`). -/
def numeral (base n : Nat) : List Nat :=
  if _h : base < 2 ∨ n < base then [n] else numeral base (n / base) ++ [n % base]
termination_by n
decreasing_by exact Nat.div_lt_self (by omega) (by omega)

/-- Character of a digit. -/
def digitChar (lower : Bool) (d : Nat) : Byte := BitVec.ofNat 8 (if lower then lowerCode d else upperCode d)

/-- The canonical text of the number `n`. -/
def text (base : Nat) (lower : Bool) (n : Nat) : List Byte := (numeral base n).map (digitChar lower)

/-- The buffer `buf` with the cells from index `p` on overwritten by `t`. -/
def splice {α : Type} (buf : List α) (p : Nat) (t : List α) : List α := buf.take p ++ t ++ buf.drop (p + t.length)

end Tm.Num
