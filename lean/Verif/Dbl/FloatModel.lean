import Verif.Dbl.PrintModel

/-!
# Model of tm_conversion.h (`float`)

A `float` is its sign and its magnitude, which is a number that a `float` can have. Every `float` is a `double`. The conversion of a `double` to a `float`
is that of IEEE 754: rounding to nearest, ties to even, and infinity for numbers that are too great.
-/

namespace Tm.Dbl
open Tm.Conv

/-- A `float` with its sign. -/
abbrev Float := Bool × F

/-- The place value of the last binary digit of a `float` next to a number. (IEEE 754 binary32, not code of the library.) -/
def place32 (q : ℚ) : ℤ := max (expo q - 23) (-149)

/-- Rounding to a `float`. (IEEE 754 binary32, not code of the library.) -/
def rnd32 (q : ℚ) : F :=
  if q ≤ 0 then .fin 0
  else
    let r := (halfEven (q / 2 ^ place32 q) : ℚ) * 2 ^ place32 q
    if r < 2 ^ 128 then .fin r else .inf

/-- `(float)val`. (IEEE 754 binary32, not code of the library.) -/
def narrow : F → F
  | .fin q => rnd32 q
  | .inf => .inf
  | .nan => .nan

/-- The part that `scan_float` and `scan_float_n` share, lines 1375-1384 and 1389-1398. `val` is what is in the variable `val`. `TMC_CLAMP_ON_RANGE_ERROR`
is 0 (the default). -/
def scanFloatEnd (r : ConvResult × Option Double) (out : Option Float) : ConvResult × Option Float :=
  match r.2, out with
  | some val, some _ => if r.1.size ≠ 0 ∧ r.1.ec = .ok then (r.1, some (val.1, narrow val.2)) else (r.1, out)
  | _, _ => (r.1, out)

/-- `scan_float`, lines 1372-1385. `val` is what is in the uninitialised variable; `out` is the pointed-to output, `none` for a null pointer. -/
def scanFloat (val : Double) (str : Option (List Byte)) (out : Option Float) : C (ConvResult × Option Float) := do
  let r ← scanDouble str (some val)
  .ok (scanFloatEnd r out)

/-- `scan_float_n`, lines 1386-1399. -/
def scanFloatN (val : Double) (str : Option (List Byte)) (len : Nat) (out : Option Float) : C (ConvResult × Option Float) := do
  let r ← scanDoubleN str len (some val)
  .ok (scanFloatEnd r out)

/-- `print_float`, lines 2728-2730: every `float` is a `double`. -/
def printFloat (buf : List Byte) (dest maxlen : Nat) (value : Float) (flags : BitVec 32) (precision : Int) : C (ConvResult × List Byte) :=
  printDouble buf dest maxlen value flags precision

end Tm.Dbl
