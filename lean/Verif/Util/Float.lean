import Verif.Dbl.FloatModel

/-!
# Model of the functions of `float`: `tm_utility.h`

`float` is IEEE 754 binary32 with rounding to nearest even. Results of operators are rounded to `float` at once (`FLT_EVAL_METHOD` is 0) and not contracted.
-/

namespace Tm.Util

open Dbl (F rnd32)

/-! ## Operators (IEEE 754, not code of the library) -/

/-- The number with this sign and magnitude. -/
def signed (neg : Bool) (q : ℚ) : ℚ := if neg then -q else q

/-- A result that is not zero, rounded; zero gets the sign `neg`. -/
def rounded (neg : Bool) (x : ℚ) : Dbl.Float := if x = 0 then (neg, .fin 0) else (decide (x < 0), rnd32 |x|)

/-- `-a`. -/
def fneg (a : Dbl.Float) : Dbl.Float := (!a.1, a.2)

/-- `fabsf(a)`. -/
def fabs (a : Dbl.Float) : Dbl.Float := (false, a.2)

/-- `a + b`. -/
def fadd (a b : Dbl.Float) : Dbl.Float :=
  match a.2, b.2 with
  | .fin p, .fin q => rounded (a.1 && b.1) (signed a.1 p + signed b.1 q)
  | .inf, .inf => if a.1 = b.1 then a else (false, .nan)
  | .inf, .fin _ => a
  | .fin _, .inf => b
  | _, _ => (false, .nan)

/-- `a - b`. -/
def fsub (a b : Dbl.Float) : Dbl.Float := fadd a (fneg b)

/-- `a * b`. -/
def fmul (a b : Dbl.Float) : Dbl.Float :=
  (a.1 != b.1, match a.2, b.2 with
    | .fin p, .fin q => rnd32 (p * q)
    | .inf, .inf => .inf
    | .inf, .fin q => if q = 0 then .nan else .inf
    | .fin p, .inf => if p = 0 then .nan else .inf
    | _, _ => .nan)

/-- `a / b`. -/
def fdiv (a b : Dbl.Float) : Dbl.Float :=
  (a.1 != b.1, match a.2, b.2 with
    | .fin p, .fin q => if q = 0 then (if p = 0 then .nan else .inf) else rnd32 (p / q)
    | .inf, .fin _ => .inf
    | .fin _, .inf => .fin 0
    | _, _ => .nan)

/-- `a < b`. -/
def flt (a b : Dbl.Float) : Bool :=
  match a.2, b.2 with
  | .fin p, .fin q => signed a.1 p < signed b.1 q
  | .inf, .inf => a.1 && !b.1
  | .inf, .fin _ => a.1
  | .fin _, .inf => !b.1
  | _, _ => false

/-- `a == b`. -/
def feq (a b : Dbl.Float) : Bool :=
  match a.2, b.2 with
  | .fin p, .fin q => signed a.1 p = signed b.1 q
  | .inf, .inf => a.1 = b.1
  | _, _ => false

/-- `a <= b`. -/
def fle (a b : Dbl.Float) : Bool := flt a b || feq a b

/-! ## Functions -/

/-- `Float::AbsTolerance` and `Float::RelTolerance`, lines 458-459: 0.000001f. -/
def tolerance : Dbl.Float := (false, rnd32 (1 / 1000000))

/-- `max`, lines 180-182. -/
def fmax (a b : Dbl.Float) : Dbl.Float := if flt a b then b else a

/-- `floatToleranceComparison`, lines 703-710. -/
def floatToleranceComparison (a b : Dbl.Float) : Bool :=
  if feq a b then true
  else fle (fabs (fsub a b)) tolerance || fle (fabs (fsub a b)) (fmul tolerance (fmax (fabs a) (fabs b)))

/-- `lerp`, lines 406-408, for `float`. -/
def lerp (t a b : Dbl.Float) : Dbl.Float := fadd a (fmul t (fsub b a))

/-- `remap`, lines 414-416, for `float`. -/
def remap (t tMin tMax a b : Dbl.Float) : Dbl.Float := fadd a (fmul (fdiv (fsub t tMin) (fsub tMax tMin)) (fsub b a))

/-- `safeDivide`, line 654. -/
def safeDivide (a b dflt : Dbl.Float) : Dbl.Float := if feq b (false, .fin 0) then dflt else fdiv a b

/-- `clamp`, lines 650-652, the overload for `float`. -/
def fclamp (val lower upper : Dbl.Float) : Dbl.Float := if flt val lower then lower else if flt upper val then upper else val

/-- `Float::Epsilon`, line 455: 0.000001f. -/
def epsilon : Dbl.Float := (false, rnd32 (1 / 1000000))

/-- `Float::BigEpsilon`, line 456: 0.001f. -/
def bigEpsilon : Dbl.Float := (false, rnd32 (1 / 1000))

/-- `floatZeroClamp`, line 462. -/
def floatZeroClamp (x : Dbl.Float) : Dbl.Float := if flt (fabs x) epsilon then (false, .fin 0) else x

/-- `floatEqZero`, line 464. -/
def floatEqZero (x : Dbl.Float) : Bool := flt (fabs x) epsilon

/-- `floatEqZeroSoft`, lines 465 and 468. -/
def floatEqZeroSoft (x : Dbl.Float) : Bool := flt (fabs x) bigEpsilon

/-- `floatGtZeroSoft`, line 466. -/
def floatGtZeroSoft (x : Dbl.Float) : Bool := flt bigEpsilon x

/-- `floatLtZeroSoft`, line 467. -/
def floatLtZeroSoft (x : Dbl.Float) : Bool := flt x bigEpsilon

/-- `floatEq`, line 471. -/
def floatEq (a b : Dbl.Float) : Bool := floatEqZero (fsub a b)

/-- `floatEqSoft`, line 472. -/
def floatEqSoft (a b : Dbl.Float) : Bool := floatEqZeroSoft (fsub a b)

end Tm.Util
