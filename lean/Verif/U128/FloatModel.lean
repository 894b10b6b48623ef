import Verif.U128.Model
/-!
# Model of the floating point conversions of tm_uint128.h

A float/double is its bit pattern (`BitVec 32` / `BitVec 64`); the code copies between the two with memcpy. The portable
backend is modelled (tm_uint128.h:1479-1646; with `TMI_BACKEND_GCC_UINT128` only `tmi_to_float`/`tmi_to_double`, which are
casts there, differ).
-/
namespace Tm.U128

/-- `int rounding_mode`: `TM_FE_TONEAREST`, `TM_FE_UPWARD` or anything else (toward zero and downward). -/
inductive RoundMode where
  | nearest
  | upward
  | truncate
deriving DecidableEq, Repr

/-- The value of `round_up`, tm_uint128.h:1496-1523. -/
def floatRoundUp (normalized : U128) (mantissa : BitVec 32) : RoundMode → Bool
  | .nearest =>
    if mantissa &&& 0x80 ≠ 0 then
      decide (normalized.low ≠ 0) || decide (normalized.high &&& 0x17FFFFFFFFF ≠ 0)
    else false
  | .upward => decide (normalized.low ≠ 0) || decide (normalized.high &&& 0x1FFFFFFFFFF ≠ 0)
  | .truncate => false

/-- tm_uint128.h:1487-1534 `tmi_to_float_rm`. -/
def toFloatRm (v : U128) (mode : RoundMode) : C (BitVec 32) :=
  if isZero v then .ok 0
  else do
    let shiftAmount ← fls v
    let normalized ← shlU64 v (127 - BitVec.ofNat 64 shiftAmount)
    let exponent : BitVec 32 := 127 + BitVec.ofNat 32 shiftAmount
    if exponent ≥ 256 then .ok 0x7F7FFFFF
    else
      let mantissa : BitVec 32 := (normalized.high >>> 32).setWidth 32
      let roundUp : BitVec 32 := if floatRoundUp normalized mantissa mode then 1 else 0
      .ok ((exponent <<< 23) ||| (((mantissa >>> 8) + roundUp) &&& 0x7FFFFF))

/-- The value of `round_up`, tm_uint128.h:1551-1577. -/
def doubleRoundUp (normalized : U128) (mantissa : BitVec 64) : RoundMode → Bool
  | .nearest =>
    if mantissa &&& 0x400 ≠ 0 then
      decide (normalized.low ≠ 0) || decide (mantissa &&& 0xBFF ≠ 0)
    else false
  | .upward => decide (normalized.low ≠ 0) || decide (mantissa &&& 0x7FF ≠ 0)
  | .truncate => false

/-- tm_uint128.h:1542-1588 `tmi_to_double_rm`. -/
def toDoubleRm (v : U128) (mode : RoundMode) : C (BitVec 64) :=
  if isZero v then .ok 0
  else do
    let shiftAmount ← fls v
    let normalized ← shlU64 v (127 - BitVec.ofNat 64 shiftAmount)
    let exponent : BitVec 64 := 1023 + BitVec.ofNat 64 shiftAmount
    if exponent ≥ 2048 then .ok 0x7FEFFFFFFFFFFFFF
    else
      let mantissa : BitVec 64 := normalized.high
      let roundUp : BitVec 64 := if doubleRoundUp normalized mantissa mode then 1 else 0
      .ok ((exponent <<< 52) ||| (((mantissa >>> 11) + roundUp) &&& 0xFFFFFFFFFFFFF))

/-- tm_uint128.h:1590-1608 `tmi_from_float`. -/
def fromFloat (bits : BitVec 32) : C U128 := do
  let sign := bits >>> 31
  let exponent : Int := (((bits >>> 23) &&& 0x7FF).toNat : Int) - 127 - 23
  if exponent < -23 then .ok zero
  else
    let result ← setBit (makeLow ((bits &&& 0x7FFFFF).setWidth 64)) 23
    let result ← if exponent < 0 then shrU64 result (BitVec.ofInt 64 (-exponent)) else shlU64 result (BitVec.ofInt 64 exponent)
    .ok (if sign ≠ 0 then sub max result else result)

/-- tm_uint128.h:1609-1627 `tmi_from_double`. -/
def fromDouble (bits : BitVec 64) : C U128 := do
  let sign := bits >>> 63
  let exponent : Int := (((bits >>> 52) &&& 0x7FF).toNat : Int) - 1023 - 52
  if exponent < -52 then .ok zero
  else
    let result ← setBit (makeLow (bits &&& 0xFFFFFFFFFFFFF)) 52
    let result ← if exponent < 0 then shrU64 result (BitVec.ofInt 64 (-exponent)) else shlU64 result (BitVec.ofInt 64 exponent)
    .ok (if sign ≠ 0 then sub max result else result)

/-- tm_uint128.h:1629-1636 `tmi_from_float_s`; the result is the stored value, `none` for `TM_FALSE`. `TM_ISFINITE` is the
library's `isfinite`: the exponent field is not all ones. -/
def fromFloatS (bits : BitVec 32) : C (Option U128) :=
  if bits.toNat / 2 ^ 23 % 2 ^ 8 ≠ 255 then do return some (← fromFloat bits) else .ok none

/-- tm_uint128.h:1637-1644 `tmi_from_double_s`. -/
def fromDoubleS (bits : BitVec 64) : C (Option U128) :=
  if bits.toNat / 2 ^ 52 % 2 ^ 11 ≠ 2047 then do return some (← fromDouble bits) else .ok none

end Tm.U128
