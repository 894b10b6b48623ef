import Verif.Conv.Spec
import Verif.U128.Spec
/-!
# Model of the text conversions of tm_uint128.h

Conventions as in Verif/Conv/Model.lean; the digit loops and tables are the ones defined there (same source text).
-/
namespace Tm.U128
open Tm.Conv

/-- Body of the scan loop after the digit is known, tm_uint128.h:1679-1686 (same text at 1739-1746). -/
def scanStep (ubase : BitVec 64) (maxValue : U128) (maxDigit : BitVec 64) (d : Nat) (s : U128 × Bool) :
    Option (U128 × Bool) :=
  let digit := BitVec.ofNat 64 d
  if ubase ≤ digit then none
  else if s.2 || gt s.1 maxValue || (eq s.1 maxValue && decide (maxDigit < digit)) then some (s.1, true)
  else some (addU64 (mulU64 s.1 ubase) digit, s.2)

/-- Tail of the scanners, tm_uint128.h:1688-1707, 1748-1766 (`TMC_CLAMP_ON_RANGE_ERROR` not set). -/
def finishScan (out : Option U128) (dist : Nat) (value : U128) (rangeError : Bool) : ConvResult × Option U128 :=
  if dist = 0 then (⟨0, .einval⟩, out)
  else (⟨dist, if rangeError then .erange else .ok⟩, if rangeError then out else out.map fun _ => value)

/-- tm_uint128.h:1648-1708 `tmi_scan_u128`. -/
def scanU128 (str : Option (List Byte)) (out : Option U128) (base : Int) : C (ConvResult × Option U128) := do
  assert (baseOk base)
  match str with
  | none => .ok (⟨0, .einval⟩, out)
  | some mem =>
    let ubase := BitVec.ofInt 64 base
    let dm ← divmodU64 max ubase
    let r ← digitLoopZ (scanStep ubase dm.1 dm.2.low) mem 0 (zero, false)
    .ok (finishScan out r.1 r.2.1 r.2.2)

/-- tm_uint128.h:1709-1767 `tmi_scan_u128_n`. -/
def scanU128N (str : Option (List Byte)) (len : Nat) (out : Option U128) (base : Int) : C (ConvResult × Option U128) := do
  assert (baseOk base)
  if len = 0 then .ok (⟨0, .einval⟩, out)
  else
    let ubase := BitVec.ofInt 64 base
    let dm ← divmodU64 max ubase
    let r ← digitLoopN (scanStep ubase dm.1 dm.2.low) (str.getD []) len 0 (zero, false)
    .ok (finishScan out r.1 r.2.1 r.2.2)

/-- The loop of `tmi_get_digits_count_u128`, tm_uint128.h:1784-1791. -/
def digitsCountLoop (p1 p2 p3 p4 : BitVec 64) : Nat → U128 → Nat → C Nat
  | 0, _, _ => .error .diverge
  | fuel + 1, number, result =>
    if number.high = 0 ∧ number.low < p4 then
      .ok (result + (decide (number.low ≥ p1)).toNat + (decide (number.low ≥ p2)).toNat + (decide (number.low ≥ p3)).toNat)
    else do
      let dm ← divmodU64 number p4
      digitsCountLoop p1 p2 p3 p4 fuel dm.1 (result + 4)

/-- tm_uint128.h:1773-1792 `tmi_get_digits_count_u128`. -/
def digitsCount (number : U128) (base : Int) : C Nat := do
  assert (baseOk base)
  let p1 := BitVec.ofInt 64 base
  let p2 := p1 * p1
  let p3 := p2 * p1
  let p4 := p3 * p1
  digitsCountLoop p1 p2 p3 p4 129 number 1

/-- The do-while loop of `tmi_print_u128_w`, tm_uint128.h:1834-1841: returns the remaining value, width and the buffer.
`checked` tells whether assertions are compiled in. -/
def printLoop (checked : Bool) (tab : List Byte) (ubase : BitVec 64) : Nat → U128 → Int → Nat → List Byte →
    C (U128 × Nat × List Byte)
  | 0, _, _, _, _ => .error .diverge
  | fuel + 1, value, p, width, buf => do
    let dm ← divmodU64 value ubase
    assert (!checked || decide (dm.2.low.toNat < tableLower.length))
    let c ← rd tab dm.2.low.toNat
    let buf ← wrI buf p c
    if isNotZero dm.1 ∧ width - 1 > 0 then printLoop checked tab ubase fuel dm.1 (p - 1) (width - 1) buf
    else .ok (dm.1, width - 1, buf)

/-- tm_uint128.h:1814-1849, the part of `tmi_print_u128_w` after its assertions. -/
def printU128Body (checked : Bool) (buf : List Byte) (dest maxlen width : Nat) (value : U128) (base : Int)
    (lowercase : Bool) : C (ConvResult × List Byte) := do
  if width > maxlen ∨ width = 0 ∨ (isZero value ∧ width ≠ 1) then .ok (⟨maxlen, .eoverflow⟩, buf)
  else if isZero value then do
    let buf ← wrI buf ((dest : Int) + width - 1) 48
    .ok (⟨width, .ok⟩, buf)
  else do
    let r ← printLoop checked (table lowercase) (BitVec.ofInt 64 base) 129 value ((dest : Int) + width - 1) width buf
    if isNotZero r.1 ∧ r.2.1 = 0 then .ok (⟨maxlen, .eoverflow⟩, r.2.2)
    else .ok (⟨width, .ok⟩, r.2.2)

/-- tm_uint128.h:1805-1849 `tmi_print_u128_w`. -/
def printU128W (buf : List Byte) (dest maxlen width : Nat) (value : U128) (base : Int) (lowercase : Bool) :
    C (ConvResult × List Byte) := do
  assert (baseOk base)
  assert (decide (width > 0))
  let count ← digitsCount value base
  assert (decide (width = count))
  printU128Body true buf dest maxlen width value base lowercase

/-- tm_uint128.h:1769-1772 `tmi_print_u128`. -/
def printU128 (buf : List Byte) (dest maxlen : Nat) (value : U128) (base : Int) (lowercase : Bool) :
    C (ConvResult × List Byte) := do
  let count ← digitsCount value base
  printU128W buf dest maxlen count value base lowercase

/-- tm_uint128.h:1851-1855 `tmi_from_string`. -/
def fromString (str : Option (List Byte)) (base : Int) : C U128 := do
  let r ← scanU128 str (some zero) base
  .ok (r.2.getD zero)

/-- tm_uint128.h:1856-1860 `tmi_from_string_n`. -/
def fromStringN (str : Option (List Byte)) (len : Nat) (base : Int) : C U128 := do
  let r ← scanU128N str len (some zero) base
  .ok (r.2.getD zero)

end Tm.U128
