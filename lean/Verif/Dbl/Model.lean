import Verif.Conv.Model
import Verif.Dbl.Ieee

/-!
# Model of tm_conversion.h (scanning of `double`)

A `double` that is written to an output is its sign and its magnitude. A pointer to text is the list of the chars of the object from
the pointed-to element on. `int` and `tm_size_t` variables that count chars are unbounded: the text is assumed to have less than 2^31
chars. `flags` is not used by the code. `TMC_CLAMP_ON_RANGE_ERROR` is 0 (the default).
-/

namespace Tm.Dbl
open Tm.Conv

/-- A `double` with its sign. -/
abbrev Double := Bool × F

/-- The loop over integer and fractional part, lines 1521-1529. `n` is `mantissaLength`; `dot` is `integerLength` once a dot was seen
(`decimalPos` is one more). -/
def mantissaZ : List Byte → Nat → Option Nat → C (Nat × Option Nat)
  | [], _, _ => .error .oob
  | c :: cs, n, dot =>
    if c = 46 ∧ dot = none then mantissaZ cs (n + 1) (some n)
    else if isdigit c then mantissaZ cs (n + 1) dot
    else .ok (n, dot)

/-- The same loop over a pointer/length pair, lines 1647-1655. -/
def mantissaN : List Byte → Nat → Nat → Option Nat → C (Nat × Option Nat)
  | _, 0, n, dot => .ok (n, dot)
  | [], _ + 1, _, _ => .error .oob
  | c :: cs, len + 1, n, dot =>
    if c = 46 ∧ dot = none then mantissaN cs len (n + 1) (some n)
    else if isdigit c then mantissaN cs len (n + 1) dot
    else .ok (n, dot)

/-- `integerLength` and `fractionalLength`, lines 1530-1539 (same text at 1656-1665); none: there is nothing to scan. -/
def lengths (n : Nat) (dot : Option Nat) : Option (Nat × Nat) :=
  match dot with
  | none => if n = 0 then none else some (n, 0)
  | some i => some (i, n - (i + 1))

/-- The outcome of scanning an exponent: the function returns, or it goes on with an exponent. `size` is the number of chars from the
begin of the exponent on. -/
inductive Expo
  | stop (size : Nat) (ec : Errc)
  | go (size : Nat) (negative : Bool) (e : Int)
  deriving DecidableEq, Repr

/-- What follows the call of `scan_i32`, lines 1555-1568 (same text at 1684-1697). `k` is the number of chars in front of the digits. -/
def exponentResult (k : Nat) (negative : Bool) (r : ConvResult × Option (BitVec 32)) : Expo :=
  if r.1.ec ≠ .ok then .stop (k + r.1.size) r.1.ec
  else if 511 < (r.2.getD 0).toInt then .stop (k + r.1.size) .eoverflow
  else .go (k + r.1.size) negative (r.2.getD 0).toInt

/-- Scanning of an exponent, lines 1542-1572. -/
def exponentZ (mem : List Byte) : C Expo := do
  let c ← rd mem 0
  if c = 101 ∨ c = 69 then
    let s ← rd mem 1
    let k := if s = 45 ∨ s = 43 then 2 else 1
    let d ← rd mem k
    if isdigit d then
      let r ← scanI 32 .strict (some (mem.drop k)) (some 0) 10
      .ok (exponentResult k (decide (s = 45)) r)
    else .ok (.go 0 (decide (s = 45)) 0)
  else .ok (.go 0 false 0)

/-- The char at an index of a pointer/length pair, if it is there: `len && *p`. -/
def peek (mem : List Byte) (len i : Nat) : C (Option Byte) := if i < len then (rd mem i).map some else .ok none

/-- Scanning of an exponent in a pointer/length pair, lines 1668-1701. -/
def exponentN (mem : List Byte) (len : Nat) : C Expo := do
  let c ← peek mem len 0
  if c = some 101 ∨ c = some 69 then
    let s ← peek mem len 1
    let k := if s = some 45 ∨ s = some 43 then 2 else 1
    let d ← peek mem len k
    if d.any isdigit then
      let r ← scanIN 32 .strict (some (mem.drop k)) (len - k) (some 0) 10
      .ok (exponentResult k (decide (s = some 45)) r)
    else .ok (.go 0 (decide (s = some 45)) 0)
  else .ok (.go 0 false 0)

/-- Moving the decimal point, lines 1574-1596 (same text at 1703-1725): integer digits, fraction digits, exponent. -/
def adjust (i f : Int) (negative : Bool) (e : Int) : Int × Int × Int :=
  if negative then
    if e < i then (i - e, f + e, -0) else (0, f + i, -(e - i))
  else
    if e < f then (i + e, f - e, 0) else (i + f, 0, e - f)

/-- `scan_LeadingZeroes`, lines 1415-1422. -/
def leadingZeroes : List Byte → Nat → C Nat
  | _, 0 => .ok 0
  | [], _ + 1 => .error .oob
  | c :: cs, n + 1 => if c = 48 ∨ c = 46 then do let k ← leadingZeroes cs n; .ok (k + 1) else .ok 0

/-- One of the two loops of `scan_ScanMantissa`, lines 1441-1452 and 1454-1465, that reads `n` digits into an `int32_t`: how many chars
were read and the number. -/
def digits : List Byte → Nat → Nat → Int → C (Nat × Int)
  | _, 0, read, x => .ok (read, x)
  | mem, n + 1, read, x => do
    let c ← rd mem 0
    let skip := if c = 46 then 1 else 0
    let c ← rd mem skip
    let x := x * 10 + ((c.toNat : Int) - 48)
    if x < -2 ^ 31 ∨ 2 ^ 31 ≤ x then .error .overflow
    else digits (mem.drop (skip + 1)) n (read + skip + 1) x

/-- `scan_ScanMantissa`, lines 1423-1468. -/
def scanMantissa (mem : List Byte) (len : Nat) : C (Nat × F) := do
  let len := min len 18
  let high ← digits mem (len - 9) 0 0
  let low ← digits (mem.drop high.1) (min len 9) 0 0
  .ok (high.1 + low.1, ((F.fin 1000000000).mul (.fin high.2)).add (.fin low.2))

/-- `PowersOfTen`, lines 1473-1475: the literals are rounded by the compiler. -/
def powersOfTen : List F :=
  [rnd 10, rnd 100, rnd (10 ^ 4), rnd (10 ^ 8), rnd (10 ^ 16), rnd (10 ^ 32), rnd (10 ^ 64), rnd (10 ^ 128), rnd (10 ^ 256)]

/-- The loop of `str_Pow10`, lines 1482-1488. (The pointer may go on behind the table without a read while bits of `uexp` are zero, but
the last bit is one and leads to a read.) -/
def tenTo : List F → Nat → F → C F
  | _, 0, t => .ok t
  | [], _ + 1, _ => .error .oob
  | f :: fs, n + 1, t => tenTo fs ((n + 1) / 2) (if (n + 1) % 2 = 1 then t.mul f else t)

/-- `str_Pow10`, lines 1469-1495. -/
def pow10 (value : F) (e : Int) : C F := do
  assert (decide (e < 511))
  let t ← tenTo powersOfTen e.natAbs (.fin 1)
  .ok (if e < 0 then value.div t else value.mul t)

/-- The magnitude of the number, lines 1599-1612 (same text at 1728-1741). `mem` is the text from the first char behind the sign on. -/
def magnitude (mem : List Byte) (i f : Nat) (e : Int) : C F := do
  let z ← leadingZeroes mem i
  let r ← if z < i then do
      let r ← scanMantissa (mem.drop z) (i - z)
      pure (z + r.1, r.2)
    else pure (i, F.fin 0)
  let fr ← scanMantissa (mem.drop r.1) f
  let frac ← pow10 fr.2 (-(f : Int))
  pow10 (r.2.add frac) e

/-- The output, lines 1598-1614 (same text at 1727-1743). -/
def output (mem : List Byte) (negative : Bool) (l : Nat × Nat) (en : Bool) (e : Int) (out : Option Double) : C (Option Double) :=
  match out with
  | none => .ok none
  | some _ => do
    let a := adjust l.1 l.2 en e
    let v ← magnitude mem a.1.toNat a.2.1.toNat a.2.2
    .ok (some (negative, v))

/-- The end: the return for a bad exponent, lines 1556-1568, or the output and the result, lines 1598-1617 (same text at 1685-1697 and
1727-1746). `size` is the number of chars in front of the exponent. -/
def finish (size : Nat) (mem : List Byte) (negative : Bool) (l : Nat × Nat) (out : Option Double) : Expo → C (ConvResult × Option Double)
  | .stop n ec => .ok (⟨size + n, ec⟩, out)
  | .go n en e => do
    let o ← output mem negative l en e out
    .ok (⟨size + n, .ok⟩, o)

/-- `scan_double`, lines 1497-1618. `out` is the pointed-to output, `none` for a null pointer. -/
def scanDouble (str : Option (List Byte)) (out : Option Double) : C (ConvResult × Option Double) :=
  match str with
  | none => .ok (⟨0, .einval⟩, out)
  | some mem => do
    let c ← rd mem 0
    let sign := if c = 45 then 1 else 0
    let m ← mantissaZ (mem.drop sign) 0 none
    match lengths m.1 m.2 with
    | none => .ok (⟨0, .einval⟩, out)
    | some l =>
      let x ← exponentZ (mem.drop (sign + m.1))
      finish (sign + m.1) (mem.drop sign) (decide (c = 45)) l out x

/-- `scan_double_n`, lines 1619-1747. -/
def scanDoubleN (str : Option (List Byte)) (len : Nat) (out : Option Double) : C (ConvResult × Option Double) := do
  assert (str.isSome || decide (len = 0))
  if len = 0 then .ok (⟨0, .einval⟩, out)
  else
    let mem := str.getD []
    let c ← rd mem 0
    let sign := if c = 45 then 1 else 0
    let m ← mantissaN (mem.drop sign) (len - sign) 0 none
    match lengths m.1 m.2 with
    | none => .ok (⟨0, .einval⟩, out)
    | some l =>
      let x ← exponentN (mem.drop (sign + m.1)) (len - sign - m.1)
      finish (sign + m.1) (mem.drop sign) (decide (c = 45)) l out x

end Tm.Dbl
