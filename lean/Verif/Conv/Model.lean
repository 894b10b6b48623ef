import Verif.Num.Spec
/-!
# Model of tm_conversion.h (integers, booleans, byte dumps)

A `char` is its unsigned value (`TMC_CHAR_TO_INT`, line 799). Text is a list of chars. A pointer to a nul-terminated
string is the list of chars of the object from the pointed-to element on (running off the list is an out-of-bounds
read); a pointer/length pair is such a list and a number. `TMC_CLAMP_ON_RANGE_ERROR` is 0 and `TMC_CHECKED_WIDTH` is
not defined (the defaults) unless the name of a definition says otherwise.
`tm_size_t` values are unbounded naturals except in `printHexBytes`, where a product of sizes is formed.
-/
namespace Tm.Conv

/-- `tmc_conv_result`, tm_conversion.h:461-464. -/
structure ConvResult where
  size : Nat
  ec : Errc
deriving DecidableEq, Repr

/-- `tmc_combine_conv_results`, tm_conversion.h:468-473. -/
def combine (a b : ConvResult) : ConvResult := ⟨a.size + b.size, if a.ec = .ok then b.ec else a.ec⟩

/-- `isdigit` in the "C" locale. -/
def isdigit (c : Byte) : Bool := decide (48 ≤ c.toNat) && decide (c.toNat ≤ 57)
/-- `isupper` in the "C" locale. -/
def isupper (c : Byte) : Bool := decide (65 ≤ c.toNat) && decide (c.toNat ≤ 90)
/-- `islower` in the "C" locale. -/
def islower (c : Byte) : Bool := decide (97 ≤ c.toNat) && decide (c.toNat ≤ 122)
/-- `toupper` in the "C" locale. -/
def toupper (c : Byte) : Int := if islower c then (c.toNat : Int) - 32 else c.toNat

/-- The digit a char stands for: lines 864-874 (same text at 941-951, 1000-1010, 1062-1072, 1134-1144, 1210-1220,
1270-1280, 1330-1340 and tm_uint128.h:1668-1678, 1728-1738). `none`: the loop is left. -/
def charDigit (c : Byte) : Option Nat :=
  if isdigit c then some (c.toNat - 48)
  else if isupper c then some (c.toNat - 65 + 10)
  else if islower c then some (c.toNat - 97 + 10)
  else none

/-- The loop over a nul-terminated string, lines 863-883 (same text at 999-1019, 1133-1153, 1269-1289 and
tm_uint128.h:1666-1687). `step` is the body after the digit is known; `none` means `break`. `n` is `p - start`. -/
def digitLoopZ {S : Type} (step : Nat → S → Option S) : List Byte → Nat → S → C (Nat × S)
  | [], _, _ => .error .oob
  | c :: cs, n, s =>
    if c = 0 then .ok (n, s)
    else match charDigit c with
      | none => .ok (n, s)
      | some d => match step d s with
        | none => .ok (n, s)
        | some s' => digitLoopZ step cs (n + 1) s'

/-- The loop over a pointer/length pair, lines 940-960 (same text at 1061-1081, 1209-1229, 1329-1349 and
tm_uint128.h:1726-1747). -/
def digitLoopN {S : Type} (step : Nat → S → Option S) : List Byte → Nat → Nat → S → C (Nat × S)
  | _, 0, n, s => .ok (n, s)
  | [], _ + 1, _, _ => .error .oob
  | c :: cs, len + 1, n, s =>
    match charDigit c with
      | none => .ok (n, s)
      | some d => match step d s with
        | none => .ok (n, s)
        | some s' => digitLoopN step cs len (n + 1) s'

/-- Body of the loop after the digit is known, lines 875-882 (same text in the other seven functions):
accumulator and range flag of type `utype`. -/
def scanStep {w : Nat} (ubase maxValue maxDigit : BitVec w) (d : Nat) (s : BitVec w × Bool) : Option (BitVec w × Bool) :=
  let digit := BitVec.ofNat w d
  if ubase ≤ digit then none
  else if s.2 || decide (maxValue < s.1) || (decide (s.1 = maxValue) && decide (maxDigit < digit)) then some (s.1, true)
  else some (s.1 * ubase + digit, s.2)

/-- `TM_ASSERT(base >= 2 && base <= 36)`. -/
def baseOk (base : Int) : Bool := decide (2 ≤ base) && decide (base ≤ 36)

/-- Tail of the unsigned scanners, lines 1020-1039, 1082-1100 (and 1290-1309, 1350-1370).
`out` is the pointed-to output, `none` for a null pointer. -/
def finishU {w : Nat} (out : Option (BitVec w)) (dist : Nat) (value : BitVec w) (rangeError : Bool) :
    ConvResult × Option (BitVec w) :=
  if dist = 0 then (⟨0, .einval⟩, out)
  else (⟨dist, if rangeError then .erange else .ok⟩, if rangeError then out else out.map fun _ => value)

/-- `scan_u32` (w = 32), lines 981-1040, and `scan_u64` (w = 64), lines 1249-1310. -/
def scanU (w : Nat) (str : Option (List Byte)) (out : Option (BitVec w)) (base : Int) :
    C (ConvResult × Option (BitVec w)) := do
  assert (baseOk base)
  match str with
  | none => .ok (⟨0, .einval⟩, out)
  | some mem =>
    let ubase := BitVec.ofInt w base
    let umax := BitVec.allOnes w
    let r ← digitLoopZ (scanStep ubase (umax / ubase) (umax % ubase)) mem 0 (0, false)
    .ok (finishU out r.1 r.2.1 r.2.2)

/-- `scan_u32_n` (w = 32), lines 1041-1101, and `scan_u64_n` (w = 64), lines 1311-1371. -/
def scanUN (w : Nat) (str : Option (List Byte)) (len : Nat) (out : Option (BitVec w)) (base : Int) :
    C (ConvResult × Option (BitVec w)) := do
  assert (baseOk base)
  assert (str.isSome || decide (len = 0))
  if len = 0 then .ok (⟨0, .einval⟩, out)
  else
    let ubase := BitVec.ofInt w base
    let umax := BitVec.allOnes w
    let r ← digitLoopN (scanStep ubase (umax / ubase) (umax % ubase)) (str.getD []) len 0 (0, false)
    .ok (finishU out r.1 r.2.1 r.2.2)

/-- How the compiled program treats signed overflow: it is undefined behaviour in the language (`strict`); a compiler
may define it to wrap around (`wrap`). -/
inductive Signed where
  | strict | wrap
deriving DecidableEq, Repr

/-- `-x` on a signed type, for `x` given by its bit pattern. -/
def negS {w : Nat} (sem : Signed) (x : BitVec w) : C (BitVec w) :=
  if x = BitVec.intMin w then
    match sem with
    | .strict => .error .overflow
    | .wrap => .ok x
  else .ok (-x)

/-- Tail of the signed scanners, lines 884-903, 961-979 (and 1154-1173, 1230-1247). -/
def finishI {w : Nat} (sem : Signed) (out : Option (BitVec w)) (negative : Bool) (dist : Nat) (value : BitVec w)
    (rangeError : Bool) : C (ConvResult × Option (BitVec w)) := do
  if dist = 0 || (negative && decide (dist = 1)) then .ok (⟨0, .einval⟩, out)
  else
    match out with
    | none => .ok (⟨dist, if rangeError then .erange else .ok⟩, none)
    | some _ =>
      if rangeError then .ok (⟨dist, .erange⟩, out)
      else
        let v ← if negative then negS sem value else .ok value
        .ok (⟨dist, .ok⟩, some v)

/-- `scan_i32` (w = 32), lines 832-904, and `scan_i64` (w = 64), lines 1102-1174. -/
def scanI (w : Nat) (sem : Signed) (str : Option (List Byte)) (out : Option (BitVec w)) (base : Int) :
    C (ConvResult × Option (BitVec w)) := do
  assert (baseOk base)
  match str with
  | none => .ok (⟨0, .einval⟩, out)
  | some mem =>
    let first ← rd mem 0
    let negative := decide (first = 45)
    let ubase := BitVec.ofInt w base
    let maxVal := if negative then BitVec.intMin w else BitVec.intMax w
    let r ← digitLoopZ (scanStep ubase (maxVal / ubase) (maxVal % ubase))
      (if negative then mem.tail else mem) (if negative then 1 else 0) (0, false)
    finishI sem out negative r.1 r.2.1 r.2.2

/-- `scan_i32_n` (w = 32), lines 905-980, and `scan_i64_n` (w = 64), lines 1175-1248. -/
def scanIN (w : Nat) (sem : Signed) (str : Option (List Byte)) (len : Nat) (out : Option (BitVec w)) (base : Int) :
    C (ConvResult × Option (BitVec w)) := do
  assert (baseOk base)
  assert (str.isSome || decide (len = 0))
  if len = 0 then .ok (⟨0, .einval⟩, out)
  else
    let mem := str.getD []
    let first ← rd mem 0
    let negative := decide (first = 45)
    let ubase := BitVec.ofInt w base
    let maxVal := if negative then BitVec.intMin w else BitVec.intMax w
    let r ← digitLoopN (scanStep ubase (maxVal / ubase) (maxVal % ubase))
      (if negative then mem.tail else mem) (if negative then len - 1 else len) (if negative then 1 else 0) (0, false)
    finishI sem out negative r.1 r.2.1 r.2.2

/-! ### printing -/

/-- `print_NumberToCharTableUpper`, lines 1869-1871 (tm_uint128.h:1797-1799). -/
def tableUpper : List Byte :=
  [48, 49, 50, 51, 52, 53, 54, 55, 56, 57, 65, 66, 67, 68, 69, 70, 71, 72, 73, 74, 75, 76, 77, 78, 79, 80, 81, 82, 83,
   84, 85, 86, 87, 88, 89, 90]
/-- `print_NumberToCharTableLower`, lines 1872-1874 (tm_uint128.h:1800-1802). -/
def tableLower : List Byte :=
  [48, 49, 50, 51, 52, 53, 54, 55, 56, 57, 97, 98, 99, 100, 101, 102, 103, 104, 105, 106, 107, 108, 109, 110, 111, 112,
   113, 114, 115, 116, 117, 118, 119, 120, 121, 122]
/-- `(lowercase) ? print_NumberToCharTableLower : print_NumberToCharTableUpper`. -/
def table (lowercase : Bool) : List Byte := if lowercase then tableLower else tableUpper

/-- `print_DoubleDigitsToCharTable`, lines 1878-1887. -/
def doubleDigits : List Byte := [
  48, 48, 48, 49, 48, 50, 48, 51, 48, 52, 48, 53, 48, 54, 48, 55, 48, 56, 48, 57, 49, 48, 49,
  49, 49, 50, 49, 51, 49, 52, 49, 53, 49, 54, 49, 55, 49, 56, 49, 57, 50, 48, 50, 49, 50, 50,
  50, 51, 50, 52, 50, 53, 50, 54, 50, 55, 50, 56, 50, 57, 51, 48, 51, 49, 51, 50, 51, 51, 51,
  52, 51, 53, 51, 54, 51, 55, 51, 56, 51, 57, 52, 48, 52, 49, 52, 50, 52, 51, 52, 52, 52, 53,
  52, 54, 52, 55, 52, 56, 52, 57, 53, 48, 53, 49, 53, 50, 53, 51, 53, 52, 53, 53, 53, 54, 53,
  55, 53, 56, 53, 57, 54, 48, 54, 49, 54, 50, 54, 51, 54, 52, 54, 53, 54, 54, 54, 55, 54, 56,
  54, 57, 55, 48, 55, 49, 55, 50, 55, 51, 55, 52, 55, 53, 55, 54, 55, 55, 55, 56, 55, 57, 56,
  48, 56, 49, 56, 50, 56, 51, 56, 52, 56, 53, 56, 54, 56, 55, 56, 56, 56, 57, 57, 48, 57, 49,
  57, 50, 57, 51, 57, 52, 57, 53, 57, 54, 57, 55, 57, 56, 57, 57]

/-- `get_digits_count_decimal_u64`, lines 1931-1969. `fuel` bounds the depth of the recursion in line 1968. -/
def digitsCountDec64 : Nat → BitVec 64 → C Nat
  | 0, _ => .error .diverge
  | fuel + 1, number =>
    if number < 10 then .ok 1
    else if number < 100 then .ok 2
    else if number < 1000 then .ok 3
    else if number < 1000000000000 then
      if number < 100000000 then
        if number < 1000000 then
          if number < 10000 then .ok 4
          else .ok (5 + (decide (number ≥ 100000)).toNat)
        else .ok (7 + (decide (number ≥ 10000000)).toNat)
      else if number < 10000000000 then .ok (9 + (decide (number ≥ 1000000000)).toNat)
      else .ok (11 + (decide (number ≥ 100000000000)).toNat)
    else do
      let n ← digitsCountDec64 fuel (number / 1000000000000)
      .ok (12 + n)

/-- `get_digits_count_decimal_u32`, lines 1970-1999. -/
def digitsCountDec32 (number : BitVec 32) : Nat :=
  if number < 10 then 1
  else if number < 100 then 2
  else if number < 1000 then 3
  else if number < 100000000 then
    if number < 1000000 then
      if number < 10000 then 4
      else 5 + (decide (number ≥ 100000)).toNat
    else 7 + (decide (number ≥ 10000000)).toNat
  else 9 + (decide (number ≥ 1000000000)).toNat

/-- `get_digits_count_hex_u32` / `_u64`, lines 2148-2163. `fuel` bounds the number of iterations. -/
def digitsCountHex {w : Nat} : Nat → BitVec w → C Nat
  | 0, _ => .error .diverge
  | fuel + 1, value =>
    let value := value >>> 4
    if value ≠ 0 then do
      let n ← digitsCountHex fuel value
      .ok (n + 1)
    else .ok 1

/-- The loop of `get_digits_count_u32` / `_u64`, lines 2176-2182, 2195-2201. -/
def digitsCountLoop {w : Nat} (p1 p2 p3 p4 : BitVec w) : Nat → BitVec w → Nat → C Nat
  | 0, _, _ => .error .diverge
  | fuel + 1, number, result =>
    if number < p4 then
      .ok (result + (decide (number ≥ p1)).toNat + (decide (number ≥ p2)).toNat + (decide (number ≥ p3)).toNat)
    else digitsCountLoop p1 p2 p3 p4 fuel (number / p4) (result + 4)

/-- `get_digits_count_u32` (w = 32) / `get_digits_count_u64` (w = 64), lines 2165-2202. The powers are computed in
`uint32_t` and then converted to the type of `number`. -/
def digitsCount {w : Nat} (number : BitVec w) (base : Int) : C Nat := do
  assert (baseOk base)
  let p1 := BitVec.ofInt 32 base
  let p2 := p1 * p1
  let p3 := p2 * p1
  let p4 := p3 * p1
  digitsCountLoop (p1.setWidth w) (p2.setWidth w) (p3.setWidth w) (p4.setWidth w) (w + 1) number 1

/-- The loop of `print_decimal_u32_w` / `_u64_w`, lines 2017-2025, 2065-2073: returns the remaining value, the write
position and the buffer. -/
def printDecLoop {w : Nat} : Nat → BitVec w → Int → List Byte → C (BitVec w × Int × List Byte)
  | 0, _, _, _ => .error .diverge
  | fuel + 1, value, p, buf =>
    if value ≥ 100 then do
      let index := (((value % 100).setWidth 32) * 2 : BitVec 32)
      assert (decide (index < 200))
      let c1 ← rd doubleDigits (index + 1).toNat
      let buf ← wrI buf p c1
      let c0 ← rd doubleDigits index.toNat
      let buf ← wrI buf (p - 1) c0
      printDecLoop fuel (value / 100) (p - 2) buf
    else .ok (value, p, buf)

/-- `print_decimal_u32_w` (w = 32) / `print_decimal_u64_w` (w = 64), lines 2001-2095. `buf` is the object `dest` points
into and `dest` the index of the pointed-to char. `count` is the value of `get_digits_count_decimal_*(value)`. -/
def printDecW {w : Nat} (count : Nat) (buf : List Byte) (dest maxlen width : Nat) (value : BitVec w) :
    C (ConvResult × List Byte) := do
  assert (decide (width > 0))
  assert (decide (width = count))
  if width > maxlen then .ok (⟨maxlen, .eoverflow⟩, buf)
  else
    let r ← printDecLoop (w + 1) value ((dest : Int) + width - 1) buf
    if r.1 < 10 then do
      let buf ← wrI r.2.2 r.2.1 ((48 + r.1.setWidth 32 : BitVec 32).setWidth 8)
      .ok (⟨width, .ok⟩, buf)
    else do
      assert (decide (r.1 < 100))
      let index := ((r.1.setWidth 32) * 2 : BitVec 32)
      assert (decide (index < 200))
      let c1 ← rd doubleDigits (index + 1).toNat
      let buf ← wrI r.2.2 r.2.1 c1
      let c0 ← rd doubleDigits index.toNat
      let buf ← wrI buf (r.2.1 - 1) c0
      .ok (⟨width, .ok⟩, buf)

/-- `print_decimal_u32`, lines 2119-2121. -/
def printDec32 (buf : List Byte) (dest maxlen : Nat) (value : BitVec 32) : C (ConvResult × List Byte) :=
  printDecW (digitsCountDec32 value) buf dest maxlen (digitsCountDec32 value) value

/-- `print_decimal_u64`, lines 2144-2146. -/
def printDec64 (buf : List Byte) (dest maxlen : Nat) (value : BitVec 64) : C (ConvResult × List Byte) := do
  let count ← digitsCountDec64 3 value
  printDecW count buf dest maxlen count value

/-- The loop of `print_hex_u32_w` / `_u64_w`, lines 2231-2237, 2279-2285. -/
def printHexLoop {w : Nat} (tab : List Byte) : Nat → BitVec w → Int → List Byte → C (BitVec w × Int × List Byte)
  | 0, _, _, _ => .error .diverge
  | fuel + 1, value, p, buf =>
    if value ≥ 0x10 then do
      let c1 ← rd tab (value &&& 0x0F).toNat
      let buf ← wrI buf p c1
      let c0 ← rd tab ((value >>> 4) &&& 0x0F).toNat
      let buf ← wrI buf (p - 1) c0
      printHexLoop tab fuel (value >>> 8) (p - 2) buf
    else .ok (value, p, buf)

/-- `print_hex_u32_w` (w = 32) / `print_hex_u64_w` (w = 64), lines 2204-2299. -/
def printHexW {w : Nat} (buf : List Byte) (dest maxlen width : Nat) (value : BitVec w) (lowercase : Bool) :
    C (ConvResult × List Byte) := do
  assert (decide (width > 0))
  let count ← digitsCountHex (w + 1) value
  assert (decide (width = count))
  if width > maxlen then .ok (⟨maxlen, .eoverflow⟩, buf)
  else if value = 0 then do
    assert (decide (width = 1))
    let buf ← wr buf dest 48
    .ok (⟨1, .ok⟩, buf)
  else do
    let tab := table lowercase
    let r ← printHexLoop tab (w + 1) value ((dest : Int) + width - 1) buf
    if r.1 ≠ 0 then do
      let c ← rd tab (r.1 &&& 0x0F).toNat
      let buf ← wrI r.2.2 r.2.1 c
      .ok (⟨width, .ok⟩, buf)
    else .ok (⟨width, .ok⟩, r.2.2)

/-- `print_hex_u32`, `print_hex_u64`, lines 2352-2354, 2377-2379. -/
def printHex {w : Nat} (buf : List Byte) (dest maxlen : Nat) (value : BitVec w) (lowercase : Bool) :
    C (ConvResult × List Byte) := do
  let count ← digitsCountHex (w + 1) value
  printHexW buf dest maxlen count value lowercase

/-- The do-while loop of `print_u32_w` / `print_u64_w`, lines 2428-2433, 2509-2514. -/
def printLoop {w : Nat} (tab : List Byte) (ubase : BitVec w) : Nat → BitVec w → Int → List Byte → C (List Byte)
  | 0, _, _, _ => .error .diverge
  | fuel + 1, value, p, buf => do
    assert (decide ((value % ubase).toNat < tableLower.length))
    let c ← rd tab (value % ubase).toNat
    let buf ← wrI buf p c
    let value := value / ubase
    if value ≠ 0 then printLoop tab ubase fuel value (p - 1) buf else .ok buf

/-- `print_u32_w` (w = 32) / `print_u64_w` (w = 64), lines 2402-2444, 2483-2525. -/
def printUW {w : Nat} (buf : List Byte) (dest maxlen width : Nat) (value : BitVec w) (base : Int) (lowercase : Bool) :
    C (ConvResult × List Byte) := do
  assert (baseOk base)
  assert (decide (width > 0))
  let count ← digitsCount value base
  assert (decide (width = count))
  if width > maxlen then .ok (⟨maxlen, .eoverflow⟩, buf)
  else if value = 0 then do
    assert (decide (width = 1))
    let buf ← wrI buf ((dest : Int) + width - 1) 48
    .ok (⟨width, .ok⟩, buf)
  else do
    let buf ← printLoop (table lowercase) (BitVec.ofInt w base) (w + 1) value ((dest : Int) + width - 1) buf
    .ok (⟨width, .ok⟩, buf)

/-- `print_u32` (w = 32, `dec = printDec32`), lines 2445-2461, `print_u64` (w = 64, `dec = printDec64`), lines 2526-2542. -/
def printU {w : Nat} (dec : List Byte → Nat → Nat → BitVec w → C (ConvResult × List Byte))
    (buf : List Byte) (dest maxlen : Nat) (value : BitVec w) (base : Int) (lowercase : Bool) :
    C (ConvResult × List Byte) := do
  assert (baseOk base)
  if base = 10 then dec buf dest maxlen value
  else if base = 16 then printHex buf dest maxlen value lowercase
  else do
    let count ← digitsCount value base
    printUW buf dest maxlen count value base lowercase

/-- `print_u32`. -/
def printU32 := printU printDec32
/-- `print_u64`. -/
def printU64 := printU printDec64

/-- `if (value != INT32_MIN) value = -value;`, lines 2110-2111 (same text at 2135, 2343, 2368, 2395, 2476). -/
def magnitude {w : Nat} (value : BitVec w) : C (BitVec w) :=
  if value ≠ BitVec.intMin w then negS .strict value else .ok value

/-- The sign handling shared by `print_i32`, `print_i64` (2381-2401, 2462-2482), `print_decimal_i32`, `print_decimal_i64`
(2097-2118, 2122-2143), `print_hex_i32`, `print_hex_i64` (2330-2351, 2355-2376); `rest` prints the magnitude. -/
def printSigned {w : Nat} (rest : List Byte → Nat → Nat → BitVec w → C (ConvResult × List Byte))
    (buf : List Byte) (dest maxlen : Nat) (value : BitVec w) : C (ConvResult × List Byte) := do
  if value.toInt < 0 then
    if maxlen = 0 then .ok (⟨0, .eoverflow⟩, buf)
    else do
      let buf ← wr buf dest 45
      let value ← magnitude value
      let r ← rest buf (dest + 1) (maxlen - 1) value
      .ok (combine ⟨1, .ok⟩ r.1, r.2)
  else do
    let r ← rest buf dest maxlen value
    .ok (combine ⟨0, .ok⟩ r.1, r.2)

/-- `print_i32`, lines 2381-2401. -/
def printI32 (buf : List Byte) (dest maxlen : Nat) (value : BitVec 32) (base : Int) (lowercase : Bool) :
    C (ConvResult × List Byte) := do
  assert (baseOk base)
  printSigned (fun b d m v => printU32 b d m v base lowercase) buf dest maxlen value

/-- `print_i64`, lines 2462-2482. -/
def printI64 (buf : List Byte) (dest maxlen : Nat) (value : BitVec 64) (base : Int) (lowercase : Bool) :
    C (ConvResult × List Byte) := do
  assert (baseOk base)
  printSigned (fun b d m v => printU64 b d m v base lowercase) buf dest maxlen value

/-- `print_decimal_i32`, lines 2097-2118. -/
def printDecI32 (buf : List Byte) (dest maxlen : Nat) (value : BitVec 32) : C (ConvResult × List Byte) :=
  printSigned printDec32 buf dest maxlen value
/-- `print_decimal_i64`, lines 2122-2143. -/
def printDecI64 (buf : List Byte) (dest maxlen : Nat) (value : BitVec 64) : C (ConvResult × List Byte) :=
  printSigned printDec64 buf dest maxlen value
/-- `print_hex_i32` (w = 32), lines 2330-2351, `print_hex_i64` (w = 64), lines 2355-2376. -/
def printHexI {w : Nat} (buf : List Byte) (dest maxlen : Nat) (value : BitVec w) (lowercase : Bool) :
    C (ConvResult × List Byte) :=
  printSigned (fun b d m v => printHex b d m v lowercase) buf dest maxlen value

/-- The loop of `print_hex_bytes`, lines 2319-2325. -/
def hexBytesLoop (tab : List Byte) : List Byte → Nat → List Byte → C (List Byte)
  | [], _, buf => .ok buf
  | value :: rest, dest, buf => do
    let c1 ← rd tab (value &&& 0x0F).toNat
    let buf ← wr buf (dest + 1) c1
    let c0 ← rd tab ((value >>> 4) &&& 0x0F).toNat
    let buf ← wr buf dest c0
    hexBytesLoop tab rest (dest + 2) buf

/-- `print_hex_bytes`, lines 2301-2328. The size computation wraps in the 64 bit `tm_size_t`. -/
def printHexBytes (buf : List Byte) (dest maxlen : Nat) (bytes : List Byte) (lowercase : Bool) :
    C (ConvResult × List Byte) := do
  let needed := (BitVec.ofNat 64 bytes.length * 2).toNat
  if needed > maxlen then .ok (⟨maxlen, .eoverflow⟩, buf)
  else do
    let buf ← hexBytesLoop (table lowercase) bytes dest buf
    .ok (⟨needed, .ok⟩, buf)

/-! ### booleans and strings -/

/-- The part of `tm_strnicmp` after its loop, lines 1777-1782. -/
def strnicmpEnd (a b : List Byte) (maxlen : BitVec 64) : C Int := do
  if maxlen = 0 then .ok 0
  else
    let x ← rd a 0
    let y ← rd b 0
    .ok (toupper x - toupper y)

/-- `tm_strnicmp`, lines 1766-1783; `maxlen` is the 64 bit unsigned `tm_size_t` (the decrement in the loop condition
wraps around). -/
def strnicmp : List Byte → List Byte → BitVec 64 → C Int
  | [], _, _ => .error .oob
  | x :: a, b, maxlen =>
    if x = 0 then strnicmpEnd (x :: a) b maxlen
    else match b with
      | [] => .error .oob
      | y :: b =>
        if y = 0 then strnicmpEnd (x :: a) (y :: b) maxlen
        else if maxlen = 0 then strnicmpEnd (x :: a) (y :: b) (maxlen - 1)
        else if toupper x ≠ toupper y then strnicmpEnd (x :: a) (y :: b) (maxlen - 1)
        else strnicmp a b (maxlen - 1)

/-- The literal "true" with its terminating nul. -/
def litTrue : List Byte := [116, 114, 117, 101, 0]
/-- The literal "false" with its terminating nul. -/
def litFalse : List Byte := [102, 97, 108, 115, 101, 0]

/-- The common part of `scan_bool` and `scan_bool_n`, lines 1791-1816, 1826-1851. `n1` and `n2` are the lengths passed to
the comparisons. -/
def scanBoolBody (mem : List Byte) (n1 n2 : BitVec 64) (out : Option Bool) : C (ConvResult × Option Bool) := do
  let c ← rd mem 0
  if c = 49 then .ok (⟨1, .ok⟩, out.map fun _ => true)
  else if c = 48 then .ok (⟨1, .ok⟩, out.map fun _ => false)
  else
    let t ← strnicmp mem litTrue n1
    if t = 0 then .ok (⟨4, .ok⟩, out.map fun _ => true)
    else
      let f ← strnicmp mem litFalse n2
      if f = 0 then .ok (⟨5, .ok⟩, out.map fun _ => false)
      else .ok (⟨0, .einval⟩, out)

/-- `scan_bool`, lines 1786-1817. -/
def scanBool (str : Option (List Byte)) (out : Option Bool) : C (ConvResult × Option Bool) :=
  match str with
  | none => .ok (⟨0, .einval⟩, out)
  | some mem => scanBoolBody mem 4 5 out

/-- `scan_bool_n`, lines 1818-1852. -/
def scanBoolN (str : Option (List Byte)) (len : Nat) (out : Option Bool) : C (ConvResult × Option Bool) := do
  assert (str.isSome || decide (len = 0))
  if len = 0 then .ok (⟨0, .einval⟩, out)
  else scanBoolBody (str.getD []) (BitVec.ofNat 64 len) (BitVec.ofNat 64 len) out

/-- `memcpy(dest, src, n)` into the object `buf`. -/
def memcpy (buf : List Byte) (dest : Nat) : List Byte → C (List Byte)
  | [] => .ok buf
  | c :: cs => do
    let buf ← wr buf dest c
    memcpy buf (dest + 1) cs

/-- `tmc_print_string`, lines 1749-1763. -/
def printString (buf : List Byte) (dest maxlen : Nat) (src : List Byte) : C (ConvResult × List Byte) := do
  let r : ConvResult := if maxlen < src.length then ⟨maxlen, .eoverflow⟩ else ⟨src.length, .ok⟩
  assert (decide (r.size > 0))
  let buf ← memcpy buf dest (src.take r.size)
  .ok (r, buf)

/-- `print_bool`, lines 1856-1865. -/
def printBool (buf : List Byte) (dest maxlen : Nat) (value asNumber : Bool) : C (ConvResult × List Byte) :=
  if asNumber then printString buf dest maxlen (if value then [49] else [48])
  else printString buf dest maxlen (if value then litTrue.dropLast else litFalse.dropLast)

/-! ### the `_w` functions in a build with `TMC_CHECKED_WIDTH` and without assertions

Here `width` may be any number; the loops count it down. -/

/-- The loop of `print_decimal_u32_w` / `_u64_w` with the `TMC_CW` parts, lines 2017-2025, 2065-2073. -/
def printDecLoopC {w : Nat} : Nat → BitVec w → Int → Nat → List Byte → C (BitVec w × Int × Nat × List Byte)
  | 0, _, _, _, _ => .error .diverge
  | fuel + 1, value, p, width, buf =>
    if value ≥ 100 ∧ width ≥ 2 then do
      let index := (((value % 100).setWidth 32) * 2 : BitVec 32)
      let c1 ← rd doubleDigits (index + 1).toNat
      let buf ← wrI buf p c1
      let c0 ← rd doubleDigits index.toNat
      let buf ← wrI buf (p - 1) c0
      printDecLoopC fuel (value / 100) (p - 2) (width - 2) buf
    else .ok (value, p, width, buf)

/-- `print_decimal_u32_w` / `print_decimal_u64_w` with `TMC_CHECKED_WIDTH`, lines 2001-2095. -/
def printDecWC {w : Nat} (buf : List Byte) (dest maxlen width : Nat) (value : BitVec w) : C (ConvResult × List Byte) := do
  if width > maxlen then .ok (⟨maxlen, .eoverflow⟩, buf)
  else
    let r ← printDecLoopC (w + 1) value ((dest : Int) + width - 1) width buf
    if (r.1 < 10 ∧ r.2.2.1 ≠ 1) ∨ (r.1 ≥ 10 ∧ r.2.2.1 ≠ 2) then .ok (⟨maxlen, .eoverflow⟩, r.2.2.2)
    else if r.1 < 10 then do
      let buf ← wrI r.2.2.2 r.2.1 ((48 + r.1.setWidth 32 : BitVec 32).setWidth 8)
      .ok (⟨width, .ok⟩, buf)
    else do
      let index := ((r.1.setWidth 32) * 2 : BitVec 32)
      let c1 ← rd doubleDigits (index + 1).toNat
      let buf ← wrI r.2.2.2 r.2.1 c1
      let c0 ← rd doubleDigits index.toNat
      let buf ← wrI buf (r.2.1 - 1) c0
      .ok (⟨width, .ok⟩, buf)

/-- The loop of `print_hex_u32_w` / `_u64_w` with the `TMC_CW` parts, lines 2231-2237, 2279-2285. -/
def printHexLoopC {w : Nat} (tab : List Byte) : Nat → BitVec w → Int → Nat → List Byte → C (BitVec w × Int × Nat × List Byte)
  | 0, _, _, _, _ => .error .diverge
  | fuel + 1, value, p, width, buf =>
    if value ≥ 0x10 ∧ width ≥ 2 then do
      let c1 ← rd tab (value &&& 0x0F).toNat
      let buf ← wrI buf p c1
      let c0 ← rd tab ((value >>> 4) &&& 0x0F).toNat
      let buf ← wrI buf (p - 1) c0
      printHexLoopC tab fuel (value >>> 8) (p - 2) (width - 2) buf
    else .ok (value, p, width, buf)

/-- `print_hex_u32_w` / `print_hex_u64_w` with `TMC_CHECKED_WIDTH`, lines 2204-2299. -/
def printHexWC {w : Nat} (buf : List Byte) (dest maxlen width : Nat) (value : BitVec w) (lowercase : Bool) :
    C (ConvResult × List Byte) := do
  if width > maxlen then .ok (⟨maxlen, .eoverflow⟩, buf)
  else if value = 0 then do
    let buf ← wr buf dest 48
    .ok (⟨1, .ok⟩, buf)
  else do
    let tab := table lowercase
    let r ← printHexLoopC tab (w + 1) value ((dest : Int) + width - 1) width buf
    if (r.1 > 0 ∧ r.1 ≤ 0x0F ∧ r.2.2.1 ≠ 1) ∨ r.1 > 0x0F then .ok (⟨maxlen, .eoverflow⟩, r.2.2.2)
    else if r.1 ≠ 0 then do
      let c ← rd tab (r.1 &&& 0x0F).toNat
      let buf ← wrI r.2.2.2 r.2.1 c
      .ok (⟨width, .ok⟩, buf)
    else .ok (⟨width, .ok⟩, r.2.2.2)

/-- The do-while loop of `print_u32_w` / `print_u64_w` with the `TMC_CW` parts, lines 2428-2433, 2509-2514. -/
def printLoopC {w : Nat} (tab : List Byte) (ubase : BitVec w) :
    Nat → BitVec w → Int → Nat → List Byte → C (BitVec w × Nat × List Byte)
  | 0, _, _, _, _ => .error .diverge
  | fuel + 1, value, p, width, buf => do
    let c ← rd tab (value % ubase).toNat
    let buf ← wrI buf p c
    let value := value / ubase
    let width := width - 1
    if value ≠ 0 ∧ width > 0 then printLoopC tab ubase fuel value (p - 1) width buf else .ok (value, width, buf)

/-- `print_u32_w` / `print_u64_w` with `TMC_CHECKED_WIDTH`, lines 2402-2444, 2483-2525. -/
def printUWC {w : Nat} (buf : List Byte) (dest maxlen width : Nat) (value : BitVec w) (base : Int) (lowercase : Bool) :
    C (ConvResult × List Byte) := do
  if width > maxlen ∨ width = 0 ∨ (value = 0 ∧ width ≠ 1) then .ok (⟨maxlen, .eoverflow⟩, buf)
  else if value = 0 then do
    let buf ← wrI buf ((dest : Int) + width - 1) 48
    .ok (⟨width, .ok⟩, buf)
  else do
    let r ← printLoopC (table lowercase) (BitVec.ofInt w base) (w + 1) value ((dest : Int) + width - 1) width buf
    if r.1 ≠ 0 ∧ r.2.1 = 0 then .ok (⟨maxlen, .eoverflow⟩, r.2.2)
    else .ok (⟨width, .ok⟩, r.2.2)

end Tm.Conv
