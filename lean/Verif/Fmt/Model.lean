import Verif.Conv.Model
import Verif.Dbl.PrintModel
/-!
# tm_print.h: the formatting library, with tm_conversion.h as the backend for integers and floating point numbers

Line numbers are those of tm_print.h. The build that is modelled defines `TMP_INT_BACKEND_TM_CONVERSION` and
`TMP_FLOAT_BACKEND_TM_CONVERSION`, leaves the other switches at their defaults (`TMP_DEFAULT_FLAGS` 0, `TMP_SBO_SIZE` 200,
`TMP_STRING_WIDTH` the number of bytes) and has no custom printers. Sizes are natural numbers: the wrap around of `tm_size_t` is modelled
where the code subtracts pointers or sizes in the wrong order (as a fault), not for sums that do not fit the address space. `char` is signed.
An object the code writes to is a list of bytes, a pointer into it an index.
-/
namespace Tm.Fmt
open Tm.Conv Tm.Dbl

/-- `PrintFormat`, lines 368-373. -/
structure PrintFormat where
  base : Int
  precision : Int
  width : Int
  flags : BitVec 32
deriving DecidableEq, Repr

/-- `default_print_format`, line 375. -/
def defaultFormat : PrintFormat := ⟨10, 6, 0, 0⟩

namespace PrintFormat
/-- `flags & PrintFlags::BoolAsNumber`, line 348. -/
def boolAsNumber (f : PrintFormat) : Bool := f.flags.getLsbD 5
/-- `flags & PrintFlags::Lowercase`, line 349. -/
def lowercase (f : PrintFormat) : Bool := f.flags.getLsbD 6
/-- `flags & PrintFlags::Sign`, line 350. -/
def sign (f : PrintFormat) : Bool := f.flags.getLsbD 7
/-- `flags & PrintFlags::Char`, line 351. -/
def char (f : PrintFormat) : Bool := f.flags.getLsbD 8
/-- `flags & PrintFlags::LeftJustify`, line 352. -/
def leftJustify (f : PrintFormat) : Bool := f.flags.getLsbD 9
/-- `flags & PrintFlags::PrependHex`, line 353. -/
def prependHex (f : PrintFormat) : Bool := f.flags.getLsbD 10
/-- `flags & PrintFlags::PrependBinary`, line 354. -/
def prependBinary (f : PrintFormat) : Bool := f.flags.getLsbD 11
/-- `flags & PrintFlags::PrependOctal`, line 355. -/
def prependOctal (f : PrintFormat) : Bool := f.flags.getLsbD 12
/-- `flags & PrintFlags::PadWithSpaces`, line 357. -/
def padWithSpaces (f : PrintFormat) : Bool := f.flags.getLsbD 14
end PrintFormat

/-- `PrintSizes`: its members as they are used in lines 1225-1236 and 1322-1347. -/
structure PrintSizes where
  digits : Nat
  decorated : Nat
  size : Nat
deriving DecidableEq, Repr

/-! ## printing one value -/

/-- `tmp_print_formatted` for strings, lines 1089-1123. In line 1097 `width` is `format.width`, so the difference is 0. -/
def formattedString (buf : List Byte) (dest maxlen : Nat) (f : PrintFormat) (str : List Byte) (strWidth : Nat) :
    C (ConvResult × List Byte) := do
  let width := f.width
  let size := if f.width > 0 then
      str.length + (if f.width.toNat > strWidth then f.width.toNat - width.toNat else 0)
    else str.length
  if size > maxlen then .ok (⟨maxlen, .eoverflow⟩, buf)
  else if width > 0 ∧ width.toNat > str.length then do
    let padding := width.toNat - str.length
    if !f.leftJustify then do
      assert (decide (padding ≤ maxlen))
      let buf ← memcpy buf dest (List.replicate padding 32)
      assert (decide (str.length ≤ maxlen - padding))
      let buf ← memcpy buf (dest + padding) str
      .ok (⟨size, .ok⟩, buf)
    else do
      assert (decide (padding + str.length ≤ maxlen))
      let buf ← memcpy buf (dest + str.length) (List.replicate padding 32)
      assert (decide (str.length ≤ maxlen))
      let buf ← memcpy buf dest str
      .ok (⟨size, .ok⟩, buf)
  else do
    assert (decide (str.length ≤ maxlen))
    let buf ← memcpy buf dest str
    .ok (⟨size, .ok⟩, buf)

/-- The word for a truth value, lines 1130-1142. -/
def boolWord (f : PrintFormat) (value : Bool) : List Byte :=
  if f.boolAsNumber then (if value then [49] else [48])
  else if value then (if f.lowercase then [116, 114, 117, 101] else [84, 82, 85, 69])
  else (if f.lowercase then [102, 97, 108, 115, 101] else [70, 65, 76, 83, 69])

/-- `tmp_print_formatted` for `bool`, lines 1125-1144. -/
def formattedBool (buf : List Byte) (dest maxlen : Nat) (f : PrintFormat) (value : Bool) : C (ConvResult × List Byte) :=
  formattedString buf dest maxlen f (boolWord f value) (boolWord f value).length

/-- `tmp_get_decorated_size`, lines 1146-1158. -/
def decoratedSize (digits : Nat) (f : PrintFormat) (negative : Bool) : Nat :=
  digits + (if negative || f.sign then 1 else 0) + (if f.prependHex || f.prependBinary then 2 else 0) +
    (if f.prependOctal then 1 else 0)

/-- The padding of `tmp_print_decoration`, lines 1170-1192: returns the buffer, `decorate_pos` and `remaining`. A size that is greater than
the width it is subtracted from would wrap around, which ends in a write outside of the buffer. -/
def printPadding (buf : List Byte) (dest maxlen : Nat) (s : PrintSizes) (f : PrintFormat) : C (List Byte × Nat × Nat) :=
  if f.width > 0 ∧ s.size ≤ f.width.toNat then
    if !f.leftJustify then do
      if f.width.toNat < s.decorated then .error .oob
      let padding := f.width.toNat - s.decorated
      assert (decide (padding ≤ maxlen))
      if f.padWithSpaces then do
        let buf ← memcpy buf dest (List.replicate padding 32)
        .ok (buf, dest + padding, maxlen - padding)
      else do
        assert (decide (s.decorated ≥ s.digits))
        let buf ← memcpy buf (dest + (s.decorated - s.digits)) (List.replicate padding 48)
        .ok (buf, dest, maxlen - padding)
    else do
      assert (decide (f.width.toNat ≥ s.decorated))
      let buf ← memcpy buf (dest + s.decorated) (List.replicate (f.width.toNat - s.decorated) 32)
      .ok (buf, dest, maxlen)
  else do
    assert (decide (s.decorated ≥ s.digits))
    .ok (buf, dest, maxlen)

/-- The sign of `tmp_print_decoration`, lines 1194-1202: returns the buffer and `decorate_pos`. -/
def printSign (buf : List Byte) (pos remaining : Nat) (f : PrintFormat) (negative : Bool) : C (List Byte × Nat) :=
  if negative then do
    assert (decide (remaining > 0))
    let buf ← wr buf pos 45
    .ok (buf, pos + 1)
  else if f.sign then do
    assert (decide (remaining > 0))
    let buf ← wr buf pos 43
    .ok (buf, pos + 1)
  else .ok (buf, pos)

/-- The prefix of `tmp_print_decoration`, lines 1204-1215. -/
def printPrefix (buf : List Byte) (pos : Nat) (f : PrintFormat) : C (List Byte) :=
  if f.prependHex then do
    let buf ← wr buf pos 48
    wr buf (pos + 1) (if f.lowercase then 120 else 88)
  else if f.prependBinary then do
    let buf ← wr buf pos 48
    wr buf (pos + 1) (if f.lowercase then 98 else 66)
  else if f.prependOctal then wr buf pos 48
  else .ok buf

/-- `tmp_print_decoration`, lines 1160-1216. -/
def printDecoration (buf : List Byte) (dest maxlen : Nat) (s : PrintSizes) (f : PrintFormat) (negative : Bool) : C (List Byte) := do
  assert (decide (s.size ≤ maxlen))
  let r ← printPadding buf dest maxlen s f
  let r ← printSign r.1 r.2.1 r.2.2 f negative
  printPrefix r.1 r.2 f

/-- The sizes computed from the number of digits, lines 1225-1236 and 1339-1347. -/
def sizesOf (digits : Nat) (f : PrintFormat) (negative : Bool) : PrintSizes :=
  let decorated := decoratedSize digits f negative
  ⟨digits, decorated, if f.width > 0 ∧ decorated < f.width.toNat then f.width.toNat else decorated⟩

/-- `memmove(dest, src, n)` inside of the object `buf`. -/
def memmove (buf : List Byte) (dest src n : Nat) : C (List Byte) :=
  if src + n ≤ buf.length then memcpy buf dest ((buf.drop src).take n) else .error .oob

/-- Lines 1244-1249. -/
def moveDigits (buf : List Byte) (dest src n : Nat) (c : Bool) : C (List Byte) := if c then memmove buf dest src n else .ok buf

/-- `tmp_move_printed_value_and_decorate`, lines 1218-1259. The three assertions of lines 1234-1236 hold by the definition of the sizes. -/
def moveAndDecorate (buf : List Byte) (dest maxlen : Nat) (f : PrintFormat) (r : ConvResult) (negative : Bool) : C (ConvResult × List Byte) :=
  if r.ec ≠ .ok then .ok (r, buf)
  else do
    let s := sizesOf r.size f negative
    let digitsPos := if f.width ≤ 0 || f.leftJustify then s.decorated - s.digits else s.size - s.digits
    let sign := if negative || f.sign then 1 else 0
    let buf ← moveDigits buf (dest + digitsPos) (dest + sign) s.digits (digitsPos > 0 ∧ digitsPos ≠ sign)
    if s.size > maxlen then .ok (⟨s.size, .erange⟩, buf)
    else do
      let buf ← printDecoration buf dest maxlen s f negative
      .ok (⟨s.size, .ok⟩, buf)

/-- `v < 0`, lines 1063 and 1068. -/
def isLess (v : Double) : Bool := v.1 && decide (v.2 ≠ .fin 0) && decide (v.2 ≠ .nan)

/-- `tmp_make_unsigned` for floating point numbers, lines 1062-1071. -/
def makeUnsigned (v : Double) : Double × Bool := (if isLess v then (false, v.2) else v, isLess v)

/-- `tmp_print_formatted` for floating point numbers, lines 1597-1609, with `tmp_print_value`, lines 1518-1545. A `float` is given as the
`double` it is converted to. -/
def formattedFloat (buf : List Byte) (dest maxlen : Nat) (f : PrintFormat) (value : Double) : C (ConvResult × List Byte) :=
  if maxlen = 0 then .ok (⟨maxlen, .eoverflow⟩, buf)
  else do
    let pair := makeUnsigned value
    let sign := if pair.2 || f.sign then 1 else 0
    let r ← printDouble buf (dest + sign) (maxlen - sign) pair.1 (f.flags &&& 0xFF) f.precision
    moveAndDecorate r.2 dest maxlen f r.1 pair.2

/-- `get_digits_count_decimal_u32`, `get_digits_count_decimal_u64`, as chosen in lines 1311-1312. -/
def countDecimal {w : Nat} (value : BitVec w) : C Nat :=
  if w = 32 then .ok (digitsCountDec32 (value.setWidth 32)) else digitsCountDec64 3 (value.setWidth 64)

/-- The number of digits, lines 1324-1337. -/
def countDigits {w : Nat} (value : BitVec w) (f : PrintFormat) : C Nat :=
  if f.base = 10 then countDecimal value
  else if f.base = 16 then digitsCountHex (w + 1) value
  else digitsCount value f.base

/-- `tmp_get_print_sizes`, lines 1318-1349, for 32 and 64 bit numbers. -/
def getPrintSizes {w : Nat} (value : BitVec w) (f : PrintFormat) (negative : Bool) : C PrintSizes := do
  let digits ← countDigits value f
  .ok (sizesOf digits f negative)

/-- The digits, lines 1397-1412. -/
def printNumber {w : Nat} (buf : List Byte) (dest maxlen : Nat) (s : PrintSizes) (f : PrintFormat) (value : BitVec w) :
    C (ConvResult × List Byte) :=
  if f.base = 10 then do
    let count ← countDecimal value
    printDecW count buf dest maxlen s.digits value
  else if f.base = 16 then printHexW buf dest maxlen s.digits value f.lowercase
  else printUW buf dest maxlen s.digits value f.base f.lowercase

/-- `tmp_print_formatted_unsigned`, lines 1374-1420, for 32 and 64 bit numbers. -/
def formattedUnsigned {w : Nat} (buf : List Byte) (dest maxlen : Nat) (s : PrintSizes) (f : PrintFormat) (value : BitVec w)
    (negative : Bool) : C (ConvResult × List Byte) :=
  if s.size > maxlen then .ok (⟨s.size, .erange⟩, buf)
  else do
    let buf ← printDecoration buf dest maxlen s f negative
    let padding := if f.leftJustify then s.decorated - s.digits else s.size - s.digits
    let r ← printNumber buf (dest + padding) (maxlen - padding) s f value
    if r.1.ec ≠ .ok then .ok (⟨maxlen, r.1.ec⟩, r.2)
    else .ok (⟨s.size, .ok⟩, r.2)

/-! ## the printer -/

/-- What the allocator answers to the n-th request for a number of bytes: the new block, or null. `realloc` is modelled as a new block into
which the printed bytes were copied. -/
abbrev Alloc := Nat → Nat → Option (List Byte)

/-- `tmp_memory_printer`, lines 1694-1712. `data` is the object `data` points to the first byte of; `calls` counts the requests. -/
structure Printer where
  data : List Byte
  size : Nat := 0
  necessary : Nat := 0
  capacity : Nat
  canGrow : Bool
  owns : Bool := false
  ec : Errc := .ok
  calls : Nat := 0
deriving DecidableEq, Repr

/-- `grow`, lines 1714-1741. A block may be greater than what was asked for (lines 1645-1656). -/
def grow (alloc : Alloc) (p : Printer) (by_ : Nat) : C (Printer × Bool) := do
  assert p.canGrow
  let capacity := 3 * ((p.capacity + 2) / 2)
  let capacity := if capacity < p.capacity + by_ then p.capacity + by_ else capacity
  match alloc p.calls capacity with
  | none => .ok ({ p with ec := .enomem, calls := p.calls + 1 }, false)
  | some block =>
    if p.size ≤ block.length then
      .ok ({ p with data := p.data.take p.size ++ block.drop p.size, capacity := block.length, owns := true, calls := p.calls + 1 }, true)
    else .error .oob

/-- `if (c && !grow(by_)) ...`: whether the code goes on, lines 1819, 1835, 1871, 1958. -/
def growIf (alloc : Alloc) (c : Bool) (p : Printer) (by_ : Nat) : C (Printer × Bool) := if c then grow alloc p by_ else .ok (p, true)

/-- `remaining`, lines 1742-1745. -/
def remaining (p : Printer) : C Nat := do
  assert (decide (p.size ≤ p.capacity))
  .ok (p.capacity - p.size)

/-- The functions `print_value` is used with: a buffer, a position in it, the room there. -/
abbrev Formatted := List Byte → Nat → Nat → C (ConvResult × List Byte)

/-- The loop of `print_value`, lines 1752-1773. `.inl b`: the function returns `b`. -/
def valueLoop (alloc : Alloc) (formatted : Formatted) : Nat → Printer → C (Printer × (Bool ⊕ ConvResult))
  | 0, _ => .error .diverge
  | fuel + 1, p => do
    let room ← remaining p
    let r ← formatted p.data p.size room
    let p := { p with data := r.2 }
    if r.1.ec = .ok then .ok (p, .inr r.1)
    else if r.1.ec = .eoverflow ∨ r.1.ec = .erange then
      if !p.canGrow then
        if r.1.ec = .erange then .ok ({ p with ec := .erange, necessary := p.necessary + r.1.size }, .inl true)
        else .ok (p, .inr r.1)
      else do
        let g ← grow alloc p (if r.1.ec = .erange then r.1.size - room else 0)
        if !g.2 then .ok (g.1, .inl false) else valueLoop alloc formatted fuel g.1
    else .ok ({ p with ec := r.1.ec }, .inl false)

/-- The end of `print_value`, lines 1784-1795, for a result `r` of the loop. `getSize` is `tmp_get_print_size`. -/
def valueEnd (getSize : Printer → C (ConvResult × Printer)) (p : Printer) (r : Errc) : C (Printer × Bool) :=
  if p.ec = .erange then do
    let n ← getSize p
    if n.1.ec ≠ .ok then .ok ({ n.2 with ec := n.1.ec }, false)
    else .ok ({ n.2 with necessary := n.2.necessary + n.1.size }, true)
  else .ok (p, decide (r = .ok))

/-- `print_value`, lines 1748-1796. The loop is left after at most 1000 iterations. -/
def printValue (alloc : Alloc) (formatted : Formatted) (getSize : Printer → C (ConvResult × Printer)) (p : Printer) : C (Printer × Bool) :=
  if p.ec = .ok then do
    match ← valueLoop alloc formatted 1000 p with
    | (p, .inl b) => .ok (p, b)
    | (p, .inr r) =>
      let p := if r.ec = .ok then { p with size := p.size + r.size, necessary := p.necessary + r.size }
        else if r.ec = .eoverflow then { p with ec := .erange }
        else { p with ec := r.ec }
      valueEnd getSize p r.ec
  else valueEnd getSize p .ok

/-- `tmp_get_print_size` for `bool`, lines 1673-1678. -/
def boolSize (f : PrintFormat) (value : Bool) (p : Printer) : C (ConvResult × Printer) :=
  .ok (⟨if f.boolAsNumber then 1 else if value then 4 else 5, .ok⟩, p)

/-- `tmp_get_print_size` for floating point numbers, lines 1680-1692. The contents of the local buffer are of no importance. -/
def floatSize (f : PrintFormat) (value : Double) (p : Printer) : C (ConvResult × Printer) :=
  if p.capacity < 200 then do
    let r ← formattedFloat (List.replicate 200 0) 0 200 f value
    .ok (r.1, p)
  else do
    let r ← formattedFloat p.data 0 p.capacity f value
    .ok (r.1, { p with data := r.2 })

/-- A `tm_size_t` converted to `int`, lines 1670, 2247 and 2249. -/
def toInt32 (n : Nat) : Int := (BitVec.ofNat 32 n).toInt

/-- `print_string_value`, lines 1797-1829. -/
def printStringValue (alloc : Alloc) (p : Printer) (str : List Byte) (f : PrintFormat) : C (Printer × Bool) :=
  if f.width > 0 ∧ toInt32 str.length < 0 then .ok ({ p with ec := .einval }, false)
  else do
    let strWidth := if f.width > 0 then (toInt32 str.length).toNat else str.length
    let needed := if f.width > 0 then str.length + (if f.width.toNat > strWidth then f.width.toNat - strWidth else 0) else str.length
    let p := { p with necessary := p.necessary + needed }
    if p.ec = .erange then .ok (p, true)
    else do
      let room ← remaining p
      if needed > room ∧ !p.canGrow then .ok ({ p with ec := .erange }, true)
      else do
        let g ← growIf alloc (decide (needed > room)) p (needed - room)
        if !g.2 then .ok (g.1, false)
        else do
          let p := g.1
          let room ← remaining p
          let r ← formattedString p.data p.size room f str strWidth
          if r.1.ec = .ok then .ok ({ p with data := r.2, size := p.size + r.1.size }, true)
          else .ok ({ p with data := r.2, ec := r.1.ec }, false)

/-- `print_unsigned`, lines 1831-1846. -/
def printUnsigned {w : Nat} (alloc : Alloc) (p : Printer) (value : BitVec w) (f : PrintFormat) (negative : Bool) : C (Printer × Bool) := do
  let s ← getPrintSizes value f negative
  let p := { p with necessary := p.necessary + s.size }
  let room ← remaining p
  if s.size > room ∧ !p.canGrow then .ok ({ p with ec := .erange }, true)
  else do
    let g ← growIf alloc (decide (s.size > room)) p s.size
    if !g.2 then .ok (g.1, decide (g.1.ec = .ok))
    else do
      let p := g.1
      let room ← remaining p
      let r ← formattedUnsigned p.data p.size room s f value negative
      assert (decide (r.1.ec = .ok))
      .ok ({ p with data := r.2, size := p.size + r.1.size }, decide (r.1.ec = .ok))

/-- `print_value` for `int32_t` and `int64_t`, lines 1847-1856. -/
def printSigned {w : Nat} (alloc : Alloc) (p : Printer) (value : BitVec w) (f : PrintFormat) : C (Printer × Bool) :=
  if value.slt 0 then
    if value = BitVec.intMin w then .error .overflow else printUnsigned alloc p (-value) f true
  else printUnsigned alloc p value f false

/-- An argument: what the `PrintValue` union, lines 422-442, holds. A C string is the object from its first char on, `none` the null pointer. -/
inductive Arg
  | char (c : Byte)
  | bool (b : Bool)
  | i32 (v : BitVec 32)
  | u32 (v : BitVec 32)
  | i64 (v : BitVec 64)
  | u64 (v : BitVec 64)
  | float (v : Double)
  | double (v : Double)
  | str (s : Option (List Byte))
  | view (s : List Byte)
deriving DecidableEq, Repr

/-- The `PrintType` of an argument, lines 377-390, 511-703. -/
def Arg.type : Arg → BitVec 64
  | .char _ => 1
  | .bool _ => 2
  | .i32 _ => 3
  | .u32 _ => 4
  | .i64 _ => 5
  | .u64 _ => 6
  | .float _ => 7
  | .double _ => 8
  | .str _ => 9
  | .view _ => 10

/-- `tmp_type_flags`, lines 511-703. -/
def typeFlags : List Arg → BitVec 64
  | [] => 0
  | a :: as => a.type ||| (typeFlags as <<< 4)

/-- `TM_STRLEN`, and the bytes it counts. -/
def cstring : List Byte → C (List Byte)
  | [] => .error .oob
  | 0 :: _ => .ok []
  | c :: cs => do
    let r ← cstring cs
    .ok (c :: r)

/-- A single character, lines 1864-1875. -/
def printChar (alloc : Alloc) (p : Printer) (c : Byte) : C (Printer × Bool) := do
  let p := { p with necessary := p.necessary + 1 }
  let room ← remaining p
  if room = 0 ∧ !p.canGrow then .ok ({ p with ec := .erange }, true)
  else do
    let g ← growIf alloc (decide (room = 0)) p 0
    if !g.2 then .ok (g.1, false)
    else do
      let p := g.1
      let data ← wr p.data p.size c
      .ok ({ p with data := data, size := p.size + 1 }, true)

/-- `operator()` for a value, lines 1861-1949. Reading a member of the union that the argument is not stored in is undefined. -/
def printArg (alloc : Alloc) (p : Printer) (type : BitVec 64) (a : Arg) (f : PrintFormat) : C (Printer × Bool) :=
  if type ≠ a.type then .error .invalid
  else match a with
  | .char c => if f.char then printChar alloc p c else printSigned alloc p (c.signExtend 32) f
  | .bool b => printValue alloc (fun buf dest maxlen => formattedBool buf dest maxlen f b) (boolSize f b) p
  | .i32 v => printSigned alloc p v f
  | .u32 v => printUnsigned alloc p v f false
  | .i64 v => printSigned alloc p v f
  | .u64 v => printUnsigned alloc p v f false
  | .float v => printValue alloc (fun buf dest maxlen => formattedFloat buf dest maxlen f v) (floatSize f v) p
  | .double v => printValue alloc (fun buf dest maxlen => formattedFloat buf dest maxlen f v) (floatSize f v) p
  | .str none => .error .assertion
  | .str (some s) => do
    let s ← cstring s
    printStringValue alloc p s f
  | .view s => printStringValue alloc p s f

/-- `operator()` for text, lines 1951-1968. -/
def printText (alloc : Alloc) (p : Printer) (str : List Byte) : C (Printer × Bool) := do
  let p := { p with necessary := p.necessary + str.length }
  let room ← remaining p
  if str.length > room ∧ !p.canGrow then .ok ({ p with ec := .erange }, true)
  else do
    let g ← growIf alloc (decide (str.length > room)) p str.length
    if !g.2 then .ok (g.1, false)
    else do
      let p := g.1
      let room ← remaining p
      let data ← memcpy p.data p.size (str.take room)
      .ok ({ p with data := data, size := p.size + min str.length room }, true)

/-! ## format strings -/

/-- `tmp_find`, lines 1971-1973: the position of `c` in `mem` between `first` and `last`. -/
def find (mem : List Byte) (first last : Nat) (c : Byte) : C (Option Nat) :=
  if last < first ∨ mem.length < last then .error .oob
  else .ok ((((mem.drop first).take (last - first)).findIdx? (· == c)).map (first + ·))

/-- `tmp_print_string_escaped`, lines 1975-1995. -/
def printEscaped (alloc : Alloc) (mem : List Byte) (last : Nat) : Nat → Nat → Printer → C (Printer × Bool)
  | 0, _, _ => .error .diverge
  | fuel + 1, first, p => do
    match ← find mem first last 125 with
    | some pos => do
      let r ← printText alloc p ((mem.drop first).take (pos + 1 - first))
      if !r.2 then .ok (r.1, false)
      else if pos + 1 ≥ last then .ok ({ r.1 with ec := .einval }, false)
      else do
        let c ← rd mem (pos + 1)
        if c ≠ 125 then .ok ({ r.1 with ec := .einval }, false)
        else printEscaped alloc mem last fuel (pos + 2) r.1
    | none =>
      if first < last then printText alloc p ((mem.drop first).take (last - first))
      else .ok (p, true)

/-- The flags of a format, lines 2073-2107: the position behind them, `flags` and `pound_specified`. -/
def parseFlags : List Byte → BitVec 32 → Bool → List Byte × BitVec 32 × Bool
  | [], flags, pound => ([], flags, pound)
  | c :: cs, flags, pound =>
    if c = 45 then parseFlags cs (flags ||| (1 <<< 9)) pound
    else if c = 43 then parseFlags cs (flags ||| (1 <<< 7)) pound
    else if c = 32 then parseFlags cs (flags ||| (1 <<< 14)) pound
    else if c = 35 then parseFlags cs flags true
    else if c = 48 then parseFlags cs (flags &&& ~~~(1 <<< 14 : BitVec 32)) pound
    else (c :: cs, flags, pound)

/-- The specifier at the end of a format, lines 2124-2215: base, flags and whether it was taken. -/
def parseSpecifier (c : Byte) (base : Int) (flags : BitVec 32) (pound : Bool) : Int × BitVec 32 × Bool :=
  let hex := if pound then (1 <<< 10 : BitVec 32) else 0
  let bin := if pound then (1 <<< 11 : BitVec 32) else 0
  let oct := if pound then (1 <<< 12 : BitVec 32) else 0
  if c = 120 then (16, flags ||| (1 <<< 6) ||| hex, true)
  else if c = 88 then (16, flags ||| hex, true)
  else if c = 111 then (8, flags ||| oct, true)
  else if c = 98 then (2, flags ||| (1 <<< 6) ||| bin, true)
  else if c = 66 then (2, flags ||| bin, true)
  else if c = 99 then (base, flags ||| (1 <<< 8), true)
  else if c = 101 then (base, flags ||| (1 <<< 6) ||| (1 <<< 1), true)
  else if c = 69 then (base, flags ||| (1 <<< 1), true)
  else if c = 102 then (base, flags ||| ((1 <<< 4) ||| (1 <<< 0)), true)
  else if c = 103 then (base, flags ||| (1 <<< 6) ||| ((1 <<< 0) ||| (1 <<< 1)) ||| (1 <<< 3), true)
  else if c = 71 then (base, flags ||| ((1 <<< 0) ||| (1 <<< 1)) ||| (1 <<< 3), true)
  else if c = 97 then (base, flags ||| (1 <<< 6) ||| (1 <<< 2) ||| hex, true)
  else if c = 65 then (base, flags ||| (1 <<< 2) ||| hex, true)
  else if c = 110 then (base, flags ||| (1 <<< 5), true)
  else (base, flags, false)

/-- A number in a format, lines 2110-2113 and 2118-2121: the rest of the text and the number as an `int`. -/
def parseNumber (s : List Byte) (default : Int) : C (List Byte × Int) := do
  let r ← scanUN 32 (some s) s.length (some (BitVec.ofInt 32 default)) 10
  .ok (if r.1.ec = .ok then s.drop r.1.size else s, (r.2.getD 0).toInt)

/-- The precision, lines 2116-2122: the rest of the text and the precision. -/
def parsePrecision (s : List Byte) : C (List Byte × Int) :=
  match s with
  | [] => .ok ([], 6)
  | c :: rest => if c = 46 then parseNumber rest 6 else .ok (c :: rest, 6)

/-- `tmp_parse_print_format`, lines 2058-2219. `s` is the text between `format_specifiers` and `last`. Returns the number of chars that were
understood and the format. -/
def parseFormat (s : List Byte) : C (Nat × PrintFormat) := do
  let a := parseFlags s (1 <<< 14) false
  let w ← parseNumber a.1 0
  let p ← parsePrecision w.1
  match p.1 with
  | [] => .ok (s.length, ⟨10, p.2, w.2, a.2.1⟩)
  | c :: rest =>
    let t := parseSpecifier c 10 a.2.1 a.2.2
    .ok (s.length - (rest.length + if t.2.2 then 0 else 1), ⟨t.1, p.2, w.2, t.2.1⟩)

/-- What follows the index, lines 1048-1051. -/
def parseColon (s : List Byte) (f : PrintFormat) : C PrintFormat :=
  match s with
  | [] => .ok f
  | c :: rest =>
    if c = 58 then do
      let r ← parseFormat rest
      .ok r.2
    else .ok f

/-- `tmp_parse_format_specifiers`, lines 1038-1054. `s` is the text from `p` to `end`. Returns `index_specified`, the format and the index. -/
def parseField (s : List Byte) (f : PrintFormat) (index : BitVec 32) : C (Bool × PrintFormat × BitVec 32) :=
  if s.length = 0 then .ok (false, f, index)
  else do
    let r ← scanUN 32 (some s) s.length (some index) 10
    let s := if r.1.ec = .ok then s.drop r.1.size else s
    let f ← parseColon s f
    .ok (decide (r.1.ec = .ok), f, r.2.getD 0)

/-- The loop of `tmp_print_impl`, lines 2007-2053. `mem` is the object the format string is in, `last` the length of the format string. If the
`'}'` that is found in line 2018 is before the field, the length in line 2028 wraps around and line 1041 forms a pointer outside of `mem`. -/
def implLoop (alloc : Alloc) (mem : List Byte) (last : Nat) (init : PrintFormat) (args : List Arg) :
    Nat → Nat → BitVec 32 → BitVec 64 → Printer → C Printer
  | 0, _, _, _, _ => .error .diverge
  | fuel + 1, first, index, types, p => do
    match ← find mem first last 123 with
    | none =>
      if first < last then do
        let r ← printEscaped alloc mem last (last + 1) first p
        .ok r.1
      else .ok p
    | some pos => do
      let r ← printEscaped alloc mem pos (last + 1) first p
      if !r.2 then .ok r.1
      else do
        let c ← rd mem (pos + 1)
        if c = 123 then do
          let r ← printText alloc r.1 [123]
          if !r.2 then .ok r.1 else implLoop alloc mem last init args fuel (pos + 2) index types r.1
        else do
          match ← find mem first last 125 with
          | none => .ok { r.1 with ec := .einval }
          | some next =>
            if next < pos + 1 then .error .oob
            else do
              let t ← parseField ((mem.drop (pos + 1)).take (next - (pos + 1))) { init with flags := init.flags &&& 0x3FFFF } index
              if t.2.2.toNat ≥ args.length then .ok { r.1 with ec := .einval }
              else do
                let type := if t.1 then (typeFlags args >>> (t.2.2.toNat * 4)) &&& 15 else types &&& 15
                if type = 0 ∨ 12 ≤ type.toNat then .ok { r.1 with ec := .einval }
                else do
                  let a ← rd args t.2.2.toNat
                  let r ← printArg alloc r.1 type a t.2.1
                  if !r.2 then .ok r.1
                  else implLoop alloc mem last init args fuel (next + 1) (if t.1 then index else index + 1) (if t.1 then types else types >>> 4) r.1

/-- `tmp_print_impl`, lines 1997-2054. -/
def printImpl (alloc : Alloc) (mem : List Byte) (last : Nat) (init : PrintFormat) (args : List Arg) (p : Printer) : C Printer :=
  implLoop alloc mem last init args (last + 1) 0 0 (typeFlags args) p

/-- The allocator of a printer that cannot grow: it is never asked. -/
def noAlloc : Alloc := fun _ _ => none

/-- Lines 2242-2246. -/
def terminate (p : Printer) (room len : Nat) : C (List Byte) :=
  if room ≠ 0 then wr p.data p.size 0 else if len > 0 then wr p.data (len - 1) 0 else .ok p.data

/-- `tmp_snprint`, lines 2233-2251. `dest` points to the first byte of `buf`. -/
def snprint (buf : List Byte) (len : Nat) (mem : List Byte) (last : Nat) (init : PrintFormat) (args : List Arg) : C (Int × List Byte) := do
  let p ← printImpl noAlloc mem last init args { data := buf, capacity := len, canGrow := false }
  if p.ec = .ok then do
    let room ← remaining p
    let data ← terminate p room len
    .ok (toInt32 p.size, data)
  else if p.ec = .erange then .ok (toInt32 p.necessary, p.data)
  else .ok (-1, p.data)

/-- `tmp_print`, lines 2222-2230: the error code and the bytes given to `fwrite`. `sbo` is the local buffer of 200 bytes. -/
def printFile (alloc : Alloc) (sbo : List Byte) (mem : List Byte) (last : Nat) (init : PrintFormat) (args : List Arg) : C (Errc × List Byte) := do
  let p ← printImpl alloc mem last init args { data := sbo, capacity := 200, canGrow := true }
  .ok (p.ec, p.data.take p.size)

/-- `tmp_string_format`, lines 2254-2267. -/
def stringFormat (alloc : Alloc) (mem : List Byte) (last : Nat) (init : PrintFormat) (args : List Arg) : C (List Byte) := do
  let p ← printImpl alloc mem last init args { data := [], capacity := 0, canGrow := true }
  .ok (if p.ec = .ok then p.data.take p.size else [])

end Tm.Fmt
