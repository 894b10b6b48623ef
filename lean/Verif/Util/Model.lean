import Verif.Basic

/-!
# Model of tm_utility.h

Simplifications: references are the values they refer to. `operator<` and comparison functors are functions without effects. `int` has
32 bits, `long long`, `size_t` and pointers have 64. Pointers are their numbers, or positions in a list of bytes.
-/

namespace Tm.Util

variable {α : Type}

/-! ## Minimum and maximum -/

/-- `min`, lines 176-178 and 195-197. -/
def min2 (lt : α → α → Bool) (a b : α) : α := if lt a b then a else b

/-- `max`, lines 180-182 and 199-201. -/
def max2 (lt : α → α → Bool) (a b : α) : α := if lt a b then b else a

/-- `min` of three, lines 185-187 and 204-206. -/
def min3 (lt : α → α → Bool) (a b c : α) : α := min2 lt a (min2 lt b c)

/-- `max` of three, lines 189-191 and 208-210. -/
def max3 (lt : α → α → Bool) (a b c : α) : α := max2 lt (max2 lt a b) c

/-- `minmax`, lines 219-221 and 224-226. -/
def minmax2 (lt : α → α → Bool) (a b : α) : α × α := if lt a b then (a, b) else (b, a)

/-- `minmax` of three with a functor, lines 240-248: line 244 uses `operator<`. The one without, lines 229-237, is `minmax3Comp lt lt`. -/
def minmax3Comp (lt comp : α → α → Bool) (a b c : α) : α × α :=
  let mm := minmax2 comp a c
  if comp b mm.1 then (b, mm.2)
  else if lt mm.2 b then (mm.1, b)
  else mm

/-- `minmax` of three, lines 229-237. -/
def minmax3 (lt : α → α → Bool) (a b c : α) : α × α :=
  let mm := minmax2 lt a c
  if lt b mm.1 then (b, mm.2)
  else if lt mm.2 b then (mm.1, b)
  else mm

/-- `median`, lines 251-259. (The one with a functor, lines 261-269, names a member that does not exist and does not compile.) -/
def median (lt : α → α → Bool) (a b c : α) : α :=
  let mm := minmax2 lt a b
  if lt mm.2 c then mm.2
  else if lt mm.1 c then c
  else mm.1

/-- `clamp`, lines 647-652, for values of one type; `a > b` is `b < a`. -/
def clamp (lt : α → α → Bool) (val lower upper : α) : α := if lt val lower then lower else if lt upper val then upper else val

/-! ## Powers of two and alignment -/

/-- `isPowerOfTwo`, line 287 for 32 and line 288 for 64 bits. -/
def isPowerOfTwo {w : Nat} (x : BitVec w) : Bool := x != 0 && x &&& (x - 1) == 0

/-- `isAligned`, lines 294-296. -/
def isAligned (p alignment : BitVec 64) : C Bool := if alignment = 0 then .error .divZero else .ok (p.umod alignment == 0)

/-- `getAlignmentOffset`, lines 720-725. -/
def getAlignmentOffset (ptr alignment : BitVec 64) : C (BitVec 64) := do
  assert (alignment ≠ 0 && isPowerOfTwo alignment)
  let alignmentOffset := (alignment - ptr) &&& (alignment - 1)
  let aligned ← isAligned (ptr + alignmentOffset) alignment
  assert aligned
  .ok alignmentOffset

/-! ## Mapping to a range -/

/-- The value of an `int` expression, unless it overflows. -/
def int (x : Int) : C Int := if -2 ^ 31 ≤ x ∧ x < 2 ^ 31 then .ok x else .error .overflow

/-- `mapToRange`, lines 423-437, for 64 bit architectures. The arguments are values of type `int`. The conversion to `int` of a number
that does not fit is taken modulo 2^32. -/
def mapToRange (value min max : Int) : C Int := do
  let range ← int (max - min)
  let product : BitVec 64 := (BitVec.ofInt 32 value).setWidth 64 * (BitVec.ofInt 32 range).setWidth 64
  int (((product >>> 32).setWidth 32).toInt + min)

/-- `mapToRange`, lines 423-437, for 32 bit architectures. -/
def mapToRange32 (value min max : Int) : C Int := do
  let range ← int (max - min)
  if range = 0 then .error .divZero
  else do
    let rest ← int (Int.tdiv value range)
    int (value - rest * range + min)

/-! ## Byte order -/

/-- `swapEndian` of 16 bits, lines 486-490; lines 481-485 are the same for `short`. The operands are promoted to `int`, whose lower 16
bits are the result. -/
def swapEndian16 (val : BitVec 16) : BitVec 16 := ((val &&& 0x00ff) <<< 8) ||| ((val &&& 0xff00) >>> 8)

/-- `swapEndian` of 32 bits, lines 497-502; lines 491-496 are the same for `int`, lines 729-732 for `float`. -/
def swapEndian32 (val : BitVec 32) : BitVec 32 :=
  ((val &&& 0x000000FF) <<< 24) ||| ((val &&& 0x0000FF00) <<< 8) ||| ((val &&& 0x00FF0000) >>> 8) ||| ((val &&& 0xFF000000) >>> 24)

/-- `swapEndian` of 64 bits, lines 511-518; lines 503-510 are the same for `long long`, lines 733-736 for `double`. -/
def swapEndian64 (val : BitVec 64) : BitVec 64 :=
  ((val &&& 0x00000000000000FF) <<< 56) ||| ((val &&& 0x000000000000FF00) <<< 40) |||
  ((val &&& 0x0000000000FF0000) <<< 24) ||| ((val &&& 0x00000000FF000000) <<< 8) |||
  ((val &&& 0x000000FF00000000) >>> 8) ||| ((val &&& 0x0000FF0000000000) >>> 24) |||
  ((val &&& 0x00FF000000000000) >>> 40) ||| ((val &&& 0xFF00000000000000) >>> 56)

/-! ## Memory -/

/-- `fill`, lines 669-674, from the index `dest` on. -/
def fill (value : α) : Nat → List α → Nat → C (List α)
  | _, mem, 0 => .ok mem
  | dest, mem, count + 1 => do
    let mem ← wr mem dest value
    fill value (dest + 1) mem count

/-- `memcmp` of two ranges of a memory that are equal or not. -/
def memEqual (mem : List Byte) (a b : Nat) : Nat → C Bool
  | 0 => .ok true
  | n + 1 => do
    let x ← rd mem a
    let y ← rd mem b
    if x = y then memEqual mem (a + 1) (b + 1) n else .ok false

/-- `isMemoryZero`, lines 684-688. `ptr` is not null. -/
def isMemoryZero (mem : List Byte) (ptr size : Nat) : C Bool := do
  assert (size ≠ 0)
  let x ← rd mem ptr
  if x = 0 then memEqual mem ptr (ptr + 1) (size - 1) else .ok false

/-! ## Characters -/

/-- `toupper`, lines 578-580. -/
def toUpper (cp : BitVec 32) : BitVec 32 := if 0x61 ≤ cp && cp ≤ 0x7A then 0x41 + (cp - 0x61) else cp

/-- `tolower`, lines 581-583. -/
def toLower (cp : BitVec 32) : BitVec 32 := if 0x41 ≤ cp && cp ≤ 0x5A then 0x61 + (cp - 0x41) else cp

end Tm.Util
