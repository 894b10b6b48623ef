import Verif.Basic
/-!
# Model of tm_uint128.h (portable backend `TMI_BACKEND_UINT64`)

The struct has two `uint64_t` halves. `tmi_uint128_t_arg` is passed by value or const pointer depending on
`TMI_PASS_BY_POINTER`; the model passes values (`TMI_LOW`/`TMI_HIGH`/`TMI_DEREF`/`TMI_PASS` disappear).
The fallback implementations (`TMI_NO_MUL128`, `TMI_NO_SHIFT128`, `TMI_NO_FLS32`, ...) are modelled, not the compiler
intrinsics that may replace them.
-/

namespace Tm.U128

/-- tm_uint128.h `tmi_uint128_t` (UINT64 backend): `struct { uint64_t low; uint64_t high; }`. -/
structure U128 where
  low : BitVec 64
  high : BitVec 64
deriving DecidableEq, Repr

/-- tm_uint128.h:870-875 `tmi_make`. -/
def make (low high : BitVec 64) : U128 := ⟨low, high⟩
/-- tm_uint128.h:877-882 `tmi_make_low`. -/
def makeLow (low : BitVec 64) : U128 := ⟨low, 0⟩
/-- tm_uint128.h:883-888 `tmi_make_high`. -/
def makeHigh (high : BitVec 64) : U128 := ⟨0, high⟩

/-- tm_uint128.h:889-900 `tmi_make_bitmask`. -/
def makeBitmask (pos : BitVec 64) : C U128 := do
  assert (pos < 128)
  if pos ≥ 64 then
    let h ← shl (1 : BitVec 64) (pos - 64).toNat
    return ⟨0, h⟩
  else
    let l ← shl (1 : BitVec 64) pos.toNat
    return ⟨l, 0⟩

/-- tm_uint128.h:903-908 `tmi_internal_add64`: sum with carry flag in `high`. -/
def internalAdd64 (lhs rhs : BitVec 64) : U128 :=
  let low := lhs + rhs
  ⟨low, b2u (low < lhs)⟩

/-- tm_uint128.h:909-914 `tmi_internal_sub64`: difference with borrow flag in `high`. -/
def internalSub64 (lhs rhs : BitVec 64) : U128 :=
  let low := lhs - rhs
  ⟨low, b2u (low > lhs)⟩

/-- tm_uint128.h:916-921 `tmi_add`. -/
def add (lhs rhs : U128) : U128 :=
  let r := internalAdd64 lhs.low rhs.low
  { r with high := lhs.high + rhs.high + r.high }

/-- tm_uint128.h:922-927 `tmi_sub`. -/
def sub (lhs rhs : U128) : U128 :=
  let r := internalSub64 lhs.low rhs.low
  { r with high := lhs.high - rhs.high - r.high }

/-- tm_uint128.h:929-934 `tmi_add_u64`. -/
def addU64 (lhs : U128) (rhs : BitVec 64) : U128 :=
  let r := internalAdd64 lhs.low rhs
  { r with high := lhs.high + r.high }

/-- tm_uint128.h:935-940 `tmi_sub_u64`. -/
def subU64 (lhs : U128) (rhs : BitVec 64) : U128 :=
  let r := internalSub64 lhs.low rhs
  { r with high := lhs.high - r.high }

/-- tm_uint128.h:1221-1241 `tmi_internal_mul64`: full 64x64 product from four 32x32 products. -/
def internalMul64 (lhs rhs : BitVec 64) : U128 :=
  let lhsLow := lhs &&& 0xFFFFFFFF
  let lhsHigh := lhs >>> 32
  let rhsLow := rhs &&& 0xFFFFFFFF
  let rhsHigh := rhs >>> 32
  let lowLow := lhsLow * rhsLow
  let lowHigh := lhsLow * rhsHigh + (lowLow >>> 32)
  let highLow := lhsHigh * rhsLow
  let highHigh := lhsHigh * rhsHigh + (highLow >>> 32)
  let a := lowLow &&& 0xFFFFFFFF
  let b := lowHigh + (highLow &&& 0xFFFFFFFF)
  let c := highHigh + (b >>> 32)
  let b := b <<< 32
  ⟨a ||| b, c⟩

/-- tm_uint128.h:944-949 `tmi_mul`. -/
def mul (lhs rhs : U128) : U128 :=
  let r := internalMul64 lhs.low rhs.low
  let r := { r with high := r.high + lhs.low * rhs.high }
  { r with high := r.high + lhs.high * rhs.low }

/-- tm_uint128.h:950-954 `tmi_mul_u64`. -/
def mulU64 (lhs : U128) (rhs : BitVec 64) : U128 :=
  let r := internalMul64 lhs.low rhs
  { r with high := r.high + lhs.high * rhs }

/-- tm_uint128.h:958-963 `tmi_and`. -/
def and (lhs rhs : U128) : U128 := ⟨lhs.low &&& rhs.low, lhs.high &&& rhs.high⟩
/-- tm_uint128.h:964-969 `tmi_or`. -/
def or (lhs rhs : U128) : U128 := ⟨lhs.low ||| rhs.low, lhs.high ||| rhs.high⟩
/-- tm_uint128.h:970-975 `tmi_xor`. -/
def xor (lhs rhs : U128) : U128 := ⟨lhs.low ^^^ rhs.low, lhs.high ^^^ rhs.high⟩
/-- tm_uint128.h:976-981 `tmi_not`. -/
def not (v : U128) : U128 := ⟨~~~v.low, ~~~v.high⟩

/-- tm_uint128.h:993-1008 `tmi_shl_u64`. -/
def shlU64 (lhs : U128) (amount : BitVec 64) : C U128 := do
  assert (amount < 128)
  if amount = 0 then return lhs
  if amount ≥ 64 then
    let h ← shl lhs.low (amount - 64).toNat
    return ⟨0, h⟩
  else
    let overflowMask ← shr lhs.low (64 - amount).toNat
    let l ← shl lhs.low amount.toNat
    let h ← shl lhs.high amount.toNat
    return ⟨l, h ||| overflowMask⟩

/-- tm_uint128.h:1009-1024 `tmi_shr_u64`. -/
def shrU64 (lhs : U128) (amount : BitVec 64) : C U128 := do
  assert (amount < 128)
  if amount = 0 then return lhs
  if amount ≥ 64 then
    let l ← shr lhs.high (amount - 64).toNat
    return ⟨l, 0⟩
  else
    let overflowMask ← shl lhs.high (64 - amount).toNat
    let l ← shr lhs.low amount.toNat
    let h ← shr lhs.high amount.toNat
    return ⟨l ||| overflowMask, h⟩

/-- tm_uint128.h:983-986 `tmi_shl`. -/
def shl128 (lhs rhs : U128) : C U128 := do
  assert (rhs.high = 0 && rhs.low < 128)
  shlU64 lhs rhs.low

/-- tm_uint128.h:987-990 `tmi_shr`. -/
def shr128 (lhs rhs : U128) : C U128 := do
  assert (rhs.high = 0 && rhs.low < 128)
  shrU64 lhs rhs.low

/-- tm_uint128.h:1027-1036 `tmi_set_bit` (this backend does not assert `bit_position < 128`; an
oversized position is an oversized shift). -/
def setBit (v : U128) (pos : BitVec 64) : C U128 := do
  if pos ≥ 64 then
    let m ← shl (1 : BitVec 64) (pos - 64).toNat
    return { v with high := v.high ||| m }
  else
    let m ← shl (1 : BitVec 64) pos.toNat
    return { v with low := v.low ||| m }

/-- tm_uint128.h:1215 `tmi_one`. -/
def one : U128 := ⟨1, 0⟩
/-- tm_uint128.h:1216 `tmi_zero`. -/
def zero : U128 := ⟨0, 0⟩
/-- tm_uint128.h:1217 `tmi_max`. -/
def max : U128 := ⟨0xFFFFFFFFFFFFFFFF, 0xFFFFFFFFFFFFFFFF⟩

/-- tm_uint128.h:1147-1149 `tmi_lt`. -/
def lt (lhs rhs : U128) : Bool := if lhs.high = rhs.high then lhs.low < rhs.low else lhs.high < rhs.high
/-- tm_uint128.h:1150-1152 `tmi_lte`. -/
def lte (lhs rhs : U128) : Bool := if lhs.high = rhs.high then lhs.low ≤ rhs.low else lhs.high < rhs.high
/-- tm_uint128.h:1153-1155 `tmi_gt`. -/
def gt (lhs rhs : U128) : Bool := if lhs.high = rhs.high then lhs.low > rhs.low else lhs.high > rhs.high
/-- tm_uint128.h:1156-1158 `tmi_gte`. -/
def gte (lhs rhs : U128) : Bool := if lhs.high = rhs.high then lhs.low ≥ rhs.low else lhs.high > rhs.high
/-- tm_uint128.h:1159-1161 `tmi_eq`. -/
def eq (lhs rhs : U128) : Bool := lhs.low = rhs.low && lhs.high = rhs.high
/-- tm_uint128.h:1162-1168 `tmi_cmp`. -/
def cmp (lhs rhs : U128) : Int :=
  if lhs.high < rhs.high then -1
  else if lhs.high > rhs.high then 1
  else if lhs.low < rhs.low then -1
  else if lhs.low > rhs.low then 1
  else 0

/-- tm_uint128.h:1170 `tmi_is_zero`. -/
def isZero (v : U128) : Bool := v.low = 0 && v.high = 0
/-- tm_uint128.h:1171 `tmi_is_not_zero`. -/
def isNotZero (v : U128) : Bool := v.low ≠ 0 || v.high ≠ 0
/-- tm_uint128.h:1172-1176 `tmi_is_bit_set`. -/
def isBitSet (v : U128) (pos : BitVec 64) : C Bool := do
  assert (pos < 128)
  if pos ≥ 64 then
    let m ← shl (1 : BitVec 64) (pos - 64).toNat
    return v.high &&& m ≠ 0
  else
    let m ← shl (1 : BitVec 64) pos.toNat
    return v.low &&& m ≠ 0

/-- tm_uint128.h:1135-1139 `tmi_inc`. -/
def inc (v : U128) : U128 :=
  let r := internalAdd64 v.low 1
  { r with high := v.high + r.high }
/-- tm_uint128.h:1141-1145 `tmi_dec`. -/
def dec (v : U128) : U128 :=
  let r := internalSub64 v.low 1
  { r with high := v.high - r.high }

/-- tm_uint128.h:1393-1395, lookup table of `tmi_fls_u32`. -/
def flsTable : List Nat :=
  [0, 9, 1, 10, 13, 21, 2, 29, 11, 14, 16, 18, 22, 25, 3, 30, 8, 12, 20, 28, 15, 17, 24, 7, 19, 27, 23, 6, 26, 5, 4, 31]

/-- tm_uint128.h:1397-1401, smear the highest set bit to the right. -/
def smear (v : BitVec 32) : BitVec 32 :=
  let v := v ||| (v >>> 1)
  let v := v ||| (v >>> 2)
  let v := v ||| (v >>> 4)
  let v := v ||| (v >>> 8)
  v ||| (v >>> 16)

/-- tm_uint128.h:1390-1404 `tmi_fls_u32` (De Bruijn fallback). -/
def flsU32 (v : BitVec 32) : C Nat := do
  assert (v ≠ 0)
  rd flsTable ((smear v * 0x07C4ACDD) >>> 27).toNat

/-- tm_uint128.h:1411-1413, lookup table of `tmi_ffs_u32`. -/
def ffsTable : List Nat :=
  [0, 1, 28, 2, 29, 14, 24, 3, 30, 22, 20, 15, 25, 17, 4, 8, 31, 27, 13, 23, 21, 19, 16, 7, 26, 12, 18, 6, 11, 5, 10, 9]

/-- tm_uint128.h:1408-1415 `tmi_ffs_u32` (De Bruijn fallback). -/
def ffsU32 (v : BitVec 32) : C Nat := do
  assert (v ≠ 0)
  rd ffsTable (((v &&& (~~~(v - 1))) * 0x077CB531) >>> 27).toNat

/-- tm_uint128.h:1419-1425 `tmi_popcount_u32`. -/
def popcountU32 (v : BitVec 32) : Nat :=
  let v := v - ((v >>> 1) &&& 0x55555555)
  let v := (v &&& (0x33333333 : BitVec 32)) + ((v >>> 2) &&& (0x33333333 : BitVec 32))
  let v := (v + (v >>> 4)) &&& 0x0F0F0F0F
  ((v * 0x01010101) >>> 24).toNat

/-- tm_uint128.h:1429-1435 `tmi_popcount_u64`. -/
def popcountU64 (v : BitVec 64) : Nat :=
  let v := v - ((v >>> 1) &&& 0x5555555555555555)
  let v := (v &&& (0x3333333333333333 : BitVec 64)) + ((v >>> 2) &&& (0x3333333333333333 : BitVec 64))
  let v := (v + (v >>> 4)) &&& 0x0F0F0F0F0F0F0F0F
  ((v * 0x0101010101010101) >>> 56).toNat

/-- tm_uint128.h:1439-1443 `tmi_fls_u64` (results are small, so they are modelled as `Nat`). -/
def flsU64 (v : BitVec 64) : C Nat :=
  let high : BitVec 32 := (v >>> 32).setWidth 32
  if high ≠ 0 then do return (← flsU32 high) + 32
  else flsU32 (v.setWidth 32)

/-- tm_uint128.h:1447-1451 `tmi_ffs_u64`. -/
def ffsU64 (v : BitVec 64) : C Nat :=
  let low : BitVec 32 := (v &&& 0xFFFFFFFF).setWidth 32
  if low ≠ 0 then ffsU32 low
  else do return (← ffsU32 ((v >>> 32).setWidth 32)) + 32

/-- tm_uint128.h:1181-1184 `tmi_fls`. -/
def fls (v : U128) : C Nat :=
  if v.high ≠ 0 then do return (← flsU64 v.high) + 64
  else flsU64 v.low

/-- tm_uint128.h:1185-1188 `tmi_ffs`. -/
def ffs (v : U128) : C Nat :=
  if v.low ≠ 0 then ffsU64 v.low
  else do return (← ffsU64 v.high) + 64

/-- tm_uint128.h:1189-1191 `tmi_popcount`. -/
def popcount (v : U128) : Nat := popcountU64 v.low + popcountU64 v.high

/-- tm_uint128.h:1454-1457 `tmi_fls_s`. -/
def flsS (v : U128) : C Int := if isZero v then .ok (-1) else do return Int.ofNat (← fls v)
/-- tm_uint128.h:1458-1461 `tmi_fls_u32_s`. -/
def flsU32S (v : BitVec 32) : C Int := if v = 0 then .ok (-1) else do return Int.ofNat (← flsU32 v)
/-- tm_uint128.h:1462-1465 `tmi_fls_u64_s`. -/
def flsU64S (v : BitVec 64) : C Int := if v = 0 then .ok (-1) else do return Int.ofNat (← flsU64 v)
/-- tm_uint128.h:1466-1469 `tmi_ffs_s`. -/
def ffsS (v : U128) : C Int := if isZero v then .ok (-1) else do return Int.ofNat (← ffs v)
/-- tm_uint128.h:1470-1473 `tmi_ffs_u32_s`. -/
def ffsU32S (v : BitVec 32) : C Int := if v = 0 then .ok (-1) else do return Int.ofNat (← ffsU32 v)
/-- tm_uint128.h:1474-1477 `tmi_ffs_u64_s`. -/
def ffsU64S (v : BitVec 64) : C Int := if v = 0 then .ok (-1) else do return Int.ofNat (← ffsU64 v)

/-- tm_uint128.h:1193-1213 `tmi_to_bytes` (little endian). -/
def toBytes (v : U128) : List (BitVec 8) :=
  [((v.low >>> 0) &&& 0xFF).setWidth 8, ((v.low >>> 8) &&& 0xFF).setWidth 8,
   ((v.low >>> 16) &&& 0xFF).setWidth 8, ((v.low >>> 24) &&& 0xFF).setWidth 8,
   ((v.low >>> 32) &&& 0xFF).setWidth 8, ((v.low >>> 40) &&& 0xFF).setWidth 8,
   ((v.low >>> 48) &&& 0xFF).setWidth 8, ((v.low >>> 56) &&& 0xFF).setWidth 8,
   ((v.high >>> 0) &&& 0xFF).setWidth 8, ((v.high >>> 8) &&& 0xFF).setWidth 8,
   ((v.high >>> 16) &&& 0xFF).setWidth 8, ((v.high >>> 24) &&& 0xFF).setWidth 8,
   ((v.high >>> 32) &&& 0xFF).setWidth 8, ((v.high >>> 40) &&& 0xFF).setWidth 8,
   ((v.high >>> 48) &&& 0xFF).setWidth 8, ((v.high >>> 56) &&& 0xFF).setWidth 8]

/-- tm_uint128.h:1069-1074, one pass of the `for (;;)` loop of `tmi_divmod` at bit index `i`, up to the test `!i`. -/
def divmodBody (lhs rhs : U128) (i : Nat) (div mod : U128) : C (U128 × U128) := do
  let bit ← isBitSet lhs (BitVec.ofNat 64 i)
  let mod := { mod with low := mod.low ||| b2u bit }
  if gte mod rhs then
    let div ← setBit div (BitVec.ofNat 64 i)
    return (div, sub mod rhs)
  else return (div, mod)

/-- tm_uint128.h:1079-1080, the inlined shift of `mod` by one bit. -/
def shl1 (mod : U128) : U128 := ⟨mod.low <<< 1, (mod.high <<< 1) ||| (mod.low >>> 63)⟩

/-- tm_uint128.h:1068-1081, the `for (;;)` loop of `tmi_divmod` at bit index `i`; `div`/`mod` are the members of `result`. -/
def divmodLoop (lhs rhs : U128) : Nat → U128 → U128 → C (U128 × U128)
  | 0, div, mod => divmodBody lhs rhs 0 div mod
  | i + 1, div, mod => do
    let (div, mod) ← divmodBody lhs rhs (i + 1) div mod
    divmodLoop lhs rhs i div (shl1 mod)

/-- tm_uint128.h:1038-1085 `tmi_divmod`; returns (div, mod). The `rhs == 1` case (1043-1047) has no `else`, so its
assignments are always overwritten by the following chain; it has no effect. -/
def divmod (lhs rhs : U128) : C (U128 × U128) := do
  assert (isNotZero rhs)
  if rhs.high = 0 && rhs.low = 2 then
    let d ← shr128 lhs one
    let m ← isBitSet lhs 0
    return (d, ⟨b2u m, 0⟩)
  else if eq lhs rhs then return (one, zero)
  else if lt lhs rhs then return (zero, lhs)
  else
    let i ← fls lhs
    divmodLoop lhs rhs i zero zero

/-- tm_uint128.h:1117-1122, one pass of the loop of `tmi_divmod_u64`, up to the test `!i`. -/
def divmodU64Body (lhs : U128) (rhs : BitVec 64) (i : Nat) (div mod : U128) : C (U128 × U128) := do
  let bit ← isBitSet lhs (BitVec.ofNat 64 i)
  let mod := { mod with low := mod.low ||| b2u bit }
  if mod.high ≠ 0 || mod.low ≥ rhs then
    let div ← setBit div (BitVec.ofNat 64 i)
    return (div, subU64 mod rhs)
  else return (div, mod)

/-- tm_uint128.h:1116-1129, the loop of `tmi_divmod_u64`. -/
def divmodU64Loop (lhs : U128) (rhs : BitVec 64) : Nat → U128 → U128 → C (U128 × U128)
  | 0, div, mod => divmodU64Body lhs rhs 0 div mod
  | i + 1, div, mod => do
    let (div, mod) ← divmodU64Body lhs rhs (i + 1) div mod
    divmodU64Loop lhs rhs i div (shl1 mod)

/-- tm_uint128.h:1086-1133 `tmi_divmod_u64`; the `rhs == 1` case has no effect as in `divmod`. -/
def divmodU64 (lhs : U128) (rhs : BitVec 64) : C (U128 × U128) := do
  assert (rhs ≠ 0)
  if rhs = 2 then
    let d ← shr128 lhs one
    let m ← isBitSet lhs 0
    return (d, ⟨b2u m, 0⟩)
  else if lhs.high = 0 && lhs.low = rhs then return (one, zero)
  else if lhs.high = 0 && lhs.low < rhs then return (zero, lhs)
  else
    let i ← fls lhs
    divmodU64Loop lhs rhs i zero zero

/-- tm_uint128.h:956 `tmi_div`. -/
def div (lhs rhs : U128) : C U128 := do return (← divmod lhs rhs).1
/-- tm_uint128.h:957 `tmi_mod`. -/
def mod (lhs rhs : U128) : C U128 := do return (← divmod lhs rhs).2

end Tm.U128
