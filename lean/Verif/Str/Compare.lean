import Verif.Str.Find

/-!
# Model of the comparison functions of `tm_stringutil.h`

Conventions as in `Verif.Str.Find`; `tmsu_compare_ignore_case_ansi_n` is defined there. All lines refer to
`tm_stringutil.h`.
-/

namespace Tm.Str

/-- `tmsu_compare`, lines 1070-1082 (`TM_STRCMP` is `strcmp` by default). -/
def compareZ (mem : List Byte) (a b : Nat) : C Int := strcmp mem a b

/-- Loop of `tmsu_compare_ignore_case_ansi` and its final `return`, lines 1089-1093. -/
def compareIgnoreCaseZL : List Byte → List Byte → C Int
  | x :: xs, y :: ys =>
    if x ≠ 0 ∧ y ≠ 0 ∧ toupper x = toupper y then compareIgnoreCaseZL xs ys
    else .ok (((toupper y).toNat : Int) - (toupper x).toNat)
  | _, _ => .error .oob

/-- `tmsu_compare_ignore_case_ansi`, lines 1083-1095, in the configuration without `TM_STRICMP`, that is everywhere
except on Windows (lines 76-80). -/
def compareIgnoreCaseZ (mem : List Byte) (a b : Nat) : C Int := compareIgnoreCaseZL (mem.drop a) (mem.drop b)

/-- `tmsu_compare_n`, lines 1097-1119. -/
def compareN (mem : List Byte) (a alast b blast : Nat) : C Int := do
  assert (a ≤ alast)
  assert (b ≤ blast)
  let alen ← distance a alast
  let blen ← distance b blast
  if alen = 0 ∨ blen = 0 then .ok (compareEmpty alen blen)
  else if a = b then .ok (compareLen alen blen)
  else do
    let d ← memcmp mem a b (if alen < blen then alen else blen)
    if d ≠ 0 then .ok d else .ok (compareLen alen blen)

/-- `tmsu_isdigit`, line 1290. -/
def isdigit (c : Byte) : Bool := decide (48 ≤ c.toNat) && decide (c.toNat ≤ 57)

/-- A value of type `int`, or signed overflow. -/
def toInt32 (v : Int) : C Int := if -2147483648 ≤ v ∧ v ≤ 2147483647 then .ok v else .error .overflow

/-- Loop of `tmsu_human_parse_and_advance`, lines 1159-1163; `n` is `last - p`. Returns `result` and `p`. -/
def humanDigits (mem : List Byte) : Int → Nat → Nat → C (Int × Nat)
  | result, p, 0 => .ok (result, p)
  | result, p, n + 1 => do
    let x ← rd mem p
    if isdigit x then do
      let t ← toInt32 (result * 10)
      let r ← toInt32 (t + ((x.toNat : Int) - 48))
      humanDigits mem r (p + 1) n
    else .ok (result, p)

/-- `tmsu_human_parse_and_advance`, lines 1150-1165: the returned value and the new `*str`. -/
def humanParse (mem : List Byte) (p last : Nat) : C (Int × Nat) := do
  assert (p ≠ last)
  let x ← rd mem p
  if isdigit x = false then .ok ((toupper x).toNat, p + 1)
  else do
    let (result, q) ← humanDigits mem 0 p (last - p)
    let r ← toInt32 (result + 256)
    .ok (r, q)

/-- Loop of `tmsu_human_compare_ansi_n`, lines 1181-1186; zero when it ends without a difference. -/
def humanLoop (mem : List Byte) (alast blast : Nat) : Nat → Nat → Nat → C Int
  | 0, _, _ => .error .diverge
  | fuel + 1, a, b =>
    if a ≠ alast ∧ b ≠ blast then do
      let (x, a) ← humanParse mem a alast
      let (y, b) ← humanParse mem b blast
      let diff ← toInt32 (x - y)
      if diff ≠ 0 then .ok diff else humanLoop mem alast blast fuel a b
    else .ok 0

/-- `tmsu_human_compare_ansi_n`, lines 1167-1191. -/
def humanCompareN (mem : List Byte) (a alast b blast : Nat) : C Int := do
  assert (a ≤ alast)
  assert (b ≤ blast)
  let alen ← distance a alast
  let blen ← distance b blast
  if alen = 0 ∨ blen = 0 then .ok (compareEmpty alen blen)
  else if a = b then .ok (compareLen alen blen)
  else do
    let d ← humanLoop mem alast blast (alen + 1) a b
    if d ≠ 0 then .ok d else .ok (compareLen alen blen)

/-- `tmsu_equals_n`, lines 1193-1198. -/
def equalsN (mem : List Byte) (a alast b blast : Nat) : C Bool := do
  let alen ← distance a alast
  let blen ← distance b blast
  if alen ≠ blen then .ok false
  else do
    let k ← memcmp mem a b alen
    .ok (k = 0)

/-- Loop of `tmsu_equals_ignore_case_ansi_n`, lines 1204-1209. -/
def equalsIgnoreCaseL (mem : List Byte) : Nat → Nat → Nat → C Bool
  | _, _, 0 => .ok true
  | a, b, n + 1 => do
    let x ← rd mem a
    let y ← rd mem b
    if toupper x ≠ toupper y then .ok false else equalsIgnoreCaseL mem (a + 1) (b + 1) n

/-- `tmsu_equals_ignore_case_ansi_n`, lines 1199-1210. -/
def equalsIgnoreCaseN (mem : List Byte) (a alast b blast : Nat) : C Bool := do
  let alen ← distance a alast
  let blen ← distance b blast
  if alen ≠ blen then .ok false
  else equalsIgnoreCaseL mem a b alen

/-- `tmsu_starts_with`, lines 1212-1218. -/
def startsWith (mem : List Byte) (str find : Nat) : C Bool := do
  let n ← strlen mem find
  let k ← strncmp mem str find n
  .ok (k = 0)

/-- `tmsu_starts_with_n`, lines 1226-1236. -/
def startsWithN (mem : List Byte) (first last ffirst flast : Nat) : C Bool := do
  assert (first ≤ last)
  assert (ffirst ≤ flast)
  let len ← distance first last
  let flen ← distance ffirst flast
  if len < flen then .ok false
  else do
    let k ← memcmp mem first ffirst flen
    .ok (k = 0)

/-- `tmsu_ends_with_n`, lines 1237-1248. -/
def endsWithN (mem : List Byte) (first last ffirst flast : Nat) : C Bool := do
  assert (first ≤ last)
  assert (ffirst ≤ flast)
  let len ← distance first last
  let flen ← distance ffirst flast
  if len < flen then .ok false
  else do
    let k ← memcmp mem (last - flen) ffirst flen
    .ok (k = 0)

/-- `tmsu_ends_with`, lines 1219-1224. -/
def endsWith (mem : List Byte) (str find : Nat) : C Bool := do
  let n ← strlen mem str
  let m ← strlen mem find
  endsWithN mem str (str + n) find (find + m)

/-- `tmsu_starts_with_ignore_case_ansi_n`, lines 1264-1274. -/
def startsWithIgnoreCaseN (mem : List Byte) (first last ffirst flast : Nat) : C Bool := do
  assert (first ≤ last)
  assert (ffirst ≤ flast)
  let len ← distance first last
  let flen ← distance ffirst flast
  if len < flen then .ok false
  else do
    let k ← compareIgnoreCaseN mem first (first + flen) ffirst flast
    .ok (k = 0)

/-- `tmsu_ends_with_ignore_case_ansi_n`, lines 1275-1286. -/
def endsWithIgnoreCaseN (mem : List Byte) (first last ffirst flast : Nat) : C Bool := do
  assert (first ≤ last)
  assert (ffirst ≤ flast)
  let len ← distance first last
  let flen ← distance ffirst flast
  if len < flen then .ok false
  else do
    let k ← compareIgnoreCaseN mem (last - flen) last ffirst flast
    .ok (k = 0)

/-- `tmsu_ends_with_ignore_case_ansi`, lines 1257-1262. -/
def endsWithIgnoreCase (mem : List Byte) (str find : Nat) : C Bool := do
  let n ← strlen mem str
  let m ← strlen mem find
  endsWithIgnoreCaseN mem str (str + n) find (find + m)

/-- Loop of `tmsu_stricmp` and its final `return`, lines 1300-1311. -/
def stricmpL : List Byte → List Byte → C Int
  | x :: xs, y :: ys =>
    if x ≠ 0 ∧ y ≠ 0 then
      if toupper x ≠ toupper y then .ok (((toupper x).toNat : Int) - (toupper y).toNat) else stricmpL xs ys
    else .ok (((toupper x).toNat : Int) - (toupper y).toNat)
  | _, _ => .error .oob

/-- `tmsu_stricmp`, lines 1299-1312. -/
def stricmp (mem : List Byte) (a b : Nat) : C Int := stricmpL (mem.drop a) (mem.drop b)

/-- The part of `tmsu_strnicmp` after its loop, lines 1323-1328; `x` and `y` are `*a` and `*b`. -/
def strnicmpEnd (x y : Byte) (count : BitVec 64) : C Int :=
  if count = 0 then .ok 0 else .ok (((toupper x).toNat : Int) - (toupper y).toNat)

/-- Loop of `tmsu_strnicmp` and what follows, lines 1314-1328; `count` is the 64 bit `size_t`, whose decrement in the
loop condition wraps. -/
def strnicmpL : List Byte → List Byte → BitVec 64 → C Int
  | x :: xs, y :: ys, count =>
    if x ≠ 0 ∧ y ≠ 0 then
      if count = 0 then strnicmpEnd x y (count - 1)
      else if toupper x ≠ toupper y then strnicmpEnd x y (count - 1)
      else strnicmpL xs ys (count - 1)
    else strnicmpEnd x y count
  | _, _, _ => .error .oob

/-- `tmsu_strnicmp`, lines 1313-1329. -/
def strnicmp (mem : List Byte) (a b : Nat) (count : BitVec 64) : C Int := strnicmpL (mem.drop a) (mem.drop b) count

/-- `tmsu_starts_with_ignore_case_ansi`, lines 1250-1256. -/
def startsWithIgnoreCase (mem : List Byte) (str find : Nat) : C Bool := do
  let n ← strlen mem find
  let k ← strnicmp mem str find (BitVec.ofNat 64 n)
  .ok (k = 0)

end Tm.Str
