import Verif.Json.Model
import Verif.Vec.Model

/-!
# Model of values of a document: `tm_json.h`

Numbers and booleans, lookup of members, and JSON pointers. The functions of `<stdlib.h>` follow the C standard, in the "C" locale, with
a `long` of 64 bits. Floating point numbers are in `Verif/Json/Real.lean`.
-/

namespace Tm.Json

open Tm

/-! ### Numbers -/

/-- `isspace`. -/
def isSpace (c : Byte) : Bool := c = 0x20 || (0x09 ≤ c.toNat && c.toNat ≤ 0x0D)

/-- The value of a digit or letter in `strtol`. -/
def digitIn (base : Nat) (c : Byte) : Option Nat :=
  let d := if 0x30 ≤ c.toNat && c.toNat ≤ 0x39 then c.toNat - 0x30
    else if 0x41 ≤ c.toNat && c.toNat ≤ 0x5A then c.toNat - 0x41 + 10
    else if 0x61 ≤ c.toNat && c.toNat ≤ 0x7A then c.toNat - 0x61 + 10 else base
  if d < base then some d else none

/-- The value of the digits that a text begins with, behind digits with the value `n`. -/
def digitsIn (base : Nat) : Nat → List Byte → Nat
  | n, [] => n
  | n, c :: t =>
    match digitIn base c with
    | some d => digitsIn base (n * base + d) t
    | none => n

/-- An optional prefix of hexadecimal numbers. It is skipped only if a digit follows. -/
def skipPrefix (base : Nat) : List Byte → List Byte
  | a :: x :: d :: t => if base = 16 && a = 0x30 && (x = 0x78 || x = 0x58) && (digitIn base d).isSome then d :: t else a :: x :: d :: t
  | s => s

/-- The sign and the absolute value in `strtol` and `strtoul`. -/
def signAndValue (base : Nat) (s : List Byte) : Bool × Nat :=
  match s.dropWhile isSpace with
  | [] => (false, 0)
  | c :: t =>
    if c = 0x2D then (true, digitsIn base 0 (skipPrefix base t))
    else if c = 0x2B then (false, digitsIn base 0 (skipPrefix base t))
    else (false, digitsIn base 0 (skipPrefix base (c :: t)))

/-- `strtol` and `strtoll`. No result means `ERANGE`. -/
def strtol (base : Nat) (s : List Byte) : Option Int :=
  let (neg, n) := signAndValue base s
  let v : Int := if neg then -(n : Int) else n
  if -2 ^ 63 ≤ v && v < 2 ^ 63 then some v else none

/-- `strtoul` and `strtoull`. A negative number wraps around. -/
def strtoul (base : Nat) (s : List Byte) : Option Int :=
  let (neg, n) := signAndValue base s
  if n < 2 ^ 64 then some (if neg then ((2 ^ 64 - n) % 2 ^ 64 : Nat) else n) else none

/-- `tmj_to_int` (`w` 32, `most` 32, signed), lines 957-969, `tmj_to_uint`, lines 970-982, `tmj_to_int64` (`w` 64, `most` 64), lines
1004-1016, and `tmj_to_uint64`, lines 1017-1029. `old` is the value that is kept. `s` has no NUL, or is read up to its first one: a NUL
is not a digit. The conversion to fewer bits cuts off the others. -/
def toNumber (w most : Nat) (signed : Bool) (base : Nat) (s : List Byte) (old : BitVec w) : BitVec w :=
  if s.length > most then old
  else
    match if signed then strtol base s else strtoul base s with
    | none => old
    | some v => BitVec.ofInt w v

/-- Whether the text begins with `0x` or `0X`: lines 1036, 1051, 1141 and 1156. -/
def hexPrefix : List Byte → Bool
  | a :: x :: _ => a = 0x30 && (x = 0x78 || x = 0x58)
  | _ => false

/-- Lines 1036-1041, 1051-1056, 1141-1146 and 1156-1161, and the assertion of the functions called that `last >= first`. -/
def convert (w most : Nat) (signed : Bool) (t : List Byte) (old : BitVec w) : C (BitVec w) :=
  if hexPrefix t then
    if t.length = 2 then .ok old
    else do
      assert (t.length - 2 ≥ 2)
      .ok (toNumber w most signed 16 ((t.drop 2).take (t.length - 4)) old)
  else .ok (toNumber w most signed 10 t old)

/-- `jsonToInt`, lines 1034-1043, and `jsonToInt64`, lines 1139-1148. -/
def toSigned (w most : Nat) (str : View) (old : BitVec w) : C (BitVec w) :=
  if str.size = 0 then .ok old
  else do
    let t ← str.text
    convert w most true t old

/-- `jsonToUInt`, lines 1044-1058, and `jsonToUInt64`, lines 1149-1163. -/
def toUnsigned (w most : Nat) (str : View) (old : BitVec w) : C (BitVec w) :=
  if str.size = 0 then .ok old
  else do
    let t ← str.text
    if t.head? = some 0x2D then .ok (if t = [0x2D, 0x30] then 0 else old) else convert w most false t old

/-- `tolower`. -/
def toLower (c : Byte) : Byte := if 0x41 ≤ c.toNat && c.toNat ≤ 0x5A then c + 0x20 else c

/-- `stringEqualsIgnoreCase`, lines 928-938: `b` has small letters and is not empty. -/
def equalsIgnoreCase (a b : List Byte) : Bool := a.length = b.length && a.map toLower = b

/-- `jsonToBool`, lines 1119-1137. -/
def toBool (str : View) (old : Bool) : C Bool :=
  if str.size = 0 then .ok old
  else do
    let t ← str.text
    if t.length = 1 then .ok (if t = [0x30] then false else if t = [0x31] then true else old)
    else if equalsIgnoreCase t kwTrue then .ok true
    else if equalsIgnoreCase t kwFalse then .ok false
    else .ok old

/-- The switch of lines 3494-3579: null values, objects and arrays give `old`. -/
def getWith {α : Type} (f : View → α → C α) (v : JVal) (old : α) : C α :=
  match v with
  | .scalar .null _ => .ok old
  | .scalar _ content => f content old
  | .object _ => .ok old
  | .array _ => .ok old
  | .junk => .error .invalid

/-- `jsonGetInt`, lines 3494-3505. -/
def getInt (v : JVal) (old : BitVec 32) : C (BitVec 32) := getWith (toSigned 32 32) v old

/-- `jsonGetUInt`, lines 3506-3517. -/
def getUInt (v : JVal) (old : BitVec 32) : C (BitVec 32) := getWith (toUnsigned 32 32) v old

/-- `jsonGetBool`, lines 3542-3553. -/
def getBool (v : JVal) (old : Bool) : C Bool := getWith toBool v old

/-- `jsonGetInt64`, lines 3555-3566. -/
def getInt64 (v : JVal) (old : BitVec 64) : C (BitVec 64) := getWith (toSigned 64 64) v old

/-- `jsonGetUInt64`, lines 3567-3578. -/
def getUInt64 (v : JVal) (old : BitVec 64) : C (BitVec 64) := getWith (toUnsigned 64 64) v old

/-! ### Members -/

/-- `stringEquals`, lines 924-927, with the name of a member. -/
def nameIs (v : View) (name : List Byte) : C Bool :=
  if v.size ≠ name.length then .ok false
  else do
    let t ← v.text
    .ok (t = name)

/-- The loops of lines 3382-3389 and 3393-3399, from the member with the index `i` on: the index of the member found. -/
def findName (name : List Byte) : List (View × JVal) → Nat → C (Option Nat)
  | [], _ => .ok none
  | m :: ms, i => do
    let same ← nameIs m.1 name
    if same then .ok (some i) else findName name ms (i + 1)

/-- `jsonQueryMemberCached`, lines 3374-3402: the index of the member, and the new `*lastAccess`. `name` is the text before the NUL. In
C++ `jsonGetMember` and `jsonQueryMember` do this with the `lastAccess` of the object, lines 3332-3334 and 3349-3352. -/
def queryMember (members : List (View × JVal)) (name : List Byte) (lastAccess : Nat) : C (Option Nat × Nat) :=
  if lastAccess > members.length then .error .oob
  else do
    let r ← findName name (members.drop lastAccess) lastAccess
    match r with
    | some i => .ok (some i, i)
    | none => do
      let r ← findName name (members.take lastAccess) 0
      match r with
      | some i => .ok (some i, i)
      | none => .ok (none, lastAccess)

/-- The value returned if there is none. -/
def nil : JVal := .scalar .null ⟨true, [], 0⟩

/-- `jsonGetMemberCached`, lines 3365-3373. -/
def getMember (members : List (View × JVal)) (name : List Byte) (lastAccess : Nat) : C (JVal × Nat) := do
  let (r, k) ← queryMember members name lastAccess
  match r with
  | none => .ok (nil, k)
  | some i =>
    match members[i]? with
    | some m => .ok (m.2, k)
    | none => .error .oob

/-- Names are looked up in an object, one after the other: what each lookup finds. -/
def lookups (members : List (View × JVal)) : List (List Byte) → Nat → C (List (Option Nat))
  | [], _ => .ok []
  | name :: names, lastAccess => do
    let (r, k) ← queryMember members name lastAccess
    let rs ← lookups members names k
    .ok (r :: rs)

/-! ### JSON pointers -/

/-- `buffer` and the memory it points to. -/
structure Buf where
  ptr : Vec.Ptr
  cells : List Byte

/-- Lines 3675-3690: room for `n` bytes. The content of new memory is `junk`. No result means that there is no memory. The block that
`TM_REALLOC` returns has more bytes than `buffer_size`, line 3682; they are not used. -/
def ensure (junk : Byte) (h : Vec.Heap) (b : Buf) (n : Nat) : C (Vec.Heap × Buf × Bool) :=
  if n > b.cells.length then
    let newSize := if b.cells.length * 2 < n then n else b.cells.length * 2
    if b.ptr = .sbo then
      match Vec.malloc h with
      | (none, h) => .ok (h, b, false)
      | (some id, h) => .ok (h, ⟨.heap id, List.replicate newSize junk⟩, true)
    else do
      let (r, h) ← Vec.realloc h b.ptr
      match r with
      | none => .ok (h, b, false)
      | some id => .ok (h, ⟨.heap id, b.cells ++ List.replicate (newSize - b.cells.length) junk⟩, true)
  else .ok (h, b, true)

/-- `TM_MEMCPY` to the beginning of the buffer, and the NUL: lines 3693-3694. -/
def copyIn (cells seg : List Byte) : C (List Byte) :=
  if seg.length ≤ cells.length then wr (seg ++ cells.drop seg.length) seg.length 0 else .error .oob

/-- The loops of lines 3699-3729 and 3732-3748. No result means that there is an error in the text. -/
def unescape (fragment : Bool) (length : Nat) : Nat → List Byte → Nat → Nat → C (Option (List Byte × Nat))
  | 0, _, _, _ => .error .diverge
  | fuel + 1, b, i, out =>
    if i < length then do
      let c ← rd b i
      if fragment && c = 0x25 then do
        let x ← rd b (i + 1)
        if !isXDigit x then .ok none
        else do
          let y ← rd b (i + 2)
          if !isXDigit y then .ok none
          else do
            let b ← wr b out ((toNumber 32 32 false 16 [x, y] 0).setWidth 8)
            unescape fragment length fuel b (i + 3) (out + 1)
      else if c = 0x7E then do
        let x ← rd b (i + 1)
        if x = 0x30 then do
          let b ← wr b out 0x7E
          unescape fragment length fuel b (i + 2) (out + 1)
        else if x = 0x31 then do
          let b ← wr b out 0x2F
          unescape fragment length fuel b (i + 2) (out + 1)
        else .ok none
      else do
        let b ← wr b out c
        unescape fragment length fuel b (i + 1) (out + 1)
    else .ok (some (b, out))

/-- `first` refers to an array index, lines 3647-3665. No result means an error. -/
def stepArray (current : JVal) (seg : List Byte) : C (Option JVal) :=
  match current with
  | .array values =>
    let index := (toNumber 64 64 false 10 seg 0).toNat
    .ok values[index]?
  | .junk => .error .invalid
  | _ => .ok none

/-- `first` refers to a field, lines 3667-3754. Lookups have not been made in the
objects of the document itself, so that `lastAccess` is 0. The text in the buffer ends at its first NUL. -/
def stepObject (junk : Byte) (fragment : Bool) (h : Vec.Heap) (b : Buf) (current : JVal) (seg : List Byte) : C (Vec.Heap × Buf × Option JVal) :=
  match current with
  | .object members => do
    let (h, b, ok) ← ensure junk h b (seg.length + 1)
    if !ok then .ok (h, b, none)
    else do
      let cells ← copyIn b.cells seg
      let r ← unescape fragment seg.length (seg.length + 1) cells 0 0
      match r with
      | none => .ok (h, ⟨b.ptr, cells⟩, none)
      | some (cells, out) => do
        let cells ← wr cells out 0
        if cells.contains 0 then do
          let (v, _) ← getMember members (cells.takeWhile (· ≠ 0)) 0
          .ok (h, ⟨b.ptr, cells⟩, some v)
        else .error .oob
  | .junk => .error .invalid
  | _ => .ok (h, b, none)

/-- One segment: lines 3646-3755. -/
def step (junk : Byte) (fragment : Bool) (h : Vec.Heap) (b : Buf) (current : JVal) (seg : List Byte) : C (Vec.Heap × Buf × Option JVal) :=
  if isDigit (seg.headD 0) then do
    let r ← stepArray current seg
    .ok (h, b, r)
  else stepObject junk fragment h b current seg

/-- The loop of lines 3641-3759. `text` is what follows a slash. No value means an error. -/
def walk (junk : Byte) (fragment : Bool) : Nat → Vec.Heap → Buf → JVal → List Byte → C (Vec.Heap × Buf × Option JVal)
  | 0, _, _, _, _ => .error .diverge
  | fuel + 1, h, b, current, text => do
    let (h, b, r) ← step junk fragment h b current (text.takeWhile (· ≠ 0x2F))
    match r with
    | none => .ok (h, b, none)
    | some current =>
      match text.dropWhile (· ≠ 0x2F) with
      | [] => .ok (h, b, some current)
      | _ :: text => walk junk fragment fuel h b current text

/-- The values of the loop: line 3640 and lines 3641-3759. -/
def follow (junk : Byte) (fragment : Bool) (h : Vec.Heap) (b : Buf) (value : JVal) (text : List Byte) : C (Vec.Heap × Buf × Option JVal) :=
  match text.dropWhile (· ≠ 0x2F) with
  | [] => .ok (h, b, some value)
  | _ :: text => walk junk fragment (text.length + 1) h b value text

/-- Lines 3761-3763. -/
def freeBuffer (h : Vec.Heap) (b : Buf) : C Vec.Heap := if b.ptr = .sbo then .ok h else Vec.free h b.ptr

/-- `jsonResolveJsonPointer`, lines 3581-3772. `pointer` is the text before the NUL. `junk` is what memory contains before it is
written. A member that does not exist gives `nil`, as an error does. -/
def resolve (junk : Byte) (h : Vec.Heap) (value : JVal) (pointer : List Byte) : C (Vec.Heap × JVal) := do
  let fragment := pointer.head? = some 0x23
  let text := if fragment then pointer.tail else pointer
  let (h, b, r) ← follow junk fragment h ⟨.sbo, List.replicate 64 junk⟩ value text
  let h ← freeBuffer h b
  .ok (h, r.getD nil)

end Tm.Json
