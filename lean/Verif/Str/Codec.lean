import Verif.Str.Find

/-!
# Model of the reversal, base64 and URL functions of `tm_stringutil.h`

An input is the list of its bytes. An output buffer is the list of its cells; its length is `out_size`, so that every
write outside of it is the fault `oob`. Input and output are taken to be different objects, and the sizes are far below
the largest `size_t`, so that index computations are done on natural numbers.
All lines refer to `tm_stringutil.h`.
-/

namespace Tm.Str

/-! ## Reversal and search from the end -/

/-- Loop of `tmsu_strnrev`, lines 1334-1338. -/
def strnrevLoop : Nat → List Byte → Nat → Nat → C (List Byte)
  | 0, _, _, _ => .error .diverge
  | fuel + 1, str, i, j =>
    if i < j then do
      let tmp ← rd str i
      let y ← rd str j
      let str ← wr str i y
      let str ← wr str j tmp
      strnrevLoop fuel str (i + 1) (j - 1)
    else .ok str

/-- `tmsu_strnrev`, lines 1331-1340; `str` are the cells from the pointer on. -/
def strnrev (str : List Byte) (count : Nat) : C (List Byte) :=
  if count = 0 then .ok str else strnrevLoop count str 0 (count - 1)

/-- `tmsu_strrev`, line 1330. -/
def strrev (str : List Byte) : C (List Byte) := do
  let n ← strlen str 0
  strnrev str n

/-- Loop of `tmsu_memrchr`, lines 1346-1352; `n` is `len`. -/
def memrchrLoop (mem : List Byte) (ptr : Nat) (value : Byte) : Nat → C (Option Nat)
  | 0 => .ok none
  | n + 1 => do
    let x ← rd mem (ptr + n)
    if x = value then .ok (some (ptr + n)) else memrchrLoop mem ptr value n

/-- `tmsu_memrchr`, lines 1341-1354; `value` within 0..0xFF. The early return for length zero is the loop's first case. -/
def memrchr (mem : List Byte) (ptr : Nat) (value : Byte) (len : Nat) : C (Option Nat) := memrchrLoop mem ptr value len

/-! ## Base64 -/

/-- `tmsu_base64_chars`, lines 1356-1359, with its terminator. -/
def base64Chars : List Byte :=
  [65, 66, 67, 68, 69, 70, 71, 72, 73, 74, 75, 76, 77, 78, 79, 80, 81, 82, 83, 84, 85, 86, 87, 88, 89, 90,
   97, 98, 99, 100, 101, 102, 103, 104, 105, 106, 107, 108, 109, 110, 111, 112, 113, 114, 115, 116, 117, 118, 119, 120,
   121, 122, 48, 49, 50, 51, 52, 53, 54, 55, 56, 57, 43, 47, 0]

/-- `tmsu_base64url_chars`, lines 1361-1364, with its terminator. -/
def base64urlChars : List Byte :=
  [65, 66, 67, 68, 69, 70, 71, 72, 73, 74, 75, 76, 77, 78, 79, 80, 81, 82, 83, 84, 85, 86, 87, 88, 89, 90,
   97, 98, 99, 100, 101, 102, 103, 104, 105, 106, 107, 108, 109, 110, 111, 112, 113, 114, 115, 116, 117, 118, 119, 120,
   121, 122, 48, 49, 50, 51, 52, 53, 54, 55, 56, 57, 45, 95, 0]

/-- `if (out_index + 1 < out_size) out[out_index] = v;`, as in lines 1424, 1427, 1432, 1507, 1510, 1514. -/
def putGuarded (out : List Byte) (oi : Nat) (v : Byte) : C (List Byte) :=
  if oi + 1 < out.length then wr out oi v else .ok out

/-- Loop of `tmsu_base64_encode_chars`, lines 1374-1398: the final `out_index`, the buffer, and the unread input. The
`unsigned int` operations stay below 2¹², so they are done on natural numbers. -/
def b64EncLoop (chars : List Byte) : List Byte → List Byte → Nat → C (Nat × List Byte × List Byte)
  | x :: y :: z :: rest, out, oi => do
    let a := x.toNat
    let b := y.toNat
    let c := z.toNat
    let i0 := a >>> 2
    let i1 := ((a &&& 3) <<< 4) ||| (b >>> 4)
    let i2 := ((b &&& 15) <<< 2) ||| (c >>> 6)
    let i3 := c &&& 63
    assert (i0 < 64)
    assert (i1 < 64)
    assert (i2 < 64)
    assert (i3 < 64)
    if oi + 4 < out.length then do
      let c0 ← rd chars i0
      let out ← wr out oi c0
      let c1 ← rd chars i1
      let out ← wr out (oi + 1) c1
      let c2 ← rd chars i2
      let out ← wr out (oi + 2) c2
      let c3 ← rd chars i3
      let out ← wr out (oi + 3) c3
      b64EncLoop chars rest out (oi + 4)
    else b64EncLoop chars rest out (oi + 4)
  | rest, out, oi => .ok (oi, out, rest)

/-- The part of `tmsu_base64_encode_chars` after the loop, lines 1402-1436; `a`, `b` as in lines 1403-1404, `two` is
`input_size > 1`. -/
def b64EncTail (chars : List Byte) (pad : Bool) (a b : Nat) (two : Bool) (out : List Byte) (oi : Nat) :
    C (Nat × List Byte) := do
  let i0 := a >>> 2
  let i1 := ((a &&& 3) <<< 4) ||| (b >>> 4)
  let i2 := (b &&& 15) <<< 2
  assert (i0 < 64)
  assert (i1 < 64)
  assert (i2 < 64)
  let c0 ← rd chars i0
  let c1 ← rd chars i1
  let c2 ← rd chars i2
  let (out, oi) ←
    if oi + 2 < out.length then do
      let out ← wr out oi c0
      let out ← wr out (oi + 1) c1
      .ok (out, oi + 2)
    else (.ok (out, oi) : C (List Byte × Nat))
  let (out, oi) ←
    if two then do
      let out ← putGuarded out oi c2
      .ok (out, oi + 1)
    else if pad then do
      let out ← putGuarded out oi 61
      .ok (out, oi + 1)
    else (.ok (out, oi) : C (List Byte × Nat))
  if pad then do
    let out ← putGuarded out oi 61
    .ok (oi + 1, out)
  else .ok (oi, out)

/-- `tmsu_base64_encode_chars`, lines 1366-1437: the returned size and the buffer. -/
def b64EncodeChars (chars : List Byte) (pad : Bool) (input out : List Byte) : C (Nat × List Byte) := do
  let (oi, out, rest) ← b64EncLoop chars input out 0
  match rest with
  | [] => .ok (oi, out)
  | [x] => b64EncTail chars pad x.toNat 0 false out oi
  | [x, y] => b64EncTail chars pad x.toNat y.toNat true out oi
  | _ => .error .assertion

/-- `tmsu_base64_encode`, lines 1521-1525. -/
def base64Encode (input out : List Byte) : C (Nat × List Byte) := b64EncodeChars base64Chars true input out

/-- `tmsu_base64url_encode`, lines 1526-1530. -/
def base64urlEncode (input out : List Byte) : C (Nat × List Byte) := b64EncodeChars base64urlChars false input out

/-- `(unsigned int)(tmsu_find_char(chars, c) - chars)`, lines 1450-1453 and others. -/
def b64Value (chars : List Byte) (c : Byte) : C Nat := findChar chars 0 c

/-- `(size > k) ? value of the k-th character : 0`, lines 1492-1495. -/
def b64ValueOr (chars : List Byte) : Option Byte → C Nat
  | some c => b64Value chars c
  | none => .ok 0

/-- `(char)((v0 << 2) | (v1 >> 4))`, lines 1463 and 1507. -/
def b64Byte0 (v0 v1 : Nat) : Byte := BitVec.ofNat 8 ((v0 <<< 2) ||| (v1 >>> 4))
/-- `(char)(((v1 << 4) & 0xF0u) | (v2 >> 2))`, lines 1464 and 1510. -/
def b64Byte1 (v1 v2 : Nat) : Byte := BitVec.ofNat 8 (((v1 <<< 4) &&& 240) ||| (v2 >>> 2))
/-- `(char)(((v2 << 6) & 0xC0u) | v3)`, lines 1465 and 1514. -/
def b64Byte2 (v2 v3 : Nat) : Byte := BitVec.ofNat 8 (((v2 <<< 6) &&& 192) ||| v3)

/-- The values of the last up to four characters and `padding_count`, lines 1473-1503; `none` for `return 0`. `cs` are the
remaining characters. -/
def b64DecLast (chars : List Byte) (expectPadding : Bool) (cs : List Byte) : C (Option (Nat × Nat × Nat × Nat × Nat)) :=
  if expectPadding then
    match cs with
    | c0 :: c1 :: c2 :: c3 :: _ => do
      let v0 ← b64Value chars c0
      let v1 ← b64Value chars c1
      let v2 ← b64Value chars c2
      let v3 ← b64Value chars c3
      if v0 ≥ 64 then .ok none
      else if v1 ≥ 64 then .ok none
      else if v3 ≥ 64 ∧ c3 ≠ 61 then .ok none
      else do
        let pc := if v3 ≥ 64 then 1 else 0
        let v3 := if v3 ≥ 64 then 0 else v3
        if v2 ≥ 64 ∧ c2 ≠ 61 then .ok none
        else do
          let pc := if v2 ≥ 64 then 2 else pc
          let v2 := if v2 ≥ 64 then 0 else v2
          .ok (some (v0, v1, v2, v3, pc))
    | _ => .error .oob
  else do
    let v0 ← b64ValueOr chars cs[0]?
    let v1 ← b64ValueOr chars cs[1]?
    let v2 ← b64ValueOr chars cs[2]?
    let v3 ← b64ValueOr chars cs[3]?
    if v0 ≥ 64 then .ok none
    else if v1 ≥ 64 then .ok none
    else if v2 ≥ 64 then .ok none
    else if v3 ≥ 64 then .ok none
    else .ok (some (v0, v1, v2, v3, 2 - (if cs.length > 2 then 1 else 0) - (if cs.length > 3 then 1 else 0)))

/-- The last bytes of `tmsu_base64_decode_chars`, lines 1471-1518. -/
def b64DecTail (chars : List Byte) (expectPadding : Bool) (cs out : List Byte) (oi : Nat) : C (Nat × List Byte) := do
  let r ← b64DecLast chars expectPadding cs
  match r with
  | none => .ok (0, out)
  | some (v0, v1, v2, v3, pc) => do
    let out ← putGuarded out oi (b64Byte0 v0 v1)
    let oi := oi + 1
    let (out, oi) ←
      if pc < 2 then do
        let out ← putGuarded out oi (b64Byte1 v1 v2)
        .ok (out, oi + 1)
      else (.ok (out, oi) : C (List Byte × Nat))
    let (out, oi) ←
      if pc < 1 then do
        let out ← putGuarded out oi (b64Byte2 v2 v3)
        .ok (out, oi + 1)
      else (.ok (out, oi) : C (List Byte × Nat))
    .ok (oi, out)

/-- Loop of `tmsu_base64_decode_chars` and what follows, lines 1446-1518. -/
def b64DecLoop (chars : List Byte) (expectPadding : Bool) : List Byte → List Byte → Nat → C (Nat × List Byte)
  | c0 :: c1 :: c2 :: c3 :: c4 :: rest, out, oi => do
    let v0 ← b64Value chars c0
    let v1 ← b64Value chars c1
    let v2 ← b64Value chars c2
    let v3 ← b64Value chars c3
    if v0 ≥ 64 then .ok (0, out)
    else if v1 ≥ 64 then .ok (0, out)
    else if v2 ≥ 64 then .ok (0, out)
    else if v3 ≥ 64 then .ok (0, out)
    else if oi + 3 < out.length then do
      let out ← wr out oi (b64Byte0 v0 v1)
      let out ← wr out (oi + 1) (b64Byte1 v1 v2)
      let out ← wr out (oi + 2) (b64Byte2 v2 v3)
      b64DecLoop chars expectPadding (c4 :: rest) out (oi + 3)
    else b64DecLoop chars expectPadding (c4 :: rest) out (oi + 3)
  | [], out, oi => .ok (oi, out)
  | cs, out, oi => b64DecTail chars expectPadding cs out oi

/-- `tmsu_base64_decode_chars`, lines 1439-1519. -/
def b64DecodeChars (chars : List Byte) (expectPadding : Bool) (input out : List Byte) : C (Nat × List Byte) := do
  assert (input.length % 4 = 0 || !expectPadding)
  b64DecLoop chars expectPadding input out 0

/-- `tmsu_base64_decode`, lines 1531-1539. -/
def base64Decode (input out : List Byte) : C (Nat × List Byte) :=
  if input.length = 0 then .ok (0, out)
  else if input.length % 4 ≠ 0 then .ok (0, out)
  else b64DecodeChars base64Chars true input out

/-- `tmsu_base64url_decode`, lines 1540-1547. -/
def base64urlDecode (input out : List Byte) : C (Nat × List Byte) :=
  if input.length < 2 then .ok (0, out)
  else b64DecodeChars base64urlChars false input out

/-! ## URL coding -/

/-- The characters that stand for themselves, lines 1558-1559 and 1591. -/
def urlPlain (c : Nat) : Bool :=
  (decide (65 ≤ c) && decide (c ≤ 90)) || (decide (97 ≤ c) && decide (c ≤ 122)) || (decide (48 ≤ c) && decide (c ≤ 57)) ||
    c == 45 || c == 95 || c == 46

/-- `if (out_index < out_size) out[out_index] = v;`, lines 1560, 1572-1576, 1592, 1624. -/
def putIf (out : List Byte) (oi : Nat) (v : Byte) : C (List Byte) :=
  if oi < out.length then wr out oi v else .ok out

/-- `l += (l <= 9) ? '0' : ('A' - 10);`, lines 1568 and 1570. -/
def urlHex (l : Nat) : Nat := l + (if l ≤ 9 then 48 else 55)

/-- Loop of `tmsu_url_encode`, lines 1555-1578. -/
def urlEncLoop : List Byte → List Byte → Nat → C (Nat × List Byte)
  | [], out, oi => .ok (oi, out)
  | x :: rest, out, oi =>
    let c := x.toNat
    if urlPlain c then do
      let out ← putIf out oi (BitVec.ofNat 8 c)
      urlEncLoop rest out (oi + 1)
    else do
      let l := urlHex ((c >>> 4) &&& 15)
      let r := urlHex (c &&& 15)
      let out ← putIf out oi 37
      let out ← putIf out (oi + 1) (BitVec.ofNat 8 l)
      let out ← putIf out (oi + 2) (BitVec.ofNat 8 r)
      urlEncLoop rest out (oi + 3)

/-- `tmsu_url_encode`, lines 1549-1580: the returned size and the buffer. -/
def urlEncode (input out : List Byte) : C (Nat × List Byte) := urlEncLoop input out 0

/-- The digit of a hexadecimal character, lines 1606-1613 and 1615-1622. -/
def urlUnhex (l : Nat) : Option Nat :=
  if 48 ≤ l ∧ l ≤ 57 then some (l - 48)
  else if 65 ≤ l ∧ l ≤ 70 then some (l - 65 + 10)
  else if 97 ≤ l ∧ l ≤ 102 then some (l - 97 + 10)
  else none

/-- Loop of `tmsu_url_decode`, lines 1588-1632; `return 0` leaves the buffer as it is then. -/
def urlDecLoop : List Byte → List Byte → Nat → C (Nat × List Byte)
  | [], out, oi => .ok (oi, out)
  | x :: rest, out, oi =>
    let c := x.toNat
    if urlPlain c then do
      let out ← putIf out oi (BitVec.ofNat 8 c)
      urlDecLoop rest out (oi + 1)
    else if c = 37 then
      match rest with
      | l :: r :: rest =>
        match urlUnhex l.toNat with
        | none => .ok (0, out)
        | some l =>
          match urlUnhex r.toNat with
          | none => .ok (0, out)
          | some r => do
            let out ← putIf out oi (BitVec.ofNat 8 ((l <<< 4) ||| r))
            urlDecLoop rest out (oi + 1)
      | _ => .ok (0, out)
    else .ok (0, out)

/-- `tmsu_url_decode`, lines 1582-1634. -/
def urlDecode (input out : List Byte) : C (Nat × List Byte) := urlDecLoop input out 0

end Tm.Str
