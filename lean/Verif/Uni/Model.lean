import Verif.Basic

/-!
# Model of the code point functions of `tm_unicode.h`

A stream `{cur, end}` is the list of the bytes (or 16-bit units) from `cur` to `end`; reading behind `end` is the fault
`oob`, and advancing `cur` drops elements. An output buffer is a list of cells together with a position and the number of
cells that may be used from there.
Code points are natural numbers; the only computation on them that can leave the range of `uint32_t` is the combination of
surrogates, which is reduced modulo 2³².
All lines refer to `tm_unicode.h`. Null pointers and the assertions against them are not modelled.
-/

namespace Tm.Uni

/-- A UTF-16 code unit. -/
abbrev Unit16 := BitVec 16

/-- `TMU_INVALID_CODEPOINT`, line 3549. -/
def invalidCodepoint : Nat := 0xFFFFFFFF

/-- `TMU_SURROGATE_OFFSET`, line 3548, as a `uint32_t`. -/
def surrogateOffset : Nat := 0x10000 + (2 ^ 32 - 0xD800 * 2 ^ 10) + (2 ^ 32 - 0xDC00) - 2 ^ 32

/-- `tmu_is_valid_codepoint`, lines 3612-3614. -/
def isValidCodepoint (cp : Nat) : Bool :=
  decide (cp ≤ 0x10FFFF) && (decide (cp < 0xD800) || decide (cp > 0xDFFF))

/-- The value computed by `tmu_utf8_extract` and the number of bytes `cur` is advanced by, lines 3619-3652. -/
def utf8Raw (s : List Byte) : C (Nat × Nat) :=
  if s.length > 0 then do
    let first ← rd s 0
    let first := first.toNat
    if first < 0x80 then .ok (first, 1)
    else if first >>> 5 = 0x6 then
      if s.length ≥ 2 then do
        let second ← rd s 1
        .ok (((first &&& 0x1F) <<< 6) ||| (second.toNat &&& 0x3F), 2)
      else .ok (invalidCodepoint, 0)
    else if first >>> 4 = 0xE then
      if s.length ≥ 3 then do
        let second ← rd s 1
        let third ← rd s 2
        .ok (((first &&& 0xF) <<< 12) ||| ((second.toNat &&& 0x3F) <<< 6) ||| (third.toNat &&& 0x3F), 3)
      else .ok (invalidCodepoint, 0)
    else if first >>> 3 = 0x1E then
      if s.length ≥ 4 then do
        let second ← rd s 1
        let third ← rd s 2
        let fourth ← rd s 3
        .ok (((first &&& 0x7) <<< 18) ||| ((second.toNat &&& 0x3F) <<< 12) ||| ((third.toNat &&& 0x3F) <<< 6) |||
          (fourth.toNat &&& 0x3F), 4)
      else .ok (invalidCodepoint, 0)
    else .ok (invalidCodepoint, 0)
  else .ok (invalidCodepoint, 0)

/-- `tmu_utf8_extract`, lines 3615-3658: the code point and the rest of the stream, or nothing; then the stream stays as
it is. -/
def utf8Extract (s : List Byte) : C (Option (Nat × List Byte)) := do
  let (cp, n) ← utf8Raw s
  if isValidCodepoint cp then .ok (some (cp, s.drop n)) else .ok none

/-- The value computed by `tmu_utf16_extract` and the number of units `cur` is advanced by, lines 3661-3681. -/
def utf16Raw (s : List Unit16) : C (Nat × Nat) :=
  if s.length ≠ 0 then do
    let lead ← rd s 0
    let lead := lead.toNat
    if lead ≥ 0xD800 ∧ lead ≤ 0xDBFF then
      if s.length ≠ 1 then do
        let trail ← rd s 1
        let trail := trail.toNat
        if trail ≥ 0xDC00 ∧ trail ≤ 0xDFFF then .ok ((lead <<< 10 + trail + surrogateOffset) % 2 ^ 32, 2)
        else .ok (invalidCodepoint, 2)
      else .ok (invalidCodepoint, 1)
    else .ok (lead, 1)
  else .ok (invalidCodepoint, 0)

/-- `tmu_utf16_extract`, lines 3659-3687. -/
def utf16Extract (s : List Unit16) : C (Option (Nat × List Unit16)) := do
  let (cp, n) ← utf16Raw s
  if isValidCodepoint cp then .ok (some (cp, s.drop n)) else .ok none

/-- `(char)(base | (uint8_t)(v))`. -/
def octet (base v : Nat) : Byte := BitVec.ofNat 8 (base ||| (v % 256))

/-- `tmu_utf8_encode`, lines 3688-3719, writing to the cells from position `pos` on, of which `len` may be used. -/
def utf8Encode (cp : Nat) (buf : List Byte) (pos len : Nat) : C (Nat × List Byte) := do
  assert (isValidCodepoint cp)
  if cp < 0x80 then
    if len < 1 then .ok (1, buf)
    else do
      let buf ← wr buf pos (octet 0 cp)
      .ok (1, buf)
  else if cp < 0x800 then
    if len < 2 then .ok (2, buf)
    else do
      let buf ← wr buf pos (octet 0xC0 (cp >>> 6))
      let buf ← wr buf (pos + 1) (octet 0x80 (cp &&& 0x3F))
      .ok (2, buf)
  else if cp < 0x10000 then
    if len < 3 then .ok (3, buf)
    else do
      let buf ← wr buf pos (octet 0xE0 (cp >>> 12))
      let buf ← wr buf (pos + 1) (octet 0x80 (((cp >>> 6) % 256) &&& 0x3F))
      let buf ← wr buf (pos + 2) (octet 0x80 (cp &&& 0x3F))
      .ok (3, buf)
  else
    if len < 4 then .ok (4, buf)
    else do
      let buf ← wr buf pos (octet 0xF0 (((cp >>> 18) % 256) &&& 0x7))
      let buf ← wr buf (pos + 1) (octet 0x80 (((cp >>> 12) % 256) &&& 0x3F))
      let buf ← wr buf (pos + 2) (octet 0x80 (((cp >>> 6) % 256) &&& 0x3F))
      let buf ← wr buf (pos + 3) (octet 0x80 (cp &&& 0x3F))
      .ok (4, buf)

/-- `tmu_utf16_encode`, lines 3737-3751. -/
def utf16Encode (cp : Nat) (buf : List Unit16) (pos len : Nat) : C (Nat × List Unit16) := do
  assert (isValidCodepoint cp)
  if cp ≤ 0xFFFF then
    if len < 1 then .ok (1, buf)
    else do
      let buf ← wr buf pos (BitVec.ofNat 16 cp)
      .ok (1, buf)
  else
    if len < 2 then .ok (2, buf)
    else do
      let cp := cp - 0x10000
      let buf ← wr buf pos (BitVec.ofNat 16 (0xD800 + (cp >>> 10) % 2 ^ 16))
      let buf ← wr buf (pos + 1) (BitVec.ofNat 16 (0xDC00 + (cp &&& 0x3FF) % 2 ^ 16))
      .ok (2, buf)

/-- `tmu_utf8_output_stream` and `tmu_utf16_output_stream`, lines 380-399: the cells of `data` (their number is `capacity`), `size`,
`necessary` and whether `ec` is `TM_OK` (the only other value is `TM_ERANGE`). -/
structure OutStream (α : Type) where
  data : List α
  size : Nat
  necessary : Nat
  ok : Bool
deriving DecidableEq, Repr

/-- `tmu_utf8_append` and `tmu_utf16_append`, lines 3720-3735 and 3752-3767, which differ in the encoder only. -/
def append {α : Type} (encode : Nat → List α → Nat → Nat → C (Nat × List α)) (cp : Nat) (s : OutStream α) : C (Bool × OutStream α) := do
  assert (s.size ≤ s.data.length)
  let remaining := s.data.length - s.size
  let (size, data) ← encode cp s.data s.size (s.data.length - s.size)
  if size > remaining then .ok (false, ⟨data, s.data.length, s.necessary + size, false⟩)
  else .ok (s.ok, ⟨data, s.size + size, s.necessary + size, s.ok⟩)

/-- `tmu_utf8_append`. -/
def utf8Append (cp : Nat) (s : OutStream Byte) := append utf8Encode cp s
/-- `tmu_utf16_append`. -/
def utf16Append (cp : Nat) (s : OutStream Unit16) := append utf16Encode cp s

/-! ## Validation -/

/-- Body of the loop of `tmu_utf8_valid_range`, lines 4478-4528, on the remaining bytes: by how much `remaining` decreases,
or nothing for `return i`. -/
def validStep (s : List Byte) : C (Option Nat) := do
  let c0 ← rd s 0
  let c0 := c0.toNat
  if c0 < 0x80 then .ok (some 1)
  else if c0 &&& 0xE0 = 0xC0 then
    if s.length < 2 then .ok none
    else do
      let c1 ← rd s 1
      let c1 := c1.toNat
      if c1 &&& 0xC0 ≠ 0x80 then .ok none
      else if c0 &&& 0xFE = 0xC0 then .ok none
      else .ok (some 2)
  else if c0 &&& 0xF0 = 0xE0 then
    if s.length < 3 then .ok none
    else do
      let c1 ← rd s 1
      let c2 ← rd s 2
      let c1 := c1.toNat
      let c2 := c2.toNat
      if c1 &&& 0xC0 ≠ 0x80 then .ok none
      else if c2 &&& 0xC0 ≠ 0x80 then .ok none
      else if c0 = 0xE0 ∧ c1 &&& 0xE0 = 0x80 then .ok none
      else if c0 = 0xED ∧ c1 > 0x9F then .ok none
      else .ok (some 3)
  else if c0 &&& 0xF8 = 0xF0 then
    if s.length < 4 then .ok none
    else do
      let c1 ← rd s 1
      let c2 ← rd s 2
      let c3 ← rd s 3
      let c1 := c1.toNat
      let c2 := c2.toNat
      let c3 := c3.toNat
      if c1 &&& 0xC0 ≠ 0x80 then .ok none
      else if c2 &&& 0xC0 ≠ 0x80 then .ok none
      else if c3 &&& 0xC0 ≠ 0x80 then .ok none
      else if c0 = 0xF0 ∧ c1 < 0x90 then .ok none
      else if c0 = 0xF4 ∧ c1 > 0x8F then .ok none
      else if c0 > 0xF4 then .ok none
      else .ok (some 4)
  else .ok none

/-- Loop of the valid range functions, lines 4475-4530 and 4550-4569: `i` is `len - remaining`, `s` the remaining elements. The number of rounds is
bounded by the length, which the theorems show to suffice. -/
def validLoop {α : Type} (step : List α → C (Option Nat)) : Nat → List α → Nat → C Nat
  | 0, s, i => if s.length = 0 then .ok i else .error .diverge
  | fuel + 1, s, i =>
    if s.length = 0 then .ok i
    else do
      let r ← step s
      match r with
      | none => .ok i
      | some k => if s.length < k then .error .overflow else validLoop step fuel (s.drop k) (i + k)

/-- `tmu_utf8_valid_range`, lines 4470-4531. -/
def utf8ValidRange (s : List Byte) : C Nat := validLoop validStep s.length s 0

/-- Body of the loop of `tmu_utf16_valid_range`, lines 4553-4567. -/
def validStep16 (s : List Unit16) : C (Option Nat) := do
  let c0 ← rd s 0
  let c0 := c0.toNat
  if c0 ≥ 0xD800 ∧ c0 ≤ 0xDBFF then
    if s.length < 2 then .ok none
    else do
      let c1 ← rd s 1
      let c1 := c1.toNat
      if c1 < 0xDC00 ∨ c1 > 0xDFFF then .ok none
      else if !isValidCodepoint ((c0 <<< 10 + c1 + surrogateOffset) % 2 ^ 32) then .ok none
      else .ok (some 2)
  else if c0 ≥ 0xDC00 ∧ c0 ≤ 0xDFFF then .ok none
  else .ok (some 1)

/-- `tmu_utf16_valid_range`, lines 4549-4570. -/
def utf16ValidRange (s : List Unit16) : C Nat := validLoop validStep16 s.length s 0

/-- `memmove(buf + dst, buf + src, n)`. -/
def memmove {α : Type} (buf : List α) (dst src n : Nat) : C (List α) :=
  if dst + n ≤ buf.length ∧ src + n ≤ buf.length then
    .ok (buf.take dst ++ (buf.drop src).take n ++ buf.drop (dst + n))
  else .error .oob

/-- Lines 4540 and 4579. -/
def skipMove {α : Type} (str : List α) (cur i n : Nat) : C (List α) := if cur ≠ i then memmove str cur i n else .ok str

/-- Loop of `tmu_utf8_skip_invalid` and `tmu_utf16_skip_invalid`, lines 4533-4547 and 4572-4586, which differ in the valid range function only: `cur`
and `remaining` as there, the current contents of `str`, whose length is `len`. Returns the size and the contents. -/
def skipLoop {α : Type} (range : List α → C Nat) : Nat → List α → Nat → Nat → C (Nat × List α)
  | 0, str, cur, remaining => if remaining = 0 then .ok (cur, str) else .error .diverge
  | fuel + 1, str, cur, remaining =>
    if remaining = 0 then .ok (cur, str)
    else do
      let i := str.length - remaining
      let r ← range ((str.drop cur).take remaining)
      let str ← skipMove str cur i r
      let cur := cur + r
      if r = remaining then .ok (cur, str)
      else do
        assert (remaining ≥ r + 1)
        skipLoop range fuel str cur (remaining - (r + 1))

/-- `tmu_utf8_skip_invalid`, lines 4533-4547. -/
def utf8SkipInvalid (str : List Byte) : C (Nat × List Byte) := skipLoop utf8ValidRange str.length str 0 str.length

/-- `tmu_utf16_skip_invalid`, lines 4572-4586. -/
def utf16SkipInvalid (str : List Unit16) : C (Nat × List Unit16) := skipLoop utf16ValidRange str.length str 0 str.length

/-! ## Transcoding -/

/-- `tmu_validate`, line 424. -/
inductive Validate where
  | skip | error | replace
deriving DecidableEq, Repr

/-- `tmu_conversion_result`, lines 412-417, without `original_encoding`, which the transcoders leave at unknown. -/
structure ConvResult where
  size : Nat
  ec : Errc
  invalid : Bool
deriving DecidableEq, Repr

/-- The state of the transcoding loops: the result so far, the output cells, `out` as a position and `out_len`. -/
structure TransState (α : Type) where
  res : ConvResult
  buf : List α
  pos : Nat
  len : Nat

/-- Writing `size` elements was announced: lines 4637-4645, 4615-4624 and their counterparts in `tmu_utf16_from_utf8_ex`. -/
def transOut {α : Type} (st : TransState α) (buf : List α) (size : Nat) : TransState α :=
  if st.len < size then ⟨⟨st.res.size + size, .erange, st.res.invalid⟩, buf, 0, 0⟩
  else ⟨⟨st.res.size + size, st.res.ec, st.res.invalid⟩, buf, st.pos + size, st.len - size⟩

/-- `memcpy(out, str, n)` with `out = buf + pos`. -/
def copyTo {α : Type} (buf : List α) (pos : Nat) : List α → C (List α)
  | [] => .ok buf
  | x :: xs => do
    let buf ← wr buf pos x
    copyTo buf (pos + 1) xs

/-- Loop of `tmu_utf8_from_utf16_ex` and `tmu_utf16_from_utf8_ex`, lines 4604-4646 and 4669-4711, which differ in extraction and encoding only. The
number of rounds is limited by `fuel`. -/
def transLoop {α β : Type} (extract : List α → C (Option (Nat × List α))) (encode : Nat → List β → Nat → Nat → C (Nat × List β))
    (validate : Validate) (replaceStr : List β) : Nat → List α → TransState β → C (TransState β)
  | 0, s, st => if s.length = 0 then .ok st else .error .diverge
  | fuel + 1, s, st =>
    if s.length = 0 then .ok st
    else do
      let e ← extract s
      match e with
      | none =>
        let st := { st with res := { st.res with invalid := true } }
        match validate with
        | .skip => transLoop extract encode validate replaceStr fuel (s.drop 1) st
        | .replace =>
          if st.len < replaceStr.length then
            transLoop extract encode validate replaceStr fuel s (transOut st st.buf replaceStr.length)
          else do
            let buf ← copyTo st.buf st.pos replaceStr
            transLoop extract encode validate replaceStr fuel s (transOut st buf replaceStr.length)
        | .error => transLoop extract encode validate replaceStr fuel [] { st with res := { st.res with ec := .einval } }
      | some (cp, s) => do
        let (size, buf) ← encode cp st.buf st.pos st.len
        transLoop extract encode validate replaceStr fuel s (transOut st buf size)

/-- What follows the loop, lines 4648-4660 and 4713-4725. -/
def transEnd {β : Type} (encode : Nat → List β → Nat → Nat → C (Nat × List β)) (nullterminate : Bool) (st : TransState β) :
    C (ConvResult × List β) :=
  if nullterminate ∧ (st.res.ec = .ok ∨ st.res.ec = .erange) then do
    let (size, buf) ← encode 0 st.buf st.pos st.len
    if st.len < size then .ok (⟨st.res.size + size, .erange, st.res.invalid⟩, buf)
    else .ok (st.res, buf)
  else .ok (st.res, st.buf)

/-- `tmu_utf8_from_utf16_ex`, lines 4597-4661; at most `fuel` rounds. -/
def utf8FromUtf16Ex (fuel : Nat) (s : List Unit16) (validate : Validate) (replaceStr : List Byte) (nullterminate : Bool) (out : List Byte) :
    C (ConvResult × List Byte) := do
  assert (validate ≠ .replace || replaceStr.length > 0)
  let st ← transLoop utf16Extract utf8Encode validate replaceStr fuel s ⟨⟨0, .ok, false⟩, out, 0, out.length⟩
  transEnd utf8Encode nullterminate st

/-- `tmu_utf16_from_utf8_ex`, lines 4662-4726; at most `fuel` rounds. -/
def utf16FromUtf8Ex (fuel : Nat) (s : List Byte) (validate : Validate) (replaceStr : List Unit16) (nullterminate : Bool) (out : List Unit16) :
    C (ConvResult × List Unit16) := do
  assert (validate ≠ .replace || replaceStr.length > 0)
  let st ← transLoop utf8Extract utf16Encode validate replaceStr fuel s ⟨⟨0, .ok, false⟩, out, 0, out.length⟩
  transEnd utf16Encode nullterminate st

/-- `tmu_utf8_from_utf16`, lines 4588-4591. -/
def utf8FromUtf16 (s : List Unit16) (out : List Byte) : C (ConvResult × List Byte) :=
  utf8FromUtf16Ex s.length s .error [] false out

/-- `tmu_utf16_from_utf8`, lines 4592-4595. -/
def utf16FromUtf8 (s : List Byte) (out : List Unit16) : C (ConvResult × List Unit16) :=
  utf16FromUtf8Ex s.length s .error [] false out

/-! ## Copying, comparing, counting -/

/-- Loop of `tmu_utf8_copy_truncated`, lines 4778-4780. -/
def retreat (str : List Byte) : Nat → C Nat
  | 0 => .ok 0
  | cur + 1 => do
    let x ← rd str (cur + 1)
    if x.toNat &&& 0xC0 = 0x80 then retreat str cur else .ok (cur + 1)

/-- `tmu_utf8_copy_truncated`, lines 4764-4791: the returned size and the cells of `out`. -/
def copyTruncated (str out : List Byte) : C (Nat × List Byte) :=
  if str.length ≤ out.length then do
    let out ← copyTo out 0 str
    .ok (str.length, out)
  else if out.length > 0 then do
    let x ← rd str (out.length - 1)
    let n ←
      if x.toNat ≥ 0x80 then do
        let cur ← retreat str (out.length - 1)
        let distance := out.length - cur
        let r ← utf8ValidRange ((str.drop cur).take distance)
        .ok (if r ≠ distance then cur else out.length)
      else .ok out.length
    let out ← copyTo out 0 (str.take n)
    .ok (n, out)
  else .ok (out.length, out)

/-- `memcmp` on two objects: difference of the first pair of bytes that differ (the standard only fixes the sign). -/
def memcmp (a b : List Byte) : Nat → C Int
  | 0 => .ok 0
  | n + 1 =>
    match a, b with
    | x :: a, y :: b => if x ≠ y then .ok ((x.toNat : Int) - y.toNat) else memcmp a b n
    | _, _ => .error .oob

/-- `tmu_utf8_equals`, lines 4797-4807; `same` is `a == b`. -/
def utf8Equals (same : Bool) (a b : List Byte) : C Bool :=
  if a.length ≠ b.length then .ok false
  else if same then .ok true
  else do
    let d ← memcmp a b a.length
    .ok (d == 0)

/-- The comparison of the lengths, lines 4815-4817 and 4826-4828. -/
def compareLen (a b : Nat) : Int := if a > b then 1 else if a < b then -1 else 0

/-- `tmu_utf8_compare`, lines 4808-4829; `same` is `a == b`. -/
def utf8Compare (same : Bool) (a b : List Byte) : C Int :=
  if a.length = 0 ∨ b.length = 0 then .ok ((if b.length = 0 then 1 else 0) - (if a.length = 0 then 1 else 0))
  else if same then .ok (compareLen a.length b.length)
  else do
    let len := if a.length < b.length then a.length else b.length
    let d ← memcmp a b len
    if d ≠ 0 then .ok d else .ok (compareLen a.length b.length)

/-- Loop of `tmu_utf8_count_codepoints_stream`, line 4841. -/
def countLoop : Nat → List Byte → Nat → C Nat
  | 0, _, _ => .error .diverge
  | fuel + 1, s, n => do
    let e ← utf8Extract s
    match e with
    | none => .ok n
    | some (_, s) => countLoop fuel s (n + 1)

/-- `tmu_utf8_count_codepoints_stream`, `tmu_utf8_count_codepoints_n`, lines 4834-4843. -/
def countCodepoints (s : List Byte) : C Nat := countLoop (s.length + 1) s 0

end Tm.Uni
