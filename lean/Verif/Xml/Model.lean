import Verif.Basic

/-!
# Model of the XML reader (tm_xml.h)

Simplifications, for the whole file:

* The document is the list of the bytes before its null terminator. A pointer into it is the list of the bytes from there to the
  null terminator, so that the pointer to the null terminator is `[]`. Moving a pointer past the null terminator, or reading
  behind it, is the fault `.oob`.
* A `tmxml_stringview` is a `View`: its bytes, and the bytes of the same object that follow it.
* Sizes and depths are natural numbers: documents are shorter than 2^31 bytes. The fields of a location are 32 bit numbers that
  wrap, as in the program.
* The processing flags are one Boolean for each bit that the program looks at.
* The functions of lines 471-566 are used for UTF-8, not those of tm_unicode.h: that is what the program does unless
  tm_unicode.h is included before it.
* `unsigned long` has 64 bits.
* The memory of the reader (`sbo`, `buffer`) is represented by its size. Whether an allocation of a number of bytes succeeds is a
  parameter of a call. `tmxml_destroy_reader` is not modelled.
* Loops of the program run on a counter that is larger than the number of bytes left. Running out of it is the fault `.diverge`,
  so that theorems that exclude all faults also prove that the loop ends.
-/

namespace Tm.Xml

/-- The processing flags, lines 251-262, and `tmxml_internal_inside_comment`, lines 350-353. -/
structure Flags where
  /-- `tmxml_flags_trim_left` -/
  left : Bool := false
  /-- `tmxml_flags_trim_right` -/
  right : Bool := false
  /-- `tmxml_flags_trim_reduce_spaces` -/
  reduce : Bool := false
  /-- `tmxml_flags_trim_trim_newlines` -/
  newlines : Bool := false
  /-- `tmxml_flags_trim_trim_cdata` -/
  cdata : Bool := false
  /-- `tmxml_flags_trim_trim_attribute_values` -/
  attr : Bool := false
  /-- `tmxml_internal_inside_comment` -/
  comment : Bool := false
deriving DecidableEq, Repr

/-- A `tmxml_stringview`, lines 161-164: its bytes, and the bytes that can be read behind it. -/
structure View where
  text : List Byte
  after : List Byte
deriving DecidableEq, Repr

/-! ## Unicode, lines 462-622 -/

/-- `tmxml_is_valid_xml_codepoint`, lines 464-466. -/
def validXml (cp : Nat) : Bool :=
  (1 ≤ cp && cp ≤ 0xD7FF) || (0xE000 ≤ cp && cp ≤ 0xFFFD) || (0x10000 ≤ cp && cp ≤ 0x10FFFF)

/-- `tmxml_is_valid_codepoint`, lines 486-488. -/
def validCp (cp : Nat) : Bool := cp ≤ 0x10FFFF && (cp < 0xD800 || 0xDFFF < cp)

/-- The code point and the rest that `tmxml_utf8_extract` reads before its final check, lines 493-526. The bits that are combined
with `|` there do not overlap: they are added here. -/
def decodeOne (s : List Byte) : Nat × List Byte :=
  match s with
  | [] => (0xFFFFFFFF, [])
  | b0 :: r =>
    if b0.toNat < 0x80 then (b0.toNat, r)
    else if b0.toNat >>> 5 = 0x6 then
      match r with
      | b1 :: r => (b0.toNat % 32 * 64 + b1.toNat % 64, r)
      | _ => (0xFFFFFFFF, s)
    else if b0.toNat >>> 4 = 0xE then
      match r with
      | b1 :: b2 :: r => (b0.toNat % 16 * 4096 + b1.toNat % 64 * 64 + b2.toNat % 64, r)
      | _ => (0xFFFFFFFF, s)
    else if b0.toNat >>> 3 = 0x1E then
      match r with
      | b1 :: b2 :: b3 :: r =>
        (b0.toNat % 8 * 262144 + b1.toNat % 64 * 4096 + b2.toNat % 64 * 64 + b3.toNat % 64, r)
      | _ => (0xFFFFFFFF, s)
    else (0xFFFFFFFF, s)

/-- `tmxml_utf8_extract`, lines 489-532: the code point and the stream behind it, or nothing when it returns `TM_FALSE`. -/
def extract (s : List Byte) : Option (Nat × List Byte) :=
  if validCp (decodeOne s).1 then some (decodeOne s) else none

/-- The bytes that `tmxml_utf8_encode` produces, lines 534-566. Writing them, all or none, is `emit`. -/
def encodeCp (cp : Nat) : List Byte :=
  if cp < 0x80 then [BitVec.ofNat 8 cp]
  else if cp < 0x800 then [(0xC0 : Byte) ||| BitVec.ofNat 8 (cp >>> 6), (0x80 : Byte) ||| (BitVec.ofNat 8 cp &&& 0x3F)]
  else if cp < 0x10000 then
    [(0xE0 : Byte) ||| BitVec.ofNat 8 (cp >>> 12), (0x80 : Byte) ||| (BitVec.ofNat 8 (cp >>> 6) &&& 0x3F), (0x80 : Byte) ||| (BitVec.ofNat 8 cp &&& 0x3F)]
  else
    [(0xF0 : Byte) ||| (BitVec.ofNat 8 (cp >>> 18) &&& 0x7), (0x80 : Byte) ||| (BitVec.ofNat 8 (cp >>> 12) &&& 0x3F),
      (0x80 : Byte) ||| (BitVec.ofNat 8 (cp >>> 6) &&& 0x3F), (0x80 : Byte) ||| (BitVec.ofNat 8 cp &&& 0x3F)]

/-- `tmxml_unicode_is_name_start`, lines 578-590. -/
def nameStart (cp : Nat) : Bool :=
  cp = 0x3A || (0x41 ≤ cp && cp ≤ 0x5A) || cp = 0x5F || (0x61 ≤ cp && cp ≤ 0x7A)
    || (0xC0 ≤ cp && cp ≤ 0xD6) || (0xD8 ≤ cp && cp ≤ 0xF6) || (0xF8 ≤ cp && cp ≤ 0x2FF)
    || (0x370 ≤ cp && cp ≤ 0x37D) || (0x37F ≤ cp && cp ≤ 0x1FFF) || (0x200C ≤ cp && cp ≤ 0x200D)
    || (0x2070 ≤ cp && cp ≤ 0x218F) || (0x2C00 ≤ cp && cp ≤ 0x2FEF) || (0x3001 ≤ cp && cp ≤ 0xD7FF)
    || (0xF900 ≤ cp && cp ≤ 0xFDCF) || (0xFDF0 ≤ cp && cp ≤ 0xFFFD) || (0x10000 ≤ cp && cp ≤ 0xEFFFF)

/-- `tmxml_unicode_is_name`, lines 592-596. -/
def nameChar (cp : Nat) : Bool :=
  cp = 0x2D || cp = 0x2E || (0x30 ≤ cp && cp ≤ 0x39) || nameStart cp || cp = 0xB7
    || (0x300 ≤ cp && cp ≤ 0x36F) || (0x203F ≤ cp && cp ≤ 0x2040)

/-- The loop of `tmxml_is_valid_xml_string`, lines 601-621. -/
def validLoop : Nat → List Byte → C Bool
  | 0, _ => .error .diverge
  | fuel + 1, s =>
    match extract s with
    | none => .ok s.isEmpty
    | some (cp, cur) =>
      if cp = 0 then .ok false
      else if cp = 0x5D then
        if [0x5D, 0x3E].isPrefixOf cur then .ok false else validLoop fuel cur
      else if validXml cp then validLoop fuel cur
      else .ok false

/-- `tmxml_is_valid_xml_string`, lines 598-622. -/
def validString (v : View) : C Bool := validLoop (v.text.length + 1) v.text

/-! ## Processing of contents, lines 753-872 and 1347-1594 -/

/-- The bytes for which `TM_MEMCHR(" \t\n\r", …, 4)` finds something, lines 758 and 772. -/
def isSpace (b : Byte) : Bool := b = 0x20 || b = 0x09 || b = 0x0A || b = 0x0D

/-- `tmxml_trim_left`, lines 753-765. -/
def trimLeft (v : View) : View := { v with text := v.text.dropWhile isSpace }

/-- `tmxml_trim_right`, lines 767-778. -/
def trimRight (v : View) : View :=
  { text := (v.text.reverse.dropWhile isSpace).reverse
    after := (v.text.reverse.takeWhile isSpace).reverse ++ v.after }

/-- The local variables of the loops of `tmxml_unescape_string` (lines 1364-1369) and `tmxml_process_cdata_reduce_whitespace`
(lines 789-794). -/
structure Unesc where
  /-- `stream.cur`, up to `stream.end` -/
  cur : List Byte
  /-- `prev`, up to `stream.end` -/
  prev : List Byte
  /-- `last_was_whitespace` -/
  last : Bool
  /-- the bytes written to the buffer so far -/
  out : List Byte
  /-- `out_len` -/
  room : Nat
  /-- `content_size` -/
  size : Nat
deriving DecidableEq, Repr

/-- Write some bytes if there is room for all of them and count them: the statements on `out`, `out_len` and `content_size`, for
example lines 805-810, 846-852 and 1448-1453. -/
def emit (u : Unesc) (bs : List Byte) : Unesc :=
  if bs.length ≤ u.room then { u with out := u.out ++ bs, room := u.room - bs.length, size := u.size + bs.length }
  else { u with size := u.size + bs.length }

/-- `prev = stream.cur`, lines 856 and 1578. -/
def next (u : Unesc) : Unesc := { u with prev := u.cur }

/-- Lines 1436-1445, 1557-1566 and 834-843: a newline, when newlines are turned into spaces. `continue` does not run
`prev = stream.cur`. -/
def newline (after : List Byte) (u : Unesc) (cp : Nat) : C Unesc :=
  if cp = 0x0D && !u.cur.isEmpty then
    match rd (u.cur ++ after) 1 with
    | .error e => .error e
    | .ok c => if c = 0x0A then .ok u else .ok (next (emit u [0x20]))
  else .ok (next (emit u [0x20]))

/-- Lines 1420-1453, 1541-1575 and 818-853: what is done with a valid code point. The bytes are those that are written if nothing
has to be done with whitespace. -/
def place (f : Flags) (after : List Byte) (u : Unesc) (cp : Nat) (bytes : List Byte) : C Unesc :=
  if f.reduce then
    if cp ≤ 0x20 then
      if u.last then .ok (next u)
      else if f.newlines || (cp != 0x0D && cp != 0x0D) then .ok (next (emit { u with last := true } [0x20]))
      else .ok (next (emit { u with last := true } bytes))
    else .ok (next (emit { u with last := false } bytes))
  else if f.newlines && (cp = 0x0D || cp = 0x0A) then newline after u cp
  else .ok (next (emit u bytes))

/-- The `default` case, lines 1537-1576 and 814-854. `none` is `return TM_FALSE`. -/
def plain (f : Flags) (after : List Byte) (u : Unesc) (cp : Nat) : C (Option Unesc) :=
  if validXml cp then
    (place f after u cp (u.prev.take (u.prev.length - u.cur.length))).map some
  else .ok none

/-- The check for a decimal digit, line 1405. -/
def isDec (b : Byte) : Bool := 0x30 ≤ b.toNat && b.toNat ≤ 0x39

/-- The check for a hexadecimal digit, lines 1396-1398. -/
def isHex (b : Byte) : Bool :=
  isDec b || (0x61 ≤ b.toNat && b.toNat ≤ 0x66) || (0x41 ≤ b.toNat && b.toNat ≤ 0x46)

/-- The value of a digit, as `strtoul` has it. -/
def digitVal (b : Byte) : Nat :=
  if b.toNat ≤ 0x39 then b.toNat - 0x30 else if b.toNat ≤ 0x46 then b.toNat - 0x41 + 10 else b.toNat - 0x61 + 10

/-- `cp = TM_STRTOUL(buffer, TM_NULL, base)`, line 1413, for at most 10 digits: an `unsigned long` of 64 bits holds the number, the
assignment to `cp` keeps its low 32 bits. -/
def strtoul (base : Nat) (ds : List Byte) : Nat := ds.foldl (fun n d => n * base + digitVal d) 0 % 2 ^ 32

/-- Lines 1411-1453: a character reference with checked digits. `rest` is what follows the semicolon. -/
def charRef (f : Flags) (after : List Byte) (u : Unesc) (base : Nat) (ds rest : List Byte) : C (Option Unesc) :=
  if validXml (strtoul base ds) then
    match place f after { u with cur := rest } (strtoul base ds) (encodeCp (strtoul base ds)) with
    | .error e => .error e
    | .ok u => .ok (some u)
  else .ok none

/-- Lines 1380-1407: what follows "&#". `none` is `return TM_FALSE`. -/
def numeric (f : Flags) (after : List Byte) (u : Unesc) (c : List Byte) : C (Option Unesc) :=
  if c.isEmpty then .ok none
  else
    let ds := c.takeWhile (· != 0x3B)
    if ds.length = c.length then .ok none
    else
      let rest := c.drop (ds.length + 1)
      if ds.head? = some 0x78 then
        let hs := ds.tail
        if hs.length = 0 || hs.length > 8 then .ok none
        else if hs.all isHex then charRef f after u 16 hs rest
        else .ok none
      else if ds.length = 0 || ds.length > 10 then .ok none
      else if ds.all isDec then charRef f after u 10 ds rest
      else .ok none

/-- Lines 1455-1461 and the like: a named entity. -/
def named (u : Unesc) (c : Byte) (len : Nat) : C (Option Unesc) :=
  .ok (some (next { emit u [c] with cur := u.cur.drop len }))

/-- The case `'&'`, lines 1376-1508. -/
def ampersand (f : Flags) (after : List Byte) (u : Unesc) : C (Option Unesc) :=
  if u.cur.isEmpty then .ok none
  else if u.cur.head? = some 0x23 then numeric f after u u.cur.tail
  else if [0x6C, 0x74, 0x3B].isPrefixOf u.cur then named u 0x3C 3
  else if [0x61, 0x6D, 0x70, 0x3B].isPrefixOf u.cur then named u 0x26 4
  else if [0x71, 0x75, 0x6F, 0x74, 0x3B].isPrefixOf u.cur then named u 0x22 5
  else if [0x61, 0x70, 0x6F, 0x73, 0x3B].isPrefixOf u.cur then named u 0x27 5
  else if [0x67, 0x74, 0x3B].isPrefixOf u.cur then named u 0x3E 3
  else if u.cur.contains 0x3B then .ok (some (next (emit u [0x26])))
  else .ok none

/-- The body of the loop of `tmxml_unescape_string`, lines 1371-1578. `u.cur` is behind the code point. -/
def unescStep (f : Flags) (after : List Byte) (u : Unesc) (cp : Nat) : C (Option Unesc) :=
  if cp = 0 then .ok none
  else if cp = 0x26 then ampersand f after u
  else if cp = 0x3C then
    if !f.comment then .ok none else .ok (some (next (emit u [0x3C])))
  else if cp = 0x5D then
    if !f.comment && [0x5D, 0x3E].isPrefixOf u.cur then .ok none else .ok (some (next (emit u [0x5D])))
  else plain f after u cp

/-- The body of the loop of `tmxml_process_cdata_reduce_whitespace`, lines 796-856. -/
def cdataStep (f : Flags) (after : List Byte) (u : Unesc) (cp : Nat) : C (Option Unesc) :=
  if cp = 0 then .ok none
  else if cp = 0x5D then
    if [0x5D, 0x3E].isPrefixOf u.cur then .ok none else .ok (some (next (emit u [0x5D])))
  else plain f after u cp

/-- What `tmxml_unescape_string` and `tmxml_process_cdata_reduce_whitespace` give: the returned value, `*out_written`, and the
bytes written to the buffer. -/
structure Result where
  ok : Bool
  written : Nat
  out : List Byte
deriving DecidableEq, Repr

/-- Lines 1581-1593 and 859-871: the end of both functions. -/
def finish (u : Unesc) : Result :=
  if 0 < u.room then { ok := u.cur.isEmpty, written := u.size, out := u.out ++ [0] }
  else { ok := u.cur.isEmpty, written := u.size + 1, out := u.out }

/-- The loops, lines 1370-1579 and 795-857, and what follows them. -/
def unescLoop (step : Unesc → Nat → C (Option Unesc)) : Nat → Unesc → C Result
  | 0, _ => .error .diverge
  | fuel + 1, u =>
    match extract u.cur with
    | none => .ok (finish u)
    | some (cp, cur) =>
      match step { u with cur := cur } cp with
      | .error e => .error e
      | .ok none => .ok { ok := false, written := 0, out := u.out }
      | .ok (some u) => unescLoop step fuel u

/-- The trimming of lines 1360-1361, 1603-1604 and 922-923. -/
def trim (f : Flags) (v : View) : View :=
  let v := if f.left then trimLeft v else v
  if f.right then trimRight v else v

/-- Lines 1364-1593: `tmxml_unescape_string` after trimming, for a text that is not empty. -/
def unescapeTrimmed (f : Flags) (v : View) (room : Nat) : C Result :=
  unescLoop (unescStep f v.after) (v.text.length + 1)
    { cur := v.text, prev := v.text, last := false, out := [], room := room, size := 0 }

/-- `tmxml_unescape_string`, lines 1347-1594. The view is `str` and `len`, with the bytes that can be read behind them; `room` is
`out_len`. -/
def unescape (f : Flags) (v : View) (room : Nat) : C Result :=
  let v := trim f v
  if v.text.isEmpty then .ok { ok := true, written := 0, out := [] } else unescapeTrimmed f v room

/-- `tmxml_process_cdata_reduce_whitespace`, lines 780-872. -/
def reduceCdata (f : Flags) (v : View) (room : Nat) : C Result :=
  unescLoop (cdataStep f v.after) (v.text.length + 1)
    { cur := v.text, prev := v.text, last := false, out := [], room := room, size := 0 }

/-- `tmxml_copy_string`, lines 1645-1664: the bytes of the allocated block, if the allocation succeeds. -/
def copyString (ok : Nat → Bool) (s : List Byte) : Option (List Byte) :=
  if 0 < s.length then (if ok s.length then some s else none)
  else if ok 1 then some [0] else none

/-! ## The tokenizer, lines 365-461 and 624-751 -/

/-- `tmxml_location`, lines 166-171. -/
structure Loc where
  line : BitVec 32 := 0
  column : BitVec 32 := 0
  offset : BitVec 32 := 0
  length : BitVec 32 := 0
deriving DecidableEq, Repr

/-- `tmxml_tokenizer`, lines 173-176. -/
structure Tz where
  rest : List Byte
  loc : Loc
deriving DecidableEq, Repr

/-- `tmxml_token_type`, lines 178-193. -/
inductive Kind
  | eof | error | tagOpen | tagClose | attrName | attrValue | contents | cdata | comment | instructions
deriving DecidableEq, Repr

/-- `tmxml_token`, lines 198-203. -/
structure Token where
  kind : Kind
  contents : View
  loc : Loc
deriving DecidableEq, Repr

/-- `*p` for a pointer into the document. -/
def deref (s : List Byte) : Byte := s.headD 0

/-- `*(p + i)` for a pointer into the document. -/
def at' (s : List Byte) (i : Nat) : C Byte := rd (s ++ [0]) i

/-- `tmxml_lex_advance`, lines 711-715. -/
def advance (t : Tz) (n : Nat) : C Tz :=
  if n ≤ t.rest.length then
    .ok { rest := t.rest.drop n
          loc := { t.loc with offset := t.loc.offset + BitVec.ofNat 32 n, column := t.loc.column + BitVec.ofNat 32 n } }
  else .error .oob

/-- A view of the document: the bytes between two pointers, the second of which is the list `e`. -/
def between (s e : List Byte) : View := { text := s.take (s.length - e.length), after := e ++ [0] }

/-- The loops of lines 382-403, 418-435 and 444-458, up to the statements that are run once when the loop ends. `p` tells the bytes
that `strcspn` or `strspn` skips. The result is the location, and the pointers `current` and `next`. -/
def lineLoop (p : Byte → Bool) : Nat → Loc → List Byte → C (Loc × List Byte × List Byte)
  | 0, _, _ => .error .diverge
  | fuel + 1, loc, current =>
    if deref (current.dropWhile p) = 0x0A then
      lineLoop p fuel { loc with column := 0, line := loc.line + 1 } (current.dropWhile p).tail
    else .ok (loc, current, current.dropWhile p)

/-- `tokenizer->location.column += …; tokenizer->location.offset += …; tokenizer->current = next`, lines 399-401, 429-431 and
454-456. -/
def moved (loc : Loc) (start current next : List Byte) : Tz :=
  { rest := next
    loc := { loc with column := loc.column + BitVec.ofNat 32 (current.length - next.length)
                      offset := loc.offset + BitVec.ofNat 32 (start.length - next.length) } }

/-- `tmxml_lex_parse_attribute_value`, lines 365-407. -/
def parseAttrValue (t : Tz) : C (Token × Tz) :=
  if deref t.rest = 0x22 || deref t.rest = 0x27 then
    match lineLoop (fun b => b != 0x0A && b != deref t.rest) (t.rest.length + 1) t.loc t.rest.tail with
    | .error e => .error e
    | .ok (loc, current, next) =>
      let contents := between t.rest.tail next
      let length := BitVec.ofNat 32 contents.text.length
      if deref next = deref t.rest then
        .ok ({ kind := .attrValue, contents := contents, loc := { t.loc with length := length } },
          moved loc t.rest.tail current next.tail)
      else
        .ok ({ kind := .error, contents := contents, loc := { t.loc with length := length } },
          moved loc t.rest.tail current next)
  else .ok ({ kind := .error, contents := { text := [], after := t.rest ++ [0] }, loc := t.loc }, t)

/-- `tmxml_lex_parse_contents`, lines 409-437. -/
def parseContents (t : Tz) : C (Token × Tz) :=
  match lineLoop (fun b => b != 0x3C && b != 0x0A) (t.rest.length + 1) t.loc t.rest with
  | .error e => .error e
  | .ok (loc, current, next) =>
    let contents := between t.rest next
    .ok ({ kind := if deref next = 0 then .error else .contents, contents := contents,
           loc := { t.loc with length := BitVec.ofNat 32 contents.text.length } },
      moved loc t.rest current next)

/-- `tmxml_lex_skip_whitespace`, lines 439-461: the tokenizer, and whether the end of the document was not reached. -/
def skipWs (t : Tz) : C (Tz × Bool) :=
  match lineLoop (fun b => b = 0x20 || b = 0x09 || b = 0x0D) (t.rest.length + 1) t.loc t.rest with
  | .error e => .error e
  | .ok (loc, current, next) => .ok (moved loc t.rest current next, deref next != 0)

/-- The loop of lines 641-647: whether all code points may be in a name. -/
def nameLoop : Nat → List Byte → C Bool
  | 0, _ => .error .diverge
  | fuel + 1, s =>
    match extract s with
    | none => .ok s.isEmpty
    | some (cp, cur) => if nameChar cp then nameLoop fuel cur else .ok false

/-- Lines 635-648: whether a text is a name. -/
def validName (s : List Byte) : C Bool :=
  match extract s with
  | none => .ok false
  | some (cp, cur) => if nameStart cp then nameLoop (s.length + 1) cur else .ok false

/-- Lines 651-657: whether the name is taken to be the reserved "xml". The program looks at `next`, behind the name. -/
def reserved (next : List Byte) : C Bool :=
  if deref next = 0x78 || deref next = 0x58 then
    match at' next 1 with
    | .error e => .error e
    | .ok m =>
      if m = 0x6D || m = 0x4D then
        match at' next 2 with
        | .error e => .error e
        | .ok l => .ok (l = 0x6C || l = 0x4C)
      else .ok false
  else .ok false

/-- The bytes at which a name ends, line 633. -/
def nameEnd (b : Byte) : Bool :=
  b = 0x20 || b = 0x09 || b = 0x0D || b = 0x0A || b = 0x3D || b = 0x2F || b = 0x3E || b = 0x3F

/-- `tmxml_lex_parse_name`, lines 624-664. -/
def parseName (t : Tz) : C (Token × Tz) :=
  let next := t.rest.dropWhile (fun b => !nameEnd b)
  let contents := between t.rest next
  match validName contents.text with
  | .error e => .error e
  | .ok valid =>
    match (if contents.text.length = 3 then reserved next else .ok false) with
    | .error e => .error e
    | .ok bad =>
      .ok ({ kind := if valid && !contents.text.isEmpty && !bad then .tagOpen else .error, contents := contents,
             loc := { t.loc with length := BitVec.ofNat 32 contents.text.length } },
        moved t.loc t.rest t.rest next)

/-- `strstr`: the pointer to the first occurrence. -/
def strstr (pat : List Byte) : List Byte → Option (List Byte)
  | [] => if pat.isEmpty then some [] else none
  | b :: s => if pat.isPrefixOf (b :: s) then some (b :: s) else strstr pat s

/-- Lines 686-698: count the newlines of the text that was read, and set the column to the number of bytes behind the last one. -/
def countLines (loc : Loc) (text : List Byte) : Loc :=
  { loc with line := loc.line + BitVec.ofNat 32 (text.count 0x0A)
             column := BitVec.ofNat 32 (text.reverse.takeWhile (· != 0x0A)).length }

/-- `tmxml_lex_parse_until`, lines 666-705. -/
def parseUntil (t : Tz) (kind : Kind) (pat : List Byte) : Token × Tz :=
  match strstr pat t.rest with
  | none =>
    ({ kind := .error, contents := { text := (t.rest ++ [0]).take 1, after := (t.rest ++ [0]).drop 1 },
       loc := { t.loc with length := 1 } }, t)
  | some found =>
    let stop := found.drop pat.length
    let read := t.rest.take (t.rest.length - stop.length)
    let contents := between t.rest found
    let loc := countLines t.loc read
    ({ kind := kind, contents := contents, loc := { t.loc with length := BitVec.ofNat 32 contents.text.length } },
      { rest := stop, loc := { loc with offset := loc.offset + BitVec.ofNat 32 read.length } })

/-- `tmxml_lex_parse_cdata`, lines 707-709. -/
def parseCdata (t : Tz) : Token × Tz := parseUntil t .cdata [0x5D, 0x5D, 0x3E]

/-- `tmxml_lex_parse_comment`, lines 717-726. -/
def parseComment (t : Tz) : C (Token × Tz) :=
  let (tok, t) := parseUntil t .comment [0x2D, 0x2D]
  if deref t.rest != 0x3E then .ok ({ tok with kind := .error }, t)
  else
    match advance t 1 with
    | .error e => .error e
    | .ok t => .ok (tok, t)

/-- Lines 734-738: the contents begin with the reserved "xml". -/
def xmlPrefix (s : List Byte) : Bool :=
  match s with
  | x :: m :: l :: _ => (x = 0x78 || x = 0x58) && (m = 0x6D || m = 0x4D) && (l = 0x6C || l = 0x4C)
  | _ => false

/-- `tmxml_lex_parse_processing_instructions`, lines 728-742. -/
def parseInstructions (t : Tz) : Token × Tz :=
  let (tok, t) := parseUntil t .instructions [0x3F, 0x3E]
  if tok.kind = .error then (tok, t)
  else if tok.contents.text.isEmpty then ({ tok with kind := .error }, t)
  else if xmlPrefix tok.contents.text then ({ tok with kind := .error }, t)
  else (tok, t)

/-- `tmxml_lex_make_error`, lines 744-751. -/
def makeError (t : Tz) : Token := { kind := .error, contents := { text := [], after := t.rest ++ [0] }, loc := t.loc }

/-! ## The reader, lines 874-1200 and 1596-1635 -/

/-- `tmxml_read_context`, lines 205-213. -/
inductive Ctx
  | none | eof | error | insideTag | attrName | content | postRoot
deriving DecidableEq, Repr

/-- `tmxml_reader`, lines 220-237. -/
structure Reader where
  tz : Tz
  current : Token
  flags : Flags
  ctx : Ctx
  /-- `tags_depth` -/
  depth : Nat
  currentTag : View
  rootFound : Bool
  /-- the size that `tmxml_get_buffer` gives, lines 879-889 -/
  room : Nat
deriving DecidableEq, Repr

/-- `tmxml_make_reader`, lines 355-363. The size of the buffer is that of `sbo`, line 234. -/
def makeReader (doc : List Byte) (flags : Flags) : Reader :=
  { tz := { rest := doc, loc := {} }, current := { kind := .eof, contents := { text := [], after := [] }, loc := {} },
    flags := flags, ctx := .none, depth := 0, currentTag := { text := [], after := [] }, rootFound := false, room := 64 }

/-- `tmxml_grow_buffer`, lines 891-913, for a buffer of the size `r.room`. `none` is `return TM_FALSE`. -/
def growBuffer (alloc : Nat → Bool) (r : Reader) (size : Nat) : C (Option Reader) :=
  if r.room < size then .ok (if alloc size then some { r with room := size } else none)
  else .error .assertion

/-- Lines 1611-1634 and 928-949: process the current token with one of the two functions, again with a larger buffer if it was too
small. -/
def processCurrent (alloc : Nat → Bool) (process : Nat → C Result) (r : Reader) : C (Bool × Reader) :=
  match process r.room with
  | .error e => .error e
  | .ok res =>
    if !res.ok then .ok (false, { r with current := { r.current with kind := .error } })
    else if res.written < r.room then
      .ok (true, { r with current := { r.current with contents := { text := res.out.take res.written, after := [] } } })
    else
      match growBuffer alloc r res.written with
      | .error e => .error e
      | .ok none => .ok (false, { r with current := { r.current with kind := .error } })
      | .ok (some r) =>
        match process r.room with
        | .error e => .error e
        | .ok res =>
          if !res.ok then .ok (false, { r with current := { r.current with kind := .error } })
          else if res.written < r.room then
            .ok (true, { r with current := { r.current with contents := { text := res.out.take res.written, after := [] } } })
          else .error .assertion

/-- Clear the flags for trimming, lines 919-920 and 1600-1601. -/
def Flags.noTrim (f : Flags) : Flags := { f with left := false, right := false, reduce := false, newlines := false }

/-- `tmxml_unescape_current_token`, lines 1596-1635. -/
def unescapeCurrent (alloc : Nat → Bool) (r : Reader) : C (Bool × Reader) :=
  let flags := if r.current.kind = .attrValue && !r.flags.attr then r.flags.noTrim else r.flags
  let view := trim flags r.current.contents
  let r := { r with current := { r.current with contents := view } }
  if view.text.isEmpty then .ok (true, r)
  else
    let flags := if r.current.kind = .comment then { flags with comment := true } else flags
    processCurrent alloc (unescape flags view) r

/-- `tmxml_process_cdata`, lines 915-953. -/
def processCdata (alloc : Nat → Bool) (r : Reader) : C (Bool × Reader) :=
  let flags := if !r.flags.cdata then r.flags.noTrim else r.flags
  let view := trim flags r.current.contents
  let r := { r with current := { r.current with contents := view } }
  if view.text.isEmpty then .ok (true, r)
  else if flags.reduce then processCurrent alloc (reduceCdata flags view) r
  else
    match validString view with
    | .error e => .error e
    | .ok b => .ok (b, r)

/-- Lines 994-1017: a comment or a CDATA section. The tokenizer is behind "<!". -/
def readBang (alloc : Nat → Bool) (r : Reader) (t : Tz) : C (Bool × Reader) :=
  if [0x2D, 0x2D].isPrefixOf t.rest then do
    let t ← advance t 2
    let (tok, t) ← parseComment t
    let r := { r with current := tok }
    if tok.kind = .error then .ok (true, r)
    else
      match ← unescapeCurrent alloc r with
      | (false, r) => .ok (true, r)
      | (true, r) => .ok (true, { r with ctx := .content, tz := t })
  else if [0x5B, 0x43, 0x44, 0x41, 0x54, 0x41, 0x5B].isPrefixOf t.rest then do
    let t ← advance t 7
    if 0 < r.depth then
      let (tok, t) := parseCdata t
      let r := { r with current := tok }
      if tok.kind = .error then .ok (true, r)
      else
        match ← processCdata alloc r with
        | (false, r) => .ok (true, r)
        | (true, r) => .ok (true, { r with ctx := .content, tz := t })
    else .ok (true, { r with tz := t })
  else .ok (true, r)

/-- Lines 1021-1028 and 1178-1184: processing instructions. The tokenizer is behind "<?". The context that follows is `ctx`. -/
def readInstructions (ctx : Ctx) (r : Reader) (t : Tz) : C (Bool × Reader) :=
  let (tok, t) := parseInstructions t
  let r := { r with current := tok }
  if tok.kind = .error then .ok (true, r)
  else
    match validString tok.contents with
    | .error e => .error e
    | .ok false => .ok (true, { r with current := { tok with kind := .error } })
    | .ok true => .ok (true, { r with ctx := ctx, tz := t })

/-- Lines 1033-1050: a closing tag. The tokenizer is behind "</". Line 1044 returns without storing the tokenizer. -/
def readClose (r : Reader) (t : Tz) : C (Bool × Reader) := do
  let (tok, t) ← parseName t
  let r := { r with current := { tok with kind := .tagClose } }
  match ← skipWs t with
  | (_, false) => .ok (true, r)
  | (t, true) =>
    if deref t.rest ≠ 0x3E then .ok (true, { r with current := makeError t })
    else
      let t ← advance t 1
      let r := { r with ctx := .content }
      if r.depth = 0 then .ok (true, r)
      else if r.depth - 1 = 0 then .ok (true, { r with depth := 0, ctx := .postRoot, tz := t })
      else .ok (true, { r with depth := r.depth - 1, tz := t })

/-- Lines 1054-1070: an opening tag. The tokenizer is behind "<". -/
def readOpen (r : Reader) (t : Tz) : C (Bool × Reader) := do
  let (tok, t) ← parseName t
  let r := { r with current := tok }
  if tok.kind = .error then .ok (true, { r with tz := t })
  else
    match ← skipWs t with
    | (_, false) => .ok (true, r)
    | (t, true) =>
      if deref t.rest = 0x3E then
        let t ← advance t 1
        .ok (true, { r with ctx := .content, depth := r.depth + 1, rootFound := true, tz := t })
      else if deref t.rest = 0x2F then
        .ok (true, { r with ctx := .insideTag, currentTag := r.current.contents, rootFound := true, tz := t })
      else .ok (true, { r with ctx := .insideTag, rootFound := true, tz := t })

/-- Lines 988-1073: what begins with "<". -/
def readMarkup (alloc : Nat → Bool) (r : Reader) (t : Tz) : C (Bool × Reader) := do
  let t ← advance t 1
  if deref t.rest = 0 then .ok (true, r)
  else if deref t.rest = 0x21 then
    let t ← advance t 1
    readBang alloc r t
  else if deref t.rest = 0x3F then
    let t ← advance t 1
    readInstructions .content r t
  else if deref t.rest = 0x2F then
    let t ← advance t 1
    readClose r t
  else readOpen r t

/-- Lines 979-1097: the loop of the context `tmxml_rc_content`. -/
def readContent (alloc : Nat → Bool) : Nat → Reader → Tz → C (Bool × Reader)
  | 0, _, _ => .error .diverge
  | fuel + 1, r, t =>
    if deref t.rest = 0 then
      if r.rootFound && r.depth = 0 then
        .ok (true, { r with ctx := .eof, current := { r.current with kind := .eof } })
      else .ok (true, r)
    else if deref t.rest = 0x3C then readMarkup alloc r t
    else if !r.rootFound || r.depth = 0 then
      match skipWs t with
      | .error e => .error e
      | .ok (_, false) => .ok (true, r)
      | .ok (t, true) =>
        if deref t.rest ≠ 0x3C then .ok (true, { r with tz := t })
        else readContent alloc fuel { r with tz := t } t
    else
      match parseContents t with
      | .error e => .error e
      | .ok (tok, t) =>
        let r := { r with current := tok }
        if tok.kind = .error then .ok (true, r)
        else
          match unescapeCurrent alloc r with
          | .error e => .error e
          | .ok (false, r) => .ok (true, r)
          | .ok (true, r) =>
            if (r.flags.left || r.flags.right) && r.current.contents.text.isEmpty then
              readContent alloc fuel { r with current := makeError t } t
            else .ok (true, { r with ctx := .content, tz := t })

/-- Lines 1102-1121: the end of a tag without contents. -/
def readEmptyEnd (r : Reader) (t : Tz) : C (Bool × Reader) := do
  let t ← advance t 1
  if deref t.rest ≠ 0x3E then .ok (true, { r with current := makeError t })
  else
    let t ← advance t 1
    .ok (true, { r with ctx := if r.depth = 0 then .postRoot else .content,
                        current := { r.current with kind := .tagClose, contents := r.currentTag },
                        currentTag := { text := [], after := [] }, tz := t })

/-- Lines 1123-1140: the name of an attribute. -/
def readAttrName (r : Reader) (t : Tz) : C (Bool × Reader) := do
  let (tok, t) ← parseName t
  if tok.kind = .error then .ok (true, { r with current := tok, tz := t })
  else
    let r := { r with current := { tok with kind := .attrName } }
    match ← skipWs t with
    | (_, false) => .ok (true, r)
    | (t, true) =>
      if deref t.rest ≠ 0x3D then .ok (true, { r with current := makeError t })
      else
        let t ← advance t 1
        match ← skipWs t with
        | (_, false) => .ok (true, r)
        | (t, true) =>
          if deref t.rest ≠ 0x22 ∧ deref t.rest ≠ 0x27 then .ok (true, { r with current := makeError t })
          else .ok (true, { r with ctx := .attrName, tz := t })

/-- Lines 1143-1165: the value of an attribute. `strchr` also finds the null terminator, line 1149. -/
def readAttrValue (alloc : Nat → Bool) (r : Reader) (t : Tz) : C (Bool × Reader) := do
  let (tok, t) ← parseAttrValue t
  let r := { r with current := tok }
  if tok.kind = .error then .ok (true, { r with tz := t })
  else
    match ← unescapeCurrent alloc r with
    | (false, r) => .ok (true, r)
    | (true, r) =>
      if !([0x20, 0x09, 0x0D, 0x0A, 0x3E, 0] : List Byte).contains (deref t.rest) then .ok (true, r)
      else
        match ← skipWs t with
        | (_, false) => .ok (true, r)
        | (t, true) =>
          if deref t.rest = 0x3E then
            let t ← advance t 1
            .ok (true, { r with ctx := .content, depth := r.depth + 1, tz := t })
          else if deref t.rest = 0x2F then
            .ok (true, { r with ctx := .insideTag, currentTag := r.current.contents, tz := t })
          else .ok (true, { r with ctx := .insideTag, tz := t })

/-- Lines 1171-1175: a comment behind the root. -/
def readLastComment (alloc : Nat → Bool) (r : Reader) (t : Tz) : C (Bool × Reader) := do
  let t ← advance t 4
  let (tok, t) ← parseComment t
  let r := { r with current := tok, ctx := if tok.kind = .error then r.ctx else .postRoot }
  match ← unescapeCurrent alloc r with
  | (false, r) => .ok (true, r)
  | (true, r) => .ok (true, { r with tz := t })

/-- Lines 1167-1195: what is behind the root. -/
def readPostRoot (alloc : Nat → Bool) (r : Reader) (t : Tz) : C (Bool × Reader) := do
  match ← skipWs t with
  | (t, false) =>
    .ok (true, { r with current := { kind := .eof, contents := { text := [], after := t.rest ++ [0] }, loc := t.loc },
                        ctx := .eof, tz := t })
  | (t, true) =>
    let r := { r with current := makeError t }
    if [0x3C, 0x21, 0x2D, 0x2D].isPrefixOf t.rest then readLastComment alloc r t
    else if [0x3C, 0x3F].isPrefixOf t.rest then
      let t ← advance t 2
      readInstructions .postRoot r t
    else .ok (true, { r with tz := t })

/-- `tmxml_next_token`, lines 955-1200: the returned value and the reader. Whether an allocation succeeds is told by `alloc`. -/
def nextToken (alloc : Nat → Bool) (r : Reader) : C (Bool × Reader) :=
  let t := r.tz
  let s := { r with ctx := .error, current := makeError t }
  match r.ctx with
  | .eof => .ok (false, { s with ctx := .eof })
  | .error => .ok (false, s)
  | .none =>
    match skipWs t with
    | .error e => .error e
    | .ok (_, false) => .ok (true, s)
    | .ok (t, true) => if deref t.rest ≠ 0x3C then .ok (true, s) else readContent alloc (t.rest.length + 1) s t
  | .content => readContent alloc (t.rest.length + 1) s t
  | .insideTag => if deref t.rest = 0x2F then readEmptyEnd s t else readAttrName s t
  | .attrName => readAttrValue alloc s t
  | .postRoot => readPostRoot alloc s t

/-! ## The prolog, lines 1202-1345 -/

/-- `tmxml_prolog`, lines 239-246. -/
structure Prolog where
  version : List Byte := []
  encoding : List Byte := []
  standaloneSpecified : Bool := false
  standalone : Bool := false
  present : Bool := false
  skippedDoctype : Bool := false
deriving DecidableEq, Repr

/-- Lines 1226-1232, 1246-1252 and 1264-1270: the value of an attribute of the prolog. `none` is `return TM_FALSE`. -/
def prologValue (t : Tz) : C (Option (View × Tz)) := do
  match ← skipWs t with
  | (_, false) => .ok none
  | (t, true) =>
    if deref t.rest ≠ 0x3D then .ok none
    else
      let t ← advance t 1
      match ← skipWs t with
      | (_, false) => .ok none
      | (t, true) =>
        let (tok, t) ← parseAttrValue t
        if tok.kind ≠ .attrValue then .ok none
        else if tok.contents.text.isEmpty then .ok none
        else .ok (some (tok.contents, t))

/-- Lines 1239-1241 and 1255-1257: what follows the value of an attribute of the prolog. `strchr` also finds the null terminator. -/
def prologNext (t : Tz) : C (Option (Token × Tz)) := do
  if !([0x20, 0x09, 0x0D, 0x0A, 0x3F, 0] : List Byte).contains (deref t.rest) then .ok none
  else
    match ← skipWs t with
    | (_, false) => .ok none
    | (t, true) =>
      let (tok, t) ← parseName t
      .ok (some (tok, t))

/-- Lines 1281-1290: the end of the prolog. -/
def prologEnd (tok : Token) (out : Prolog) (t : Tz) : C (Option (Prolog × Tz)) := do
  if tok.kind = .tagOpen then .ok none
  else
    match ← skipWs t with
    | (_, false) => .ok none
    | (t, true) =>
      if out.version.isEmpty then .ok none
      else if deref t.rest ≠ 0x3F then .ok none
      else
        let t ← advance t 1
        if deref t.rest ≠ 0x3E then .ok none
        else
          let t ← advance t 1
          .ok (some (out, t))

/-- Lines 1260-1290: the optional attribute "standalone" and the end. `TM_MEMCMP(…, "no", 3)` also compares the byte behind the
value, line 1273. -/
def prologStandalone (tok : Token) (out : Prolog) (t : Tz) : C (Option (Prolog × Tz)) := do
  if tok.kind = .tagOpen ∧ tok.contents.text = [0x73, 0x74, 0x61, 0x6E, 0x64, 0x61, 0x6C, 0x6F, 0x6E, 0x65] then
    match ← prologValue t with
    | none => .ok none
    | some (v, t) =>
      let out := { out with standaloneSpecified := true }
      if v.text = [0x79, 0x65, 0x73] then prologEnd { tok with kind := .error } { out with standalone := true } t
      else if v.text.length = 2 then
        if v.text ++ v.after.take 1 = [0x6E, 0x6F, 0] then
          prologEnd { tok with kind := .error } { out with standalone := false } t
        else .ok none
      else .ok none
  else prologEnd tok out t

/-- Lines 1243-1290: the optional attribute "encoding" and what follows. -/
def prologEncoding (tok : Token) (out : Prolog) (t : Tz) : C (Option (Prolog × Tz)) := do
  if tok.kind = .tagOpen ∧ tok.contents.text = [0x65, 0x6E, 0x63, 0x6F, 0x64, 0x69, 0x6E, 0x67] then
    match ← prologValue t with
    | none => .ok none
    | some (v, t) =>
      match ← prologNext t with
      | none => .ok none
      | some (tok, t) => prologStandalone tok { out with encoding := v.text } t
  else prologStandalone tok out t

/-- Lines 1216-1290: the prolog behind "<?". `none` is `return TM_FALSE`. -/
def prologBody (t : Tz) : C (Option (Prolog × Tz)) := do
  if ![0x78, 0x6D, 0x6C].isPrefixOf t.rest then .ok none
  else
    let t ← advance t 3
    if !([0x20, 0x09, 0x0D, 0x0A, 0] : List Byte).contains (deref t.rest) then .ok none
    else
      match ← skipWs t with
      | (_, false) => .ok none
      | (t, true) =>
        let (tok, t) ← parseName t
        if tok.kind ≠ .tagOpen then .ok none
        else if tok.contents.text ≠ [0x76, 0x65, 0x72, 0x73, 0x69, 0x6F, 0x6E] then .ok none
        else
          match ← prologValue t with
          | none => .ok none
          | some (v, t) =>
            match ← prologNext t with
            | none => .ok none
            | some (tok, t) => prologEncoding tok { version := v.text, present := true, standalone := true } t

/-- Lines 1314-1335: skip a DOCTYPE. -/
def doctypeLoop : Nat → Nat → Tz → C Tz
  | 0, _, _ => .error .diverge
  | fuel + 1, depth, t =>
    let next := t.rest.dropWhile (fun b => b != 0x0A && b != 0x3C && b != 0x3E)
    let move (loc : Loc) : Tz :=
      { rest := next.tail, loc := { loc with offset := loc.offset + BitVec.ofNat 32 (t.rest.length - next.tail.length) } }
    if deref next = 0x0A then doctypeLoop fuel depth (move { t.loc with column := 0, line := t.loc.line + 1 })
    else if deref next = 0x3E then
      if depth - 1 = 0 then .ok (move t.loc) else doctypeLoop fuel (depth - 1) (move t.loc)
    else if deref next = 0x3C then doctypeLoop fuel (depth + 1) (move t.loc)
    else .ok t

/-- Lines 1293-1344: skip comments and a DOCTYPE in front of the root. The result is the returned value, and the tokenizer and
`skipped_doctype`, if the tokenizer is stored. -/
def doctypeScan (rollback : Tz) : Nat → Tz → C (Bool × Option (Tz × Bool))
  | 0, _ => .error .diverge
  | fuel + 1, t =>
    match skipWs t with
    | .error e => .error e
    | .ok (_, false) => .ok (true, none)
    | .ok (t, true) =>
      if deref t.rest ≠ 0x3C then .ok (true, some (t, false))
      else
        match at' t.rest 1 with
        | .error e => .error e
        | .ok c =>
          if c ≠ 0x21 then .ok (true, some (rollback, false))
          else
            match advance t 2 with
            | .error e => .error e
            | .ok t =>
              if [0x2D, 0x2D].isPrefixOf t.rest then
                match advance t 2 with
                | .error e => .error e
                | .ok t =>
                  match parseComment t with
                  | .error e => .error e
                  | .ok (tok, t) => if tok.kind = .error then .ok (false, none) else doctypeScan rollback fuel t
              else if [0x44, 0x4F, 0x43, 0x54, 0x59, 0x50, 0x45].isPrefixOf t.rest then
                match advance t 7 with
                | .error e => .error e
                | .ok t =>
                  match doctypeLoop (t.rest.length + 1) 1 t with
                  | .error e => .error e
                  | .ok t => .ok (true, some (t, true))
              else .ok (true, some (t, false))

/-- `tmxml_read_prolog`, lines 1202-1345: the returned value, the prolog and the reader. When the prolog is ill-formed, the fields
that were set before the error was found are not modelled, except `present` and `standalone`. -/
def readProlog (r : Reader) : C (Bool × Prolog × Reader) := do
  let scan (out : Prolog) (t : Tz) : C (Bool × Prolog × Reader) := do
    match ← doctypeScan t (t.rest.length + 1) t with
    | (b, none) => .ok (b, out, r)
    | (b, some (t, skipped)) => .ok (b, { out with skippedDoctype := skipped }, { r with tz := t })
  if [0x3C, 0x3F].isPrefixOf r.tz.rest then
    let t ← advance r.tz 2
    match ← prologBody t with
    | none => .ok (false, { present := true, standalone := true }, r)
    | some (out, t) => scan out t
  else scan {} r.tz

end Tm.Xml
