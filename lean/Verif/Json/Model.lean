import Verif.Basic

/-!
# Model of the JSON reader (tm_json.h)

The functions of `tm_json.h` that read strict JSON and the extensions of the plain functions (those whose names do not end in
`Ex`): the tokenizer, skipping of values, strings, and documents.

Simplifications, for the whole file:

* A pointer into the input is the list of the bytes from there to the end of the input. Reading past the end of the input is the
  fault `.oob`.
* `JsonReader::data` and `size` are one list, `rest`. `JsonReader::current` is a `View`.
* Sizes and counts are natural numbers: inputs are shorter than 2^31 bytes.
* The flags `JSON_READER_ESCAPED_MULTILINE_STRINGS` and `JSON_READER_ALLOW_EXTENDED_WHITESPACE` are not set.
* `sizeof(JsonValue)` is 32 and `sizeof(JsonNode)` is 48, pointers have 8 bytes.
* Loops of the program run on a counter that is larger than the number of bytes left. Running out of it is the fault `.diverge`,
  so that theorems that exclude all faults also prove that the loop ends.
-/

namespace Tm.Json

/-- `JsonReaderFlags`, lines 387-478, those that the functions modelled here look at. -/
structure Flags where
  /-- `JSON_READER_SINGLE_LINE_COMMENTS` -/
  comments : Bool := false
  /-- `JSON_READER_TRAILING_COMMA` -/
  trailingComma : Bool := false
  /-- `JSON_READER_SINGLE_QUOTED_STRINGS` -/
  singleQuoted : Bool := false
  /-- `JSON_READER_HEXADECIMAL` -/
  hexadecimal : Bool := false
  /-- `JSON_READER_ALLOW_EQUAL` -/
  allowEqual : Bool := false
  /-- `JSON_READER_ALLOW_PLUS_SIGN` -/
  plusSign : Bool := false
  /-- `JSON_READER_ALLOW_LEADING_AND_TRAILING_DECIMALPOINT` -/
  decimalPoint : Bool := false
deriving DecidableEq, Repr

/-- No flag is set: `JSON_READER_STRICT`. -/
abbrev strict : Flags := {}

/-- `JsonTokenType`. -/
inductive Tok
  | eof | propName | objStart | arrStart | objEnd | arrEnd | value | comment | comma | colon | error
deriving DecidableEq, Repr

/-- `JsonValueType`, lines 352-366. -/
inductive VType
  | null | string | object | array | int | uint | bool | float | rawString | concatString
deriving DecidableEq, Repr

/-- `JsonErrorType`. -/
inductive Err
  | ok | unexpectedToken | unexpectedEof | illformedString | mismatchedBrackets | outOfContext | outOfMemory | internal
deriving DecidableEq, Repr

/-- `JsonContext`. -/
inductive Ctx
  | null | object | array
deriving DecidableEq, Repr

/-- `JsonStringView`: `data` is what the pointer points to, up to the end of the memory it points into. -/
structure View where
  null : Bool
  data : List Byte
  size : Nat
deriving DecidableEq, Repr

/-- `JsonReader`, without the context stack (see `Verif.Json.Stack`). `root` is the flag `TMJ_ROOT_ENTERED`. -/
structure Reader where
  rest : List Byte
  line : Nat
  column : Nat
  cur : View
  last : Tok
  vtype : VType
  root : Bool
  err : Err
deriving DecidableEq, Repr

/-- `jsonMakeReader`, lines 2545-2559. All other members are zero; for the last token this is `JTOK_EOF`. -/
def makeReader (s : List Byte) : Reader :=
  { rest := s, line := 1, column := 0, cur := ⟨true, [], 0⟩, last := .eof, vtype := .null, root := false, err := .ok }

/-- `jsonAdvance`, lines 1182-1186. -/
def advance (r : Reader) : C Reader :=
  match r.rest with
  | [] => .error .oob
  | _ :: t => .ok { r with rest := t, column := r.column + 1 }

/-- `reader->data[0]`. -/
def peek (r : Reader) : C Byte :=
  match r.rest with
  | [] => .error .oob
  | c :: _ => .ok c

/-- The character is in the list of white space of `skipWhitespace`, line 1202. -/
def isWs (c : Byte) : Bool := c = 0x09 || c = 0x0A || c = 0x0D || c = 0x20

/-- The loop of `skipWhitespaceHelper`, lines 1187-1200: the rest, line and column. -/
def skipLoop : List Byte → Nat → Nat → List Byte × Nat × Nat
  | [], l, c => ([], l, c)
  | b :: t, l, c =>
    if isWs b then (if b = 0x0A then skipLoop t (l + 1) 0 else skipLoop t l (c + 1))
    else (b :: t, l, c)

/-- `skipWhitespace`, lines 1201-1204, and `skipWhitespaceEx`, lines 1205-1236, which does the same without the extended flag. -/
def skipWhitespace (r : Reader) : Reader :=
  let x := skipLoop r.rest r.line r.column
  { r with rest := x.1, line := x.2.1, column := x.2.2 }

/-- `setError`, lines 1237-1241. -/
def setError (r : Reader) (e : Err) : Reader := { r with err := e, cur := ⟨false, r.rest, 1⟩ }

/-- `TM_ISDIGIT`. -/
def isDigit (c : Byte) : Bool := 0x30 ≤ c.toNat && c.toNat ≤ 0x39

/-- `TM_ISXDIGIT`. -/
def isXDigit (c : Byte) : Bool :=
  isDigit c || (0x41 ≤ c.toNat && c.toNat ≤ 0x46) || (0x61 ≤ c.toNat && c.toNat ≤ 0x66)

/-- The value `strtoul` gives to a hexadecimal digit. -/
def digitValue (c : Byte) : Nat :=
  if isDigit c then c.toNat - 0x30 else if c.toNat < 0x61 then c.toNat - 0x41 + 10 else c.toNat - 0x61 + 10

/-- `TMJ_TO_UINT(first, first + 4, &lead, 16)` for four hexadecimal digits, after the checks in lines 1259-1262 and 1274-1277. -/
def quad : List Byte → Option (Nat × List Byte)
  | a :: b :: c :: d :: t =>
    if isXDigit a && isXDigit b && isXDigit c && isXDigit d then
      some (((digitValue a * 16 + digitValue b) * 16 + digitValue c) * 16 + digitValue d, t)
    else none
  | _ => none

/-- `tmj_is_valid_codepoint`, lines 1250-1252. -/
def validCodepoint (c : Nat) : Bool := c ≤ 0x10FFFF && (c < 0xD800 || c > 0xDFFF)

/-- `tmj_get_codepoint`, lines 1254-1298, on the bytes `s`, all of which may be looked at: the number of characters taken and the
code point; `none` when the program returns 0. The sums of line 1285 wrap around at 32 bits. -/
def getCodepoint (s : List Byte) : Option (Nat × Nat) :=
  match quad s with
  | none => none
  | some (lead, t) =>
    if 0xD800 ≤ lead && lead ≤ 0xDBFF then
      match t with
      | b :: u :: t' =>
        if b = 0x5C && u = 0x75 then
          match quad t' with
          | none => none
          | some (trail, _) =>
            if 0xDC00 ≤ trail && trail ≤ 0xDFFF then
              let cp := (lead * 1024 + trail + (0x10000 + 2 ^ 32 - 0xD800 * 1024 + 2 ^ 32 - 0xDC00)) % 2 ^ 32
              if validCodepoint cp then some (10, cp) else none
            else none
        else none
      | _ => none
    else if validCodepoint lead then some (4, lead) else none

/-- A byte with the value `v`, of which only the low eight bits are kept, below the marker bits `base`. -/
def octet (base v : Nat) : Byte := BitVec.ofNat 8 (base ||| (v % 256))

/-- `tmj_utf8_encode`, lines 1299-1330: the bytes that are written when there is enough room. -/
def utf8Encode (cp : Nat) : List Byte :=
  if cp < 0x80 then [octet 0 cp]
  else if cp < 0x800 then [octet 0xC0 (cp >>> 6), octet 0x80 (cp &&& 0x3F)]
  else if cp < 0x10000 then
    [octet 0xE0 (cp >>> 12), octet 0x80 (((cp >>> 6) % 256) &&& 0x3F), octet 0x80 (cp &&& 0x3F)]
  else
    [octet 0xF0 (((cp >>> 18) % 256) &&& 0x7), octet 0x80 (((cp >>> 12) % 256) &&& 0x3F),
      octet 0x80 (((cp >>> 6) % 256) &&& 0x3F), octet 0x80 (cp &&& 0x3F)]

/-- The loop of `tmj_is_char_unescaped`, line 1342: the number of backslashes before position `n` of `s`. -/
def slashesBefore (s : List Byte) : Nat → Nat
  | 0 => 0
  | n + 1 => if s[n]? = some 0x5C then slashesBefore s n + 1 else 0

/-- `tmj_is_char_unescaped`, lines 1339-1347. -/
def isUnescaped (s : List Byte) (n : Nat) : Bool := slashesBefore s n % 2 = 0

/-- `memchr`: the position of the first `c`. -/
def memchr (s : List Byte) (c : Byte) : Option Nat := s.findIdx? (· = c)

/-- The loop of `tmj_find_char_unescaped`, lines 1416-1421; `pos` is `str - first` before the increment. -/
def findLoop (s : List Byte) (c : Byte) : Nat → Nat → C (Option Nat)
  | 0, _ => .error .diverge
  | fuel + 1, pos =>
    match memchr (s.drop (pos + 1)) c with
    | none => .ok none
    | some i => if isUnescaped s (pos + 1 + i) then .ok (some (pos + 1 + i)) else findLoop s c fuel (pos + 1 + i)

/-- `tmj_find_char_unescaped`, lines 1408-1422. -/
def findUnescaped (s : List Byte) (c : Byte) : C (Option Nat) :=
  match s with
  | [] => .ok none
  | b :: _ => if b = c then .ok (some 0) else findLoop s c (s.length + 1) 0

/-- What `tmj_is_valid_json_string` does after a backslash, lines 1360-1394, without escaped newlines. -/
def escapeAllowed (next quote : Byte) : Bool :=
  next = 0x5C || next = 0x2F || next = 0x62 || next = 0x66 || next = 0x6E || next = 0x72 || next = 0x74 || next = 0x75 ||
    (next = 0x22 && quote = 0x22) || (next = 0x27 && quote = 0x27)

/-- `tmj_is_valid_json_string`, lines 1349-1406, without escaped newlines. The string is the first `size` bytes of `s`; the byte
after a backslash (line 1358) may lie after the string. -/
def validLoop (quote : Byte) : Nat → List Byte → Nat → C Bool
  | 0, _, _ => .error .diverge
  | _ + 1, _, 0 => .ok true
  | _ + 1, [], _ + 1 => .error .oob
  | fuel + 1, c :: t, n + 1 =>
    if c.toNat < 32 then .ok false
    else if c = 0x5C then
      match t with
      | [] => .error .oob
      | next :: t' =>
        if escapeAllowed next quote then
          if next = 0x75 then
            if n = 0 then .error .oob
            else match getCodepoint (t'.take (n - 1)) with
              | none => .ok false
              | some (adv, _) => validLoop quote fuel (t'.drop adv) (n - 1 - adv)
          else validLoop quote fuel t' (n - 1)
        else .ok false
    else validLoop quote fuel t n

/-- `readQuotedString`, lines 1424-1490. -/
def readQuotedString (r : Reader) : C (Bool × Reader) := do
  match r.rest with
  | [] => .error .oob
  | quote :: body => do
    assert (quote = 0x27 || quote = 0x22)
    match ← findUnescaped body quote with
    | none => .ok (false, { r with err := .unexpectedEof, rest := [], cur := ⟨false, r.rest, 1⟩ })
    | some p => do
      let r' := { r with rest := body.drop (p + 1), cur := ⟨false, body, p⟩, column := r.column + p + 1 }
      if ← validLoop quote (p + 1) body p then .ok (true, r')
      else .ok (false, { r' with err := .illformedString, cur := ⟨false, body.drop p, 1⟩ })

/-- The loops `do jsonAdvance(reader); while (reader->size && isdigit(reader->data[0]));` after their first step. -/
def dropDigits (p : Byte → Bool) : List Byte → List Byte
  | [] => []
  | c :: t => if p c then dropDigits p t else c :: t

/-- Moves the reader to the suffix `t` of its input, with the size of the number read so far. -/
def moveTo (r : Reader) (t : List Byte) : Reader :=
  { r with rest := t, column := r.column + (r.rest.length - t.length) }

/-- `reader->current.size = reader->data - reader->current.data`, lines 1523, 1541 and 1608. -/
def setSize (r : Reader) : Reader := { r with cur := { r.cur with size := r.cur.data.length - r.rest.length } }

/-- What a part of `readNumber` does: it returns from the function, or goes on. -/
inductive Step
  | done (ok : Bool) (r : Reader)
  | go (flag : Bool) (r : Reader)
deriving DecidableEq, Repr

/-- Lines 1498-1513: the sign. -/
def numSign (f : Flags) (r : Reader) : C Step := do
  let r := { r with vtype := .uint, last := .value, cur := { r.cur with null := false, data := r.rest } }
  let c ← peek r
  let r ← if c = 0x2D then advance { r with vtype := .int }
    else if f.plusSign && c = 0x2B then do
      let r ← advance r
      .ok { r with cur := { r.cur with data := r.rest } }
    else .ok r
  if r.rest = [] then .ok (.done false (setError r .unexpectedEof)) else .ok (.go true r)

/-- Lines 1515-1553: the digits before the decimal point; the flag is `has_leading_digits`. A number of several digits at the end of
the input returns in line 1548 without setting the size. -/
def numInt (f : Flags) (r : Reader) : C Step := do
  let c ← peek r
  if c = 0x30 then do
    let r ← advance r
    if r.rest = [] then .ok (.done true (setSize r))
    else do
      let x ← peek r
      if (x = 0x78 || x = 0x58) && f.hexadecimal then do
        let r ← advance r
        if r.rest = [] then .ok (.done false (setError r .unexpectedEof))
        else do
          let d ← peek r
          if isXDigit d then .ok (.done true (setSize (moveTo r (dropDigits isXDigit r.rest))))
          else .ok (.done false (setError r .unexpectedToken))
      else .ok (.go true r)
  else if isDigit c then
    let r := moveTo r (dropDigits isDigit r.rest)
    if r.rest = [] then .ok (.done true r) else .ok (.go true r)
  else if !f.decimalPoint || c ≠ 0x2E then .ok (.done false (setError r .unexpectedToken))
  else .ok (.go false r)

/-- Lines 1555-1576: the decimal point and the digits after it; the flag is `has_trailing_digits`. -/
def numFrac (f : Flags) (r : Reader) : C Step := do
  match r.rest with
  | 0x2E :: _ => do
    let r ← advance { r with vtype := .float }
    if r.rest = [] then
      if f.decimalPoint then .ok (.done true r) else .ok (.done false (setError r .unexpectedEof))
    else do
      let d ← peek r
      if isDigit d then .ok (.go true (moveTo r (dropDigits isDigit r.rest)))
      else if !f.decimalPoint then .ok (.done false (setError r .unexpectedToken))
      else .ok (.go false r)
  | _ => .ok (.go false r)

/-- Lines 1578-1596: the exponent. The bytes in lines 1586 and 1589 are read without looking at the size. -/
def numExp (point lead trail : Bool) (r : Reader) : C Step := do
  match r.rest with
  | [] => .ok (.go trail r)
  | c :: _ =>
    if c = 0x65 || c = 0x45 then
      if !point && !lead then .ok (.done false (setError r .unexpectedToken))
      else do
        let r ← advance { r with vtype := .float }
        let s ← peek r
        let r ← if s = 0x2B || s = 0x2D then advance r else .ok r
        let d ← peek r
        if isDigit d then .ok (.go true (moveTo r (dropDigits isDigit r.rest)))
        else .ok (.done false (setError r .unexpectedToken))
    else .ok (.go trail r)

/-- Lines 1598-1609: the end of the number. -/
def numEnd (point lead trail : Bool) (r : Reader) : C (Bool × Reader) :=
  if !lead && !trail && point then
    -- one step back: `r.cur` starts at the decimal point or at a sign before it
    let r := { r with rest := r.cur.data.drop (r.cur.data.length - r.rest.length - 1), column := r.column - 1 }
    do
      assert (r.rest.head? = some 0x2E)
      .ok (false, setError r .unexpectedToken)
  else .ok (true, setSize r)

/-- Lines 1555-1609: `readNumber` after the digits before the decimal point. -/
def numTail (f : Flags) (lead : Bool) (r : Reader) : C (Bool × Reader) := do
  let point := r.rest.head? = some 0x2E
  match ← numFrac f r with
  | .done ok r => .ok (ok, r)
  | .go trail r =>
    match ← numExp point lead trail r with
    | .done ok r => .ok (ok, r)
    | .go trail r => numEnd point lead trail r

/-- `readNumber`, lines 1492-1610. -/
def readNumber (f : Flags) (r : Reader) : C (Bool × Reader) := do
  if r.rest = [] then .ok (false, setError r .unexpectedEof)
  else match ← numSign f r with
    | .done ok r => .ok (ok, r)
    | .go _ r =>
      match ← numInt f r with
      | .done ok r => .ok (ok, r)
      | .go lead r => numTail f lead r

/-- `advanceValue`, lines 1611-1618. -/
def advanceValue (r : Reader) (t : VType) (n : Nat) : Tok × Reader :=
  (.value, { r with cur := ⟨false, r.rest, n⟩, rest := r.rest.drop n, last := .value, vtype := t })

/-- The characters of `true`, `false` and `null`. -/
def kwTrue : List Byte := [0x74, 0x72, 0x75, 0x65]
/-- See `kwTrue`. -/
def kwFalse : List Byte := [0x66, 0x61, 0x6C, 0x73, 0x65]
/-- See `kwTrue`. -/
def kwNull : List Byte := [0x6E, 0x75, 0x6C, 0x6C]

/-- `readValue`, lines 1659-1675. -/
def readValue (f : Flags) (r : Reader) : C (Tok × Reader) := do
  if kwTrue.isPrefixOf r.rest then .ok (advanceValue r .bool 4)
  else if kwFalse.isPrefixOf r.rest then .ok (advanceValue r .bool 5)
  else if kwNull.isPrefixOf r.rest then .ok (advanceValue r .null 4)
  else do
    let x ← readNumber f r
    if x.1 then .ok (x.2.last, x.2) else .ok (.error, setError x.2 .unexpectedToken)

/-- `jsonCanValueFollowLastToken`, lines 1745-1765. -/
def canValueFollow (r : Reader) (ctx : Ctx) : Bool :=
  match ctx with
  | .null => !r.root
  | .object => r.last = .colon
  | .array => r.last = .arrStart || r.last = .comma

/-- `jsonCanEndBracketFollowLastToken`, lines 1766-1787. -/
def canEndFollow (f : Flags) (r : Reader) (ctx ending : Ctx) : Bool :=
  if ctx = .null || ctx ≠ ending then false
  else if r.last = .comma then f.trailingComma
  else !(r.last = .propName || r.last = .colon)

/-- `jsonReadCommentLine`, lines 1791-1808. -/
def readCommentLine (r : Reader) : Reader :=
  match memchr r.rest 0x0A with
  | none => { r with cur := ⟨false, r.rest, r.rest.length⟩, rest := [], column := 0, line := r.line + 1 }
  | some i => { r with cur := ⟨false, r.rest, i⟩, rest := r.rest.drop (i + 1), column := 0, line := r.line + 1 }

/-- `jsonParseSingleLineComment`, lines 1826-1842. -/
def parseComment (f : Flags) (r : Reader) : C (Tok × Reader) := do
  if f.comments then do
    let r ← advance r
    match r.rest with
    | [] => .ok (.error, setError r .unexpectedEof)
    | c :: _ =>
      if c = 0x2F then do
        let r ← advance r
        .ok (.comment, readCommentLine r)
      else .ok (.error, setError r .unexpectedToken)
  else .ok (.error, setError r .unexpectedToken)

/-- `jsonParseQuotedString`, lines 1914-1936. -/
def parseQuotedString (r : Reader) (ctx : Ctx) : C (Tok × Reader) := do
  let x ← readQuotedString r
  let r := x.2
  if !x.1 then .ok (.error, r)
  else
    let r := { r with vtype := .string }
    if ctx = .null then .ok (.value, { r with last := .value })
    else if ctx = .object && (r.last = .objStart || r.last = .comma) then .ok (.propName, { r with last := .propName })
    else if !canValueFollow r ctx then .ok (.error, setError r .unexpectedToken)
    else .ok (.value, { r with last := .value })

/-- `jsonParseContextStart`, lines 1937-1954. -/
def parseStart (r : Reader) (ctx : Ctx) (isObj : Bool) : C (Tok × Reader) := do
  if ctx ≠ .null && !canValueFollow r ctx then .ok (.error, setError r .unexpectedToken)
  else if ctx = .null && r.root then .ok (.error, setError r .unexpectedToken)
  else do
    let r ← advance (if ctx = .null then { r with root := true } else r)
    let token := if isObj then .objStart else .arrStart
    .ok (token, { r with last := token })

/-- `jsonParseContextEnd`, lines 1955-1965. -/
def parseEnd (f : Flags) (r : Reader) (ctx : Ctx) (isObj : Bool) : C (Tok × Reader) := do
  if !canEndFollow f r ctx (if isObj then .object else .array) then .ok (.error, setError r .unexpectedToken)
  else do
    let r ← advance r
    let token := if isObj then .objEnd else .arrEnd
    .ok (token, { r with last := token })

/-- The cases of the switch in `jsonNextTokenImplicit` that return, lines 1982-2003 and 2035-2044. -/
def dispatch (f : Flags) (r : Reader) (ctx : Ctx) (c : Byte) : C (Tok × Reader) :=
  if c = 0x2F then parseComment f r
  else if c = 0x27 then
    if f.singleQuoted then parseQuotedString r ctx else .ok (.error, setError r .unexpectedToken)
  else if c = 0x22 then parseQuotedString r ctx
  else if c = 0x7B then parseStart r ctx true
  else if c = 0x5B then parseStart r ctx false
  else if c = 0x7D then parseEnd f r ctx true
  else if c = 0x5D then parseEnd f r ctx false
  else if !canValueFollow r ctx then .ok (.error, setError r .unexpectedToken)
  else readValue f { r with root := true }

/-- The loop of `jsonNextTokenImplicit`, lines 1971-2046. -/
def nextLoop (f : Flags) (ctx : Ctx) : Nat → Reader → C (Tok × Reader)
  | 0, _ => .error .diverge
  | fuel + 1, r =>
    let r := skipWhitespace r
    match r.rest with
    | [] => if ctx ≠ .null then .ok (.error, setError r .unexpectedEof) else .ok (.eof, { r with last := .eof })
    | c :: t =>
      if c = 0x3A || c = 0x3D then
        if ctx ≠ .object || r.last ≠ .propName || (c = 0x3D && !f.allowEqual) then
          .ok (.error, setError r .unexpectedToken)
        else nextLoop f ctx fuel { r with rest := t, column := r.column + 1, last := .colon }
      else if c = 0x2C then
        if ctx = .null || !(r.last = .objEnd || r.last = .arrEnd || r.last = .value) then
          .ok (.error, setError r .unexpectedToken)
        else nextLoop f ctx fuel { r with rest := t, column := r.column + 1, last := .comma }
      else dispatch f r ctx c

/-- `jsonNextTokenImplicit`, lines 1967-2047. -/
def nextToken (f : Flags) (ctx : Ctx) (r : Reader) : C (Tok × Reader) := nextLoop f ctx (r.rest.length + 1) r

/-- The loop of `jsonIsValidUntilEof`, lines 2054-2074: the reader. -/
def eofLoop (f : Flags) : Nat → Reader → C Reader
  | 0, _ => .error .diverge
  | fuel + 1, r => do
    let x ← nextToken f .null r
    match x.1 with
    | .comment => eofLoop f fuel x.2
    | .eof => .ok x.2
    | _ => if x.2.err = .ok then .ok (setError { x.2 with rest := r.rest } .unexpectedToken) else .ok x.2

/-- `jsonIsValidUntilEof`, lines 2049-2075. -/
def validUntilEof (f : Flags) (r : Reader) : C Reader :=
  if r.rest = [] || r.last = .eof then .ok r else eofLoop f (r.rest.length + 1) r

/-- The loop of `jsonReadRootType`, lines 2418-2439. -/
def rootLoop (f : Flags) : Nat → Reader → C (Tok × Reader)
  | 0, _ => .error .diverge
  | fuel + 1, r => do
    let x ← nextToken f .null r
    match x.1 with
    | .objStart => .ok x
    | .arrStart => .ok x
    | .value => .ok x
    | .comment => rootLoop f fuel x.2
    | _ => .ok (.error, setError x.2 .unexpectedToken)

/-- `jsonReadRootType`, lines 2417-2440. -/
def readRootType (f : Flags) (r : Reader) : C (Tok × Reader) := rootLoop f (r.rest.length + 1) r

/-- The second loop of `jsonSkipCurrent`, lines 2493-2542; the opening bracket of the kind that is skipped is `{` when `isObj`. -/
def bracketLoop (ctx : Ctx) (isObj : Bool) : Nat → Nat → Reader → C (Bool × Reader)
  | 0, _, _ => .error .diverge
  | fuel + 1, depth, r =>
    if r.rest = [] then .ok (false, r)
    else
      let r := skipWhitespace r
      match r.rest with
      | [] => if ctx ≠ .null then .ok (false, setError r .unexpectedEof) else .ok (false, { r with last := .eof })
      | c :: t =>
        let r' := { r with rest := t, column := r.column + 1 }
        if c = (if isObj then 0x7B else 0x5B) then bracketLoop ctx isObj fuel (depth + 1) r'
        else if c = (if isObj then 0x7D else 0x5D) then
          if depth - 1 = 0 then .ok (true, { r' with last := if isObj then .objEnd else .arrEnd })
          else bracketLoop ctx isObj fuel (depth - 1) r'
        else if c = 0x22 then do
          let x ← readQuotedString { r with column := r.column + 1 }
          if x.1 then bracketLoop ctx isObj fuel depth x.2 else .ok (false, x.2)
        else bracketLoop ctx isObj fuel depth r'

/-- The first loop of `jsonSkipCurrent`, lines 2453-2485: from a property name to its value. `some b` returns `b` from the function.
The assertion in line 2481 is a fault. -/
def contentLoop (f : Flags) (ctx : Ctx) : Nat → Reader → C (Option Bool × Ctx × Reader)
  | 0, _ => .error .diverge
  | fuel + 1, r => do
    let x ← nextToken f ctx r
    match x.1 with
    | .objStart => .ok (none, .object, x.2)
    | .arrStart => .ok (none, .array, x.2)
    | .value => .ok (some true, ctx, x.2)
    | .comment => contentLoop f ctx fuel x.2
    | _ => if x.2.err ≠ .ok then .ok (some false, ctx, x.2) else .error .assertion

/-- `jsonSkipCurrent`, lines 2442-2543. -/
def skipCurrent (f : Flags) (ctx : Ctx) (r : Reader) : C (Bool × Reader) := do
  if r.err ≠ .ok || r.rest = [] || !(r.last = .objStart || r.last = .arrStart || r.last = .propName) then .ok (false, r)
  else if r.last = .propName then do
    let x ← contentLoop f ctx (r.rest.length + 1) r
    match x.1 with
    | some b => .ok (b, x.2.2)
    | none =>
      if x.2.2.err ≠ .ok then .ok (false, x.2.2)
      else bracketLoop x.2.1 (x.2.2.last = .objStart) (x.2.2.rest.length + 1) 1 x.2.2
  else bracketLoop ctx (r.last = .objStart) (r.rest.length + 1) 1 r

/-! ### Strings -/

/-- Writes `bs` behind what was written to a buffer of `cap` bytes. -/
def put (cap : Nat) (out bs : List Byte) : C (List Byte) :=
  if out.length + bs.length ≤ cap then .ok (out ++ bs) else .error .oob

/-- Lines 2629-2635: the rest without a backslash. `rem` is `buffer_remaining`. -/
def copyRest (cap : Nat) (first out : List Byte) (rem : Nat) : C (List Byte) :=
  if first ≠ [] && rem > 0 then put cap out (first.take rem) else .ok out

/-- The loop of `jsonCopyUnescapedString`, lines 2570-2628. `cap` is the size of the buffer, `out` what was written, `rem` is
`buffer_remaining`, `first` what is left of the string. -/
def copyLoop (cap : Nat) : Nat → List Byte → List Byte → Nat → C (List Byte)
  | 0, _, _, _ => .error .diverge
  | fuel + 1, first, out, rem =>
    match memchr first 0x5C with
    | none => copyRest cap first out rem
    | some i =>
      if rem = 0 then copyRest cap first out rem
      else do
        let part := (first.take i).take rem
        let out ← put cap out part
        let rem := rem - part.length
        match first.drop (i + 1) with
        | [] => copyRest cap [] out rem
        | [e] => copyRest cap [e] out rem
        | e :: t =>
          if e = 0x0A then copyLoop cap fuel t out rem
          else if e = 0x75 then
            match getCodepoint t with
            | none => .ok out
            | some (adv, cp) =>
              let bytes := utf8Encode cp
              if bytes.length > rem then .ok out
              else do
                let out ← put cap out bytes
                copyLoop cap fuel (t.drop adv) out (rem - bytes.length)
          else do
            let b : Byte := if e = 0x62 then 0x08 else if e = 0x66 then 0x0C else if e = 0x6E then 0x0A
              else if e = 0x72 then 0x0D else if e = 0x74 then 0x09 else e
            let out ← put cap out [b]
            copyLoop cap fuel t out rem

/-- `jsonCopyUnescapedString`, lines 2561-2637, for a string of the bytes `str` and a buffer of `size` bytes: what is in the part of
the buffer whose size is returned. -/
def copyUnescaped (str : List Byte) (size : Nat) : C (List Byte) :=
  if str = [] || size = 0 then .ok [] else copyLoop size (str.length + 1) str [] size

/-- `JsonStackAllocator`. Blocks start at the address `ptr + size`. Addresses are integers without a bound: line 2694 can move `ptr`
before the beginning of the memory. -/
structure Alloc where
  ptr : Int
  size : Nat
  capacity : Nat
deriving DecidableEq, Repr

/-- `jsonAllocate`, lines 2723-2733, with `jsonGetAlignmentOffset`, lines 2717-2722: the address. The memory is not null. -/
def allocate (a : Alloc) (size alignment : Nat) : Option (Int × Alloc) :=
  let offset := ((alignment - (a.ptr + a.size) % alignment) % alignment).toNat
  if a.size + offset + size > a.capacity then none
  else some (a.ptr + a.size + offset, { a with size := a.size + offset + size })

/-- The bytes that a view shows. The fault is reading past the end of its memory. -/
def View.text (v : View) : C (List Byte) := if v.size ≤ v.data.length then .ok (v.data.take v.size) else .error .oob

/-- `jsonAllocateUnescapedString`, lines 2685-2699. Without memory the result is a null view. -/
def allocateString (a : Alloc) (v : View) : C (View × Alloc) := do
  let str ← v.text
  match allocate a str.length 1 with
  | none => .ok (⟨true, [], 0⟩, a)
  | some (_, a) => do
    let out ← copyUnescaped str str.length
    let diff := str.length - out.length
    .ok (⟨false, out, out.length⟩, { a with ptr := a.ptr - diff, size := a.size + diff })

/-! ### Documents -/

/-- `JsonValue`, and `junk` for memory of an array of values that was never written. Numbers, keywords and strings have a view. -/
inductive JVal
  | scalar (t : VType) (content : View)
  | object (members : List (View × JVal))
  | array (values : List JVal)
  | junk

/-- The content of a value token, lines 2815-2824, 2922-2931 and 2986-2994. -/
def readScalar (a : Alloc) (r : Reader) : C (JVal × Alloc) := do
  if r.vtype = .string then do
    let x ← allocateString a r.cur
    .ok (.scalar .string x.1, x.2)
  else .ok (.scalar r.vtype r.cur, a)

/-- The first loop of `jsonReadObject` (lines 2756-2779) and of `jsonReadArray` (lines 2864-2892): counts the members. The error is
that returned. -/
def countLoop (f : Flags) (isObj : Bool) : Nat → Nat → Reader → C (Err × Nat × Reader)
  | 0, _, _ => .error .diverge
  | fuel + 1, n, r => do
    let ctx := if isObj then Ctx.object else .array
    let x ← nextToken f ctx r
    let tok := x.1
    let r := x.2
    if (isObj && tok = .propName) || (!isObj && (tok = .objStart || tok = .arrStart)) then do
      let y ← skipCurrent f ctx r
      countLoop f isObj fuel (n + 1) y.2
    else if !isObj && tok = .value then countLoop f isObj fuel (n + 1) r
    else if (isObj && tok = .objEnd) || (!isObj && tok = .arrEnd) then .ok (.ok, n, r)
    else if tok = .comment then countLoop f isObj fuel n r
    else if r.err ≠ .ok then .ok (r.err, n, r)
    else .error .assertion

/-- Finds the value after a property name, lines 2794-2836: the first token that is no comment. -/
def valueToken (f : Flags) : Nat → Reader → C (Tok × Reader)
  | 0, _ => .error .diverge
  | fuel + 1, r => do
    let x ← nextToken f .object r
    if x.1 = .comment then valueToken f fuel x.2 else .ok x

/-- What the program builds: the error returned, what was read, the allocator and the reader. -/
structure Result (α : Type) where
  err : Err
  val : α
  alloc : Alloc
  reader : Reader

/-- Fills the memory that was not written. -/
def pad (count : Nat) (vs : List (View × JVal)) : List (View × JVal) :=
  vs ++ List.replicate (count - vs.length) (⟨true, [], 0⟩, .junk)

/-- The container that was built. The names of the members of an array are ignored. -/
def container (isObj : Bool) (vs : List (View × JVal)) : JVal :=
  if isObj then .object vs else .array (vs.map (·.2))

/-- The second loops of `jsonReadObject` (lines 2788-2854) and of `jsonReadArray` (lines 2901-2947). `count` is the number of
elements that were allocated, `acc` those written; writing behind the last one is the fault `.oob`. A container starts with the
loop that counts and the allocation, lines 2750-2784 and 2859-2897. -/
def readLoop (f : Flags) : Nat → Bool → Nat → List (View × JVal) → Alloc → Reader → C (Result (List (View × JVal)))
  | 0, _, _, _, _, _ => .error .diverge
  | fuel + 1, isObj, count, acc, a, r => do
    let ctx := if isObj then Ctx.object else .array
    let x ← nextToken f ctx r
    if (isObj && x.1 = .objEnd) || (!isObj && x.1 = .arrEnd) then .ok ⟨x.2.err, pad count acc, a, x.2⟩
    else if x.1 = .comment then readLoop f fuel isObj count acc a x.2
    else if (isObj && x.1 = .propName) || (!isObj && (x.1 = .objStart || x.1 = .arrStart || x.1 = .value)) then do
      if acc.length < count then do
        let name := x.2.cur
        -- an object goes on to the value of the member
        let y ← (if isObj then valueToken f (x.2.rest.length + 1) x.2 else .ok x)
        if y.1 = .objStart || y.1 = .arrStart then do
          let inner : Bool := y.1 = .objStart
          let c ← countLoop f inner (y.2.rest.length + 1) 0 y.2
          if c.1 ≠ .ok then .ok ⟨c.1, [], a, c.2.2⟩
          else match allocate a (c.2.1 * if inner then 48 else 32) 8 with
            | none => .ok ⟨.outOfMemory, [], a, y.2⟩
            | some (_, a) => do
              let z ← readLoop f fuel inner c.2.1 [] a y.2
              if z.err ≠ .ok then .ok ⟨z.err, [], z.alloc, z.reader⟩
              else readLoop f fuel isObj count (acc ++ [(name, container inner z.val)]) z.alloc z.reader
        else if y.1 = .value then do
          let v ← readScalar a y.2
          readLoop f fuel isObj count (acc ++ [(name, v.1)]) v.2 y.2
        else if y.2.err ≠ .ok then .ok ⟨y.2.err, [], a, y.2⟩
        else .error .assertion
      else .error .oob
    else if x.2.err ≠ .ok then .ok ⟨x.2.err, [], a, x.2⟩
    else .error .assertion

/-- `jsonReadObject`, lines 2749-2857, and `jsonReadArray`, lines 2858-2950. -/
def readContainer (f : Flags) (isObj : Bool) (a : Alloc) (r : Reader) : C (Result JVal) := do
  let c ← countLoop f isObj (r.rest.length + 1) 0 r
  if c.1 ≠ .ok then .ok ⟨c.1, .junk, a, c.2.2⟩
  else match allocate a (c.2.1 * if isObj then 48 else 32) 8 with
    | none => .ok ⟨.outOfMemory, .junk, a, r⟩
    | some (_, a) => do
      let z ← readLoop f (r.rest.length + 1) isObj c.2.1 [] a r
      .ok ⟨z.err, container isObj z.val, z.alloc, z.reader⟩

/-- `JsonDocument`: the root, and the error with its line and column. -/
structure Document where
  root : JVal
  err : Err
  line : Nat
  column : Nat

/-- `jsonMakeDocument`, lines 2965-3012. The offset and length of an error are not modelled. The assertion in line 3002 is. -/
def makeDocument (f : Flags) (a : Alloc) (s : List Byte) : C Document := do
  let x ← readRootType f (makeReader s)
  let z ← (match x.1 with
    | .objStart => readContainer f true a x.2
    | .arrStart => readContainer f false a x.2
    | .value => do
      let v ← readScalar a x.2
      .ok ⟨.ok, v.1, v.2, x.2⟩
    | _ => .ok ⟨.ok, .scalar .null ⟨true, [], 0⟩, a, x.2⟩ : C (Result JVal))
  let r ← (if z.reader.err = .ok then validUntilEof f z.reader else .ok z.reader)
  assert (r.rest = [] || r.err ≠ .ok)
  if r.err ≠ .ok then .ok ⟨.scalar .null ⟨true, [], 0⟩, r.err, r.line, r.column⟩
  else .ok ⟨z.val, z.err, 0, 0⟩

/-- `jsonAllocateDocument`, lines 2952-2964, when `malloc` returns memory at the address `p`. -/
def allocateDocument (f : Flags) (p : Int) (s : List Byte) : C Document :=
  makeDocument f ⟨p, 0, s.length * 32⟩ s

end Tm.Json
