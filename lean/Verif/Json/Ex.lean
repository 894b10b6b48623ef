import Verif.Json.Model

/-!
# Model of the extended tokenizer (tm_json.h)

`jsonNextTokenImplicitEx` with all that it needs, and `jsonCopyConcatenatedString`. The simplifications of `Verif.Json.Model` are
those of this file. The functions of `ctype.h` are those of the C locale.
-/

namespace Tm.Json

/-- `JsonReaderFlags`, lines 387-478, with those that only the `Ex` functions look at. -/
structure FlagsEx extends Flags where
  /-- `JSON_READER_BLOCK_COMMENTS` -/
  blockComments : Bool := false
  /-- `JSON_READER_PYTHON_COMMENTS` -/
  pythonComments : Bool := false
  /-- `JSON_READER_UNQUOTED_PROPERTY_NAMES` -/
  unquoted : Bool := false
  /-- `JSON_READER_EXTENDED_FLOATS` -/
  extendedFloats : Bool := false
  /-- `JSON_READER_CPP_RAW_STRINGS` -/
  cppRaw : Bool := false
  /-- `JSON_READER_PYTHON_RAW_STRINGS` -/
  pythonRaw : Bool := false
  /-- `JSON_READER_CONCATENATED_STRINGS` -/
  concat : Bool := false
  /-- `JSON_READER_CONCATENATED_STRINGS_IN_ARRAYS` -/
  concatInArrays : Bool := false
  /-- `JSON_READER_IGNORE_CASE_KEYWORDS` -/
  ignoreCase : Bool := false
deriving DecidableEq, Repr

/-- `TM_TOLOWER`. -/
def lowerCase (c : Byte) : Byte := if 0x41 ≤ c.toNat && c.toNat ≤ 0x5A then c + 0x20 else c

/-- `TM_ISALPHA`. -/
def isAlpha (c : Byte) : Bool := (0x41 ≤ c.toNat && c.toNat ≤ 0x5A) || (0x61 ≤ c.toNat && c.toNat ≤ 0x7A)

/-- `TM_ISSPACE`. -/
def isSpaceEx (c : Byte) : Bool := c = 0x20 || (0x09 ≤ c.toNat && c.toNat ≤ 0x0D)

/-- `stringStartsWith`, lines 940-944, or `stringStartsWithIgnoreCase`, lines 946-950, with `stringEqualsIgnoreCase`, lines 928-938,
for a keyword that is not empty, in small letters if the case is ignored. -/
def startsWith (ignoreCase : Bool) (s kw : List Byte) : Bool :=
  if ignoreCase then kw.isPrefixOf (s.map lowerCase) else kw.isPrefixOf s

/-- `Infinity`, or `infinity` for comparisons that ignore the case, lines 1635 and 1645. -/
def kwInfinity (ignoreCase : Bool) : List Byte :=
  (if ignoreCase then 0x69 else 0x49) :: [0x6E, 0x66, 0x69, 0x6E, 0x69, 0x74, 0x79]

/-- `NaN`, or `nan` for comparisons that ignore the case, lines 1639 and 1649. -/
def kwNan (ignoreCase : Bool) : List Byte := if ignoreCase then [0x6E, 0x61, 0x6E] else [0x4E, 0x61, 0x4E]

/-- `offset` in `readNumberEx`, lines 1624-1633. -/
def signSize (f : FlagsEx) (s : List Byte) : Nat :=
  match s with
  | [] => 0
  | c :: _ => if c = 0x2D then 1 else if c = 0x2B && f.plusSign then 1 else 0

/-- `readNumberEx`, lines 1619-1658. -/
def readNumberEx (f : FlagsEx) (r : Reader) : C (Bool × Reader) :=
  if f.extendedFloats && r.rest ≠ [] then
    if startsWith f.ignoreCase (r.rest.drop (signSize f r.rest)) (kwInfinity f.ignoreCase) then
      .ok (true, (advanceValue r .float (8 + signSize f r.rest)).2)
    else if startsWith f.ignoreCase (r.rest.drop (signSize f r.rest)) (kwNan f.ignoreCase) then
      .ok (true, (advanceValue r .float (3 + signSize f r.rest)).2)
    else readNumber f.toFlags r
  else readNumber f.toFlags r

/-- `readValueEx`, lines 1676-1706. -/
def readValueEx (f : FlagsEx) (r : Reader) : C (Tok × Reader) := do
  if startsWith f.ignoreCase r.rest kwTrue then .ok (advanceValue r .bool 4)
  else if startsWith f.ignoreCase r.rest kwFalse then .ok (advanceValue r .bool 5)
  else if startsWith f.ignoreCase r.rest kwNull then .ok (advanceValue r .null 4)
  else do
    let x ← readNumberEx f r
    if x.1 then .ok (x.2.last, x.2) else .ok (.error, setError x.2 .unexpectedToken)

/-- `jsonCountNewlines`, lines 1809-1825. -/
def countNewlines (r : Reader) : Reader :=
  let s := r.cur.data.take r.cur.size
  if 0x0A ∈ s then { r with column := (s.reverse.takeWhile (· ≠ 0x0A)).length, line := r.line + s.count 0x0A }
  else { r with column := r.column + s.length }

/-- `jsonParsePythonComment`, lines 1843-1854. -/
def parsePythonComment (f : FlagsEx) (r : Reader) : C (Tok × Reader) := do
  if f.pythonComments then
    if (← peek r) = 0x23 then do
      let r ← advance r
      .ok (.comment, readCommentLine r)
    else .ok (.error, setError r .unexpectedToken)
  else .ok (.error, setError r .unexpectedToken)

/-- The loop of `jsonParseBlockComment`, lines 1871-1886. The first component is false if an error was set. -/
def blockLoop : Nat → Reader → C (Bool × Reader)
  | 0, _ => .error .diverge
  | fuel + 1, r =>
    match memchr r.rest 0x2A with
    | none => .ok (true, r)
    | some i =>
      let r := { r with cur := { r.cur with size := r.cur.size + i }, rest := r.rest.drop (i + 1) }
      match r.rest with
      | [] => .ok (false, setError r .unexpectedEof)
      | c :: t =>
        if c = 0x2F then .ok (true, { r with rest := t })
        else blockLoop fuel { r with cur := { r.cur with size := r.cur.size + 1 } }

/-- `jsonParseBlockComment`, lines 1855-1895. -/
def parseBlockComment (f : FlagsEx) (r : Reader) : C (Tok × Reader) := do
  if f.blockComments then do
    let r ← advance r
    match r.rest with
    | [] => .ok (.error, setError r .unexpectedEof)
    | c :: _ =>
      if c = 0x2A then do
        let r ← advance r
        if r.rest = [] then .ok (.error, setError r .unexpectedEof)
        else do
          let x ← blockLoop (r.rest.length + 1) { r with cur := ⟨false, r.rest, 0⟩ }
          if x.1 then
            let r := countNewlines x.2
            .ok (.comment, { r with column := r.column + 2 })
          else .ok (.error, x.2)
      else .ok (.error, setError r .unexpectedToken)
  else .ok (.error, setError r .unexpectedToken)

/-- `jsonParseComment`, lines 1896-1913. -/
def parseCommentEx (f : FlagsEx) (r : Reader) : C (Tok × Reader) :=
  if f.comments || f.blockComments then
    match r.rest with
    | _ :: c :: _ =>
      if c = 0x2F then parseComment f.toFlags r
      else if c = 0x2A then parseBlockComment f r
      else .ok (.error, setError r .unexpectedToken)
    | _ => .ok (.error, setError r .unexpectedEof)
  else .ok (.error, setError r .unexpectedToken)

/-- The chars of an identifier, lines 2152-2153. -/
def isIdent (c : Byte) : Bool := isDigit c || isAlpha c || c = 0x5F || c = 0x24

/-- `jsonParseUnquotedPropertyName`, lines 2130-2161. -/
def parseUnquoted (f : FlagsEx) (ctx : Ctx) (r : Reader) : C (Bool × Reader) := do
  if ctx = .object && f.unquoted && r.last ≠ .colon then
    if r.last = .objStart || r.last = .comma then do
      let r := { r with cur := ⟨false, r.rest, 0⟩ }
      let c ← peek r
      if isDigit c || (!isAlpha c && c ≠ 0x5F && c ≠ 0x24) then .ok (false, r)
      else do
        let r ← advance r
        .ok (true, { setSize (moveTo r (dropDigits isIdent r.rest)) with last := .propName })
    else .ok (false, setError r .unexpectedToken)
  else .ok (false, r)

/-- `jsonParsePythonRawString`, lines 2163-2183. -/
def parsePythonRaw (f : FlagsEx) (ctx : Ctx) (r : Reader) : C (Bool × Reader) := do
  if (ctx = .array || r.last = .colon) && f.pythonRaw then do
    let c ← peek r
    if c = 0x72 || c = 0x52 then do
      let r ← advance r
      match r.rest with
      | [] => .ok (false, setError r .unexpectedEof)
      | q :: _ =>
        if q = 0x22 || q = 0x27 then do
          let x ← readQuotedString r
          if x.1 then .ok (true, { x.2 with last := .value, vtype := .rawString })
          else .ok (false, setError x.2 .unexpectedToken)
        else .ok (false, setError r .unexpectedToken)
    else .ok (false, r)
  else .ok (false, r)

/-- `jsonIsValidDelimChar`, lines 2184-2186. -/
def isDelim (c : Byte) : Bool := c ≠ 0x29 && c ≠ 0x28 && c ≠ 0x5C && !isSpaceEx c

/-- The loop of `jsonParseCppRawString` that reads the delimiter, lines 2207-2211; the number is how many chars may follow. The char
is stored after the reader was moved. -/
def delimLoop : Nat → Reader → List Byte → C (Reader × List Byte)
  | 0, r, d => .ok (r, d)
  | n + 1, r, d =>
    match r.rest with
    | [] => .ok (r, d)
    | c :: _ =>
      if isDelim c then do
        let r ← advance r
        let e ← peek r
        delimLoop n r (d ++ [e])
      else .ok (r, d)

/-- The loop of `jsonParseCppRawString` that looks for the end, lines 2226-2239, and the check after it, lines 2240-2243. -/
def rawLoop (delim : List Byte) : Nat → Reader → C (Bool × Reader)
  | 0, _ => .error .diverge
  | fuel + 1, r =>
    match memchr r.rest 0x29 with
    | none => .ok (false, setError r .unexpectedEof)
    | some i =>
      let r := { r with rest := r.rest.drop (i + 1) }
      if r.rest.length < delim.length then .ok (false, setError r .unexpectedEof)
      else if delim.isPrefixOf r.rest then
        .ok (true, { r with cur := { r.cur with size := r.cur.data.length - (r.rest.length + 1) }, rest := r.rest.drop delim.length })
      else rawLoop delim fuel r

/-- `jsonParseCppRawString`, lines 2187-2257. -/
def parseCppRaw (f : FlagsEx) (ctx : Ctx) (guard : Reader) : C (Bool × Reader) := do
  if (ctx = .array || guard.last = .colon) && f.cppRaw then do
    let c ← peek guard
    if c = 0x72 || c = 0x52 then do
      let r ← advance guard
      match r.rest with
      | [] => .ok (false, setError r .unexpectedEof)
      | q :: _ =>
        if q = 0x22 then do
          let r ← advance r
          if r.rest = [] then .ok (false, setError r .unexpectedEof)
          else do
            let x ← delimLoop 16 r []
            match x.1.rest with
            | [] => .ok (false, guard)
            | b :: _ =>
              if b = 0x28 then do
                let r ← advance x.1
                if r.rest = [] then .ok (false, setError r .unexpectedEof)
                else do
                  let y ← rawLoop (x.2 ++ [0x22]) (r.rest.length + 1) { r with cur := ⟨false, r.rest, 0⟩ }
                  if y.1 then .ok (true, { y.2 with last := .value, vtype := .rawString }) else .ok y
              else .ok (false, guard)
        else .ok (false, guard)
    else .ok (false, guard)
  else .ok (false, guard)

/-- The loop of `jsonParseQuotedStringEx`, lines 2268-2279; `v` is `current`. The condition of the loop reads a char without
looking at the size. -/
def concatLoop (quot : Byte) : Nat → Reader → View → C (Reader × View)
  | 0, _, _ => .error .diverge
  | fuel + 1, r, v =>
    let r := skipWhitespace r
    match r.rest with
    | [] => .ok (r, v)
    | c :: _ =>
      if c = quot then do
        let x ← readQuotedString r
        if x.1 then do
          let r := { x.2 with vtype := .concatString }
          let v := { v with size := v.data.length - r.cur.data.length + r.cur.size }
          if (← peek r) = quot then concatLoop quot fuel r v else .ok (r, v)
        else .ok (r, v)
      else .ok (r, v)

/-- `jsonParseQuotedStringEx`, lines 2259-2289. -/
def parseQuotedStringEx (f : FlagsEx) (ctx : Ctx) (r : Reader) : C (Tok × Reader) := do
  let quot ← peek r
  let x ← parseQuotedString r ctx
  if x.1 = .value && ((f.concat && ctx = .object) || (f.concatInArrays && ctx = .array)) then do
    let y ← concatLoop quot (x.2.rest.length + 1) x.2 x.2.cur
    if y.1.vtype = .concatString then .ok (x.1, { y.1 with cur := { y.2 with data := quot :: y.2.data, size := y.2.size + 1 } })
    else .ok (x.1, { y.1 with cur := y.2 })
  else .ok x

/-- Lines 2376-2384: the value of the default case after the extensions. -/
def plainValue (f : FlagsEx) (ctx : Ctx) (r : Reader) : C (Tok × Reader) :=
  if r.err ≠ .ok then .ok (.error, r)
  else if !canValueFollow r ctx then .ok (.error, setError r .unexpectedToken)
  else readValueEx f { r with root := true }

/-- The default case of the switch in `jsonNextTokenImplicitEx`, lines 2362-2385. -/
def defaultEx (f : FlagsEx) (ctx : Ctx) (c : Byte) (r : Reader) : C (Tok × Reader) := do
  let x ← parseUnquoted f ctx r
  if x.1 then .ok (.propName, x.2)
  else if c = 0x72 || c = 0x52 then do
    let y ← parseCppRaw f ctx x.2
    if y.1 then .ok (y.2.last, y.2)
    else if y.2.err ≠ .ok then .ok (.error, y.2)
    else do
      let z ← parsePythonRaw f ctx y.2
      if z.1 then .ok (z.2.last, z.2) else plainValue f ctx z.2
  else plainValue f ctx x.2

/-- The cases of the switch in `jsonNextTokenImplicitEx` that return, lines 2306-2330 and 2362-2385. -/
def dispatchEx (f : FlagsEx) (r : Reader) (ctx : Ctx) (c : Byte) : C (Tok × Reader) :=
  if c = 0x2F then parseCommentEx f r
  else if c = 0x23 then parsePythonComment f r
  else if c = 0x27 then
    if f.singleQuoted then parseQuotedStringEx f ctx r else .ok (.error, setError r .unexpectedToken)
  else if c = 0x22 then parseQuotedStringEx f ctx r
  else if c = 0x7B then parseStart r ctx true
  else if c = 0x5B then parseStart r ctx false
  else if c = 0x7D then parseEnd f.toFlags r ctx true
  else if c = 0x5D then parseEnd f.toFlags r ctx false
  else defaultEx f ctx c r

/-- The loop of `jsonNextTokenImplicitEx`, lines 2295-2387. -/
def nextLoopEx (f : FlagsEx) (ctx : Ctx) : Nat → Reader → C (Tok × Reader)
  | 0, _ => .error .diverge
  | fuel + 1, r =>
    let r := skipWhitespace r
    match r.rest with
    | [] => if ctx ≠ .null then .ok (.error, setError r .unexpectedEof) else .ok (.eof, { r with last := .eof })
    | c :: t =>
      if c = 0x3A || c = 0x3D then
        if ctx ≠ .object || r.last ≠ .propName || (c = 0x3D && !f.allowEqual) then
          .ok (.error, setError r .unexpectedToken)
        else nextLoopEx f ctx fuel { r with rest := t, column := r.column + 1, last := .colon }
      else if c = 0x2C then
        if ctx = .null || !(r.last = .objEnd || r.last = .arrEnd || r.last = .value) then
          .ok (.error, setError r .unexpectedToken)
        else nextLoopEx f ctx fuel { r with rest := t, column := r.column + 1, last := .comma }
      else dispatchEx f r ctx c

/-- `jsonNextTokenImplicitEx`, lines 2291-2388. -/
def nextTokenEx (f : FlagsEx) (ctx : Ctx) (r : Reader) : C (Tok × Reader) := nextLoopEx f ctx (r.rest.length + 1) r

/-- Lines 2673-2682 of `jsonCopyConcatenatedString`: the chars that are left, and the terminator, which is written behind the end of
what was written by as many chars as were written. `size` is what is left of the buffer as the program counts it. -/
def concatEnd (cap : Nat) (p : List Byte) (sz : Nat) (out : List Byte) (size : Nat) : C (List Byte) := do
  let out ← (if sz ≠ 0 then put cap out (p.take sz) else .ok out)
  if out.length < size then
    if out.length + out.length < cap then .ok out else .error .oob
  else .ok out

/-- The loop of `jsonCopyConcatenatedString`, lines 2649-2672. `cap` is the size of the buffer. -/
def copyConcatLoop (quot : Byte) (cap : Nat) : Nat → List Byte → Nat → Bool → List Byte → Nat → C (List Byte)
  | 0, _, _, _, _, _ => .error .diverge
  | fuel + 1, p, sz, add, out, size =>
    match memchr (p.take sz) quot with
    | none => concatEnd cap p sz out size
    | some i =>
      if add then do
        let skip := decide (0 < i) && !isUnescaped p i
        let part ← copyUnescaped (p.take (if skip then i + 1 else i)) size
        copyConcatLoop quot cap fuel (p.drop (i + 1)) (sz - (i + 1)) skip (out ++ part) (size - part.length)
      else copyConcatLoop quot cap fuel (p.drop (i + 1)) (sz - (i + 1)) true out size

/-- `jsonCopyConcatenatedString`, lines 2638-2683, for a string of the bytes `str` and a buffer of `size` bytes: what is in the part of
the buffer whose size is returned. The chars behind it that the terminator overwrites are not modelled. -/
def copyConcatenated (str : List Byte) (size : Nat) : C (List Byte) :=
  match str with
  | [] => .ok []
  | quot :: t => if t = [] || size = 0 then .ok [] else copyConcatLoop quot size (t.length + 1) t (min size t.length) true [] size

end Tm.Json
