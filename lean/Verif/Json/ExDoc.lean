import Verif.Json.Ex

/-!
# Model of the extended documents (tm_json.h)

`jsonMakeDocumentEx` and `jsonAllocateDocumentEx` with all that they need. The simplifications of `Verif.Json.Model` are those of this
file; the flags for extended whitespace and escaped multi line strings are not modelled.
-/

namespace Tm.Json

/-- The loop of `jsonIsValidUntilEofEx`, lines 2082-2095: the reader. Unlike `jsonIsValidUntilEof` it sets no error. -/
def eofLoopEx (f : FlagsEx) : Nat → Reader → C Reader
  | 0, _ => .error .diverge
  | fuel + 1, r => do
    let x ← nextTokenEx f .null r
    match x.1 with
    | .comment => eofLoopEx f fuel x.2
    | _ => .ok x.2

/-- `jsonIsValidUntilEofEx`, lines 2077-2096. -/
def validUntilEofEx (f : FlagsEx) (r : Reader) : C Reader :=
  if r.rest = [] || r.last = .eof then .ok r else eofLoopEx f (r.rest.length + 1) r

/-- The loop of `jsonReadRootType` with `ex`, lines 2418-2439. -/
def rootLoopEx (f : FlagsEx) : Nat → Reader → C (Tok × Reader)
  | 0, _ => .error .diverge
  | fuel + 1, r => do
    let x ← nextTokenEx f .null r
    match x.1 with
    | .objStart => .ok x
    | .arrStart => .ok x
    | .value => .ok x
    | .comment => rootLoopEx f fuel x.2
    | _ => .ok (.error, setError x.2 .unexpectedToken)

/-- `jsonReadRootType` with `ex`, lines 2417-2440. -/
def readRootTypeEx (f : FlagsEx) (r : Reader) : C (Tok × Reader) := rootLoopEx f (r.rest.length + 1) r

/-- The first loop of `jsonSkipCurrent` with `ex`, lines 2453-2485, see `contentLoop`. -/
def contentLoopEx (f : FlagsEx) (ctx : Ctx) : Nat → Reader → C (Option Bool × Ctx × Reader)
  | 0, _ => .error .diverge
  | fuel + 1, r => do
    let x ← nextTokenEx f ctx r
    match x.1 with
    | .objStart => .ok (none, .object, x.2)
    | .arrStart => .ok (none, .array, x.2)
    | .value => .ok (some true, ctx, x.2)
    | .comment => contentLoopEx f ctx fuel x.2
    | _ => if x.2.err ≠ .ok then .ok (some false, ctx, x.2) else .error .assertion

/-- `jsonSkipCurrent` with `ex`, lines 2442-2543. The loop over brackets, `bracketLoop`, knows none of the extensions. -/
def skipCurrentEx (f : FlagsEx) (ctx : Ctx) (r : Reader) : C (Bool × Reader) := do
  if r.err ≠ .ok || r.rest = [] || !(r.last = .objStart || r.last = .arrStart || r.last = .propName) then .ok (false, r)
  else if r.last = .propName then do
    let x ← contentLoopEx f ctx (r.rest.length + 1) r
    match x.1 with
    | some b => .ok (b, x.2.2)
    | none =>
      if x.2.2.err ≠ .ok then .ok (false, x.2.2)
      else bracketLoop x.2.1 (x.2.2.last = .objStart) (x.2.2.rest.length + 1) 1 x.2.2
  else bracketLoop ctx (r.last = .objStart) (r.rest.length + 1) 1 r

/-- `jsonAllocateConcatenatedString`, lines 2700-2714. Without memory the result is a null view. -/
def allocateConcatenated (a : Alloc) (v : View) : C (View × Alloc) := do
  let str ← v.text
  match allocate a str.length 1 with
  | none => .ok (⟨true, [], 0⟩, a)
  | some (_, a) => do
    let out ← copyConcatenated str str.length
    let diff := str.length - out.length
    .ok (⟨false, out, out.length⟩, { a with ptr := a.ptr - diff, size := a.size + diff })

/-- `jsonAllocateValueEx`, lines 3015-3040. -/
def readScalarEx (a : Alloc) (r : Reader) : C (JVal × Alloc) := do
  if r.vtype = .string then do
    let x ← allocateString a r.cur
    .ok (.scalar .string x.1, x.2)
  else if r.vtype = .concatString then do
    let x ← allocateConcatenated a r.cur
    .ok (.scalar .string x.1, x.2)
  else if r.vtype = .rawString then .ok (.scalar .string r.cur, a)
  else .ok (.scalar r.vtype r.cur, a)

/-- The first loop of `jsonReadObjectEx` (lines 3045-3071) and of `jsonReadArrayEx` (lines 3148-3179): counts the members. -/
def countLoopEx (f : FlagsEx) (isObj : Bool) : Nat → Nat → Reader → C (Err × Nat × Reader)
  | 0, _, _ => .error .diverge
  | fuel + 1, n, r => do
    let ctx := if isObj then Ctx.object else .array
    let x ← nextTokenEx f ctx r
    let tok := x.1
    let r := x.2
    if (isObj && tok = .propName) || (!isObj && (tok = .objStart || tok = .arrStart)) then do
      let y ← skipCurrentEx f ctx r
      countLoopEx f isObj fuel (n + 1) y.2
    else if !isObj && tok = .value then countLoopEx f isObj fuel (n + 1) r
    else if (isObj && tok = .objEnd) || (!isObj && tok = .arrEnd) then .ok (.ok, n, r)
    else if tok = .comment then countLoopEx f isObj fuel n r
    else if r.err ≠ .ok then .ok (r.err, n, r)
    else .error .assertion

/-- Finds the value after a property name, lines 3086-3123: the first token that is no comment. -/
def valueTokenEx (f : FlagsEx) : Nat → Reader → C (Tok × Reader)
  | 0, _ => .error .diverge
  | fuel + 1, r => do
    let x ← nextTokenEx f .object r
    if x.1 = .comment then valueTokenEx f fuel x.2 else .ok x

/-- The second loops of `jsonReadObjectEx` (lines 3078-3141) and of `jsonReadArrayEx` (lines 3186-3229), see `readLoop`. A container
starts with the loop that counts and the allocation, lines 3042-3076 and 3146-3183. -/
def readLoopEx (f : FlagsEx) : Nat → Bool → Nat → List (View × JVal) → Alloc → Reader → C (Result (List (View × JVal)))
  | 0, _, _, _, _, _ => .error .diverge
  | fuel + 1, isObj, count, acc, a, r => do
    let ctx := if isObj then Ctx.object else .array
    let x ← nextTokenEx f ctx r
    if (isObj && x.1 = .objEnd) || (!isObj && x.1 = .arrEnd) then .ok ⟨x.2.err, pad count acc, a, x.2⟩
    else if x.1 = .comment then readLoopEx f fuel isObj count acc a x.2
    else if (isObj && x.1 = .propName) || (!isObj && (x.1 = .objStart || x.1 = .arrStart || x.1 = .value)) then do
      if acc.length < count then do
        let name := x.2.cur
        -- an object goes on to the value of the member
        let y ← (if isObj then valueTokenEx f (x.2.rest.length + 1) x.2 else .ok x)
        if y.1 = .objStart || y.1 = .arrStart then do
          let inner : Bool := y.1 = .objStart
          let c ← countLoopEx f inner (y.2.rest.length + 1) 0 y.2
          if c.1 ≠ .ok then .ok ⟨c.1, [], a, c.2.2⟩
          else match allocate a (c.2.1 * if inner then 48 else 32) 8 with
            | none => .ok ⟨.outOfMemory, [], a, y.2⟩
            | some (_, a) => do
              let z ← readLoopEx f fuel inner c.2.1 [] a y.2
              if z.err ≠ .ok then .ok ⟨z.err, [], z.alloc, z.reader⟩
              else readLoopEx f fuel isObj count (acc ++ [(name, container inner z.val)]) z.alloc z.reader
        else if y.1 = .value then do
          let v ← readScalarEx a y.2
          readLoopEx f fuel isObj count (acc ++ [(name, v.1)]) v.2 y.2
        else if y.2.err ≠ .ok then .ok ⟨y.2.err, [], a, y.2⟩
        else .error .assertion
      else .error .oob
    else if x.2.err ≠ .ok then .ok ⟨x.2.err, [], a, x.2⟩
    else .error .assertion

/-- `jsonReadObjectEx`, lines 3041-3144, and `jsonReadArrayEx`, lines 3145-3232. -/
def readContainerEx (f : FlagsEx) (isObj : Bool) (a : Alloc) (r : Reader) : C (Result JVal) := do
  let c ← countLoopEx f isObj (r.rest.length + 1) 0 r
  if c.1 ≠ .ok then .ok ⟨c.1, .junk, a, c.2.2⟩
  else match allocate a (c.2.1 * if isObj then 48 else 32) 8 with
    | none => .ok ⟨.outOfMemory, .junk, a, r⟩
    | some (_, a) => do
      let z ← readLoopEx f (r.rest.length + 1) isObj c.2.1 [] a r
      .ok ⟨z.err, container isObj z.val, z.alloc, z.reader⟩

/-- `jsonMakeDocumentEx`, lines 3247-3289. The offset and length of an error are not modelled. The assertion in line 3279 is. -/
def makeDocumentEx (f : FlagsEx) (a : Alloc) (s : List Byte) : C Document := do
  let x ← readRootTypeEx f (makeReader s)
  let z ← (match x.1 with
    | .objStart => readContainerEx f true a x.2
    | .arrStart => readContainerEx f false a x.2
    | .value => do
      let v ← readScalarEx a x.2
      .ok ⟨.ok, v.1, v.2, x.2⟩
    | _ => .ok ⟨.ok, .scalar .null ⟨true, [], 0⟩, a, x.2⟩ : C (Result JVal))
  let r ← (if z.reader.err = .ok then validUntilEofEx f z.reader else .ok z.reader)
  assert (r.rest = [] || r.err ≠ .ok)
  if r.err ≠ .ok then .ok ⟨.scalar .null ⟨true, [], 0⟩, r.err, r.line, r.column⟩
  else .ok ⟨z.val, z.err, 0, 0⟩

/-- `jsonAllocateDocumentEx`, lines 3234-3246, when `malloc` returns memory at the address `p`. -/
def allocateDocumentEx (f : FlagsEx) (p : Int) (s : List Byte) : C Document :=
  makeDocumentEx f ⟨p, 0, s.length * 32⟩ s

end Tm.Json
