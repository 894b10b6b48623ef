import Verif.Json.Model

/-!
# Model of the reader with a context stack (tm_json.h)

`jsonNextToken`, which keeps track of the open brackets itself, and the loop of a program that calls it until it returns
`JTOK_EOF` or `JTOK_ERROR`.
-/

namespace Tm.Json

/-- `JsonContextEntry`, lines 506-509. -/
structure Entry where
  ctx : Ctx
  count : Nat
deriving DecidableEq, Repr

/-- `JsonReader` with its `contextStack`, lines 510-514 and 529. The top of the stack is the first entry of the list. -/
structure EReader where
  r : Reader
  stack : List Entry
  cap : Nat
deriving DecidableEq, Repr

/-- `jsonMakeReader`, lines 2545-2559, with memory for `cap` entries. -/
def makeEvents (s : List Byte) (cap : Nat) : EReader := ⟨makeReader s, [], cap⟩

/-- `jsonPushContext`, lines 1708-1726. `none` when it sets the error and returns false. -/
def pushContext (cap : Nat) (stack : List Entry) (ctx : Ctx) : Option (List Entry) :=
  let grow := if stack.length < cap then some (⟨ctx, 1⟩ :: stack) else none
  match stack with
  | [] => grow
  | e :: t => if e.ctx = ctx then (if e.count < 255 then some ({ e with count := e.count + 1 } :: t) else grow) else grow

/-- `jsonPopContext`, lines 1727-1740. `none` when it sets the error and returns false. -/
def popContext (stack : List Entry) (ctx : Ctx) : C (Option (List Entry)) :=
  match stack with
  | [] => .ok none
  | e :: t =>
    if e.ctx ≠ ctx then .ok none
    else if e.count > 1 then .ok (some ({ e with count := e.count - 1 } :: t))
    else do
      assert (e.count = 1)
      .ok (some t)

/-- Lines 2099-2104: the context of the top of the stack. -/
def topContext (stack : List Entry) : Ctx :=
  match stack with
  | [] => .null
  | e :: _ => e.ctx

/-- Lines 2106-2127: what `jsonNextToken` does with the token. -/
def track (e : EReader) (x : Tok × Reader) : C (Tok × EReader) :=
  let push (ctx : Ctx) : C (Tok × EReader) :=
    match pushContext e.cap e.stack ctx with
    | some st => .ok (x.1, { e with r := x.2, stack := st })
    | none => .ok (.error, { e with r := setError x.2 .outOfContext })
  let pop (ctx : Ctx) : C (Tok × EReader) := do
    match ← popContext e.stack ctx with
    | some st => .ok (x.1, { e with r := x.2, stack := st })
    | none => .ok (.error, { e with r := setError x.2 .mismatchedBrackets })
  match x.1 with
  | .objStart => push .object
  | .arrStart => push .array
  | .objEnd => pop .object
  | .arrEnd => pop .array
  | _ => .ok (x.1, { e with r := x.2 })

/-- `jsonNextToken`, lines 2098-2129. -/
def nextEvent (f : Flags) (e : EReader) : C (Tok × EReader) := do
  let x ← nextToken f (topContext e.stack) e.r
  track e x

/-- The loop of a program that reads all tokens:
`do { token = jsonNextToken(&reader); … } while (token != JTOK_EOF && token != JTOK_ERROR);`. The result is what is returned, with
the reader after it. -/
def readEvents (f : Flags) : Nat → EReader → C (List (Tok × Reader))
  | 0, _ => .error .diverge
  | fuel + 1, e => do
    let x ← nextEvent f e
    if x.1 = .eof || x.1 = .error then .ok [(x.1, x.2.r)]
    else do
      let rest ← readEvents f fuel x.2
      .ok ((x.1, x.2.r) :: rest)

/-- A reader is made for the text `s`, with memory for `cap` entries, and all tokens are read. -/
def events (f : Flags) (cap : Nat) (s : List Byte) : C (List (Tok × Reader)) := readEvents f (s.length + 1) (makeEvents s cap)

end Tm.Json
