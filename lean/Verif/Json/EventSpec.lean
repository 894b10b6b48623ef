import Verif.Json.Stack
import Verif.Json.DocSpec

/-!
# What reading token by token should report

Independent of how the reader keeps track of the brackets.
-/

namespace Tm.Json

open Tm Spec

/-- What there is to report about a text: brackets (of an object when `isObj`), names of members, and values. -/
inductive Ev
  | start (isObj : Bool)
  | stop (isObj : Bool)
  | name (text : List Byte)
  | null
  | bool (b : Bool)
  | num (text : List Byte)
  | str (text : List Byte)

mutual

/-- What there is to report about a value, in the order of the text. -/
def evs : Json → List Ev
  | .null => [.null]
  | .bool b => [.bool b]
  | .num t => [.num t]
  | .str t => [.str t]
  | .arr js => .start false :: (evsItems js ++ [.stop false])
  | .obj ms => .start true :: (evsMembers ms ++ [.stop true])

/-- The elements of an array. -/
def evsItems : List Json → List Ev
  | [] => []
  | j :: js => evs j ++ evsItems js

/-- The members of an object. -/
def evsMembers : List (List Byte × Json) → List Ev
  | [] => []
  | (name, j) :: ms => .name name :: (evs j ++ evsMembers ms)

end

/-- A token, and what the reader shows after it, reports this. Strings and names are shown as they are written between the quotation
marks. A number is shown as it is written, unless the text ends with it. -/
def Reports (x : Tok × Reader) : Ev → Prop
  | .start isObj => x.1 = if isObj then .objStart else .arrStart
  | .stop isObj => x.1 = if isObj then .objEnd else .arrEnd
  | .name text => x.1 = .propName ∧ ∃ raw, Body raw text ∧ Shows x.2.cur raw
  | .null => x.1 = .value ∧ x.2.vtype = .null ∧ Shows x.2.cur (ascii "null")
  | .bool b => x.1 = .value ∧ x.2.vtype = .bool ∧ Shows x.2.cur (ascii (if b then "true" else "false"))
  | .num text => x.1 = .value ∧ (∃ m i f e, Number m i f e ∧ text = m ++ i ++ f ++ e ∧ x.2.vtype = kind m f e) ∧
      (x.2.rest ≠ [] → Shows x.2.cur text)
  | .str text => x.1 = .value ∧ x.2.vtype = .string ∧ ∃ raw, Body raw text ∧ Shows x.2.cur raw

/-! ### Brackets -/

/-- The brackets among the tokens match. -/
inductive Balanced : List Tok → Prop
  | nil : Balanced []
  | other {t ts} : t ≠ .objStart → t ≠ .arrStart → t ≠ .objEnd → t ≠ .arrEnd → Balanced ts → Balanced (t :: ts)
  | object {ts us} : Balanced ts → Balanced us → Balanced (.objStart :: (ts ++ .objEnd :: us))
  | array {ts us} : Balanced ts → Balanced us → Balanced (.arrStart :: (ts ++ .arrEnd :: us))

/-- The brackets that are open after the tokens, the innermost first (`true` for those of objects), if `p` were open before. -/
def openAfter (p : List Bool) : List Tok → List Bool
  | [] => p
  | .objStart :: ts => openAfter (true :: p) ts
  | .arrStart :: ts => openAfter (false :: p) ts
  | .objEnd :: ts => openAfter p.tail ts
  | .arrEnd :: ts => openAfter p.tail ts
  | _ :: ts => openAfter p ts

/-! ### Memory for the stack -/

/-- `path` lists the brackets that are open, the innermost first (`true` for those of objects). It consists of runs of equal brackets;
a run of `n` brackets takes an entry for every 255 of them. `Entries path k`: `k` entries are taken in all. -/
inductive Entries : List Bool → Nat → Prop
  | nil : Entries [] 0
  | run {o n p k} : p.head? ≠ some o → 0 < n → Entries p k → Entries (List.replicate n o ++ p) ((n + 254) / 255 + k)

/-- With `cap` entries there is room for all the brackets that are open at any time while these tokens are read. -/
def Room (cap : Nat) (ts : List Tok) : Prop := ∀ us, us <+: ts → ∀ k, Entries (openAfter [] us) k → k ≤ cap

mutual

/-- The nestings of brackets in a value that stands within the brackets `p`. -/
def nestings (p : List Bool) : Json → List (List Bool)
  | .arr js => (false :: p) :: nestingsItems (false :: p) js
  | .obj ms => (true :: p) :: nestingsMembers (true :: p) ms
  | _ => []

/-- Those of elements. -/
def nestingsItems (p : List Bool) : List Json → List (List Bool)
  | [] => []
  | j :: js => nestings p j ++ nestingsItems p js

/-- Those of members. -/
def nestingsMembers (p : List Bool) : List (List Byte × Json) → List (List Bool)
  | [] => []
  | (_, j) :: ms => nestings p j ++ nestingsMembers p ms

end

/-- There is enough memory for the brackets of a value. -/
def Fits (cap : Nat) (j : Json) : Prop := ∀ p ∈ nestings [] j, ∃ k, Entries p k ∧ k ≤ cap

mutual

/-- How deep the brackets of a value are nested. -/
def depth : Json → Nat
  | .arr js => depthItems js + 1
  | .obj ms => depthMembers ms + 1
  | _ => 0

/-- Those of elements. -/
def depthItems : List Json → Nat
  | [] => 0
  | j :: js => max (depth j) (depthItems js)

/-- Those of members. -/
def depthMembers : List (List Byte × Json) → Nat
  | [] => 0
  | (_, j) :: ms => max (depth j) (depthMembers ms)

end

/-! ### Several values in a row -/

/-- Values with white space around them, one after the other. With one value this is a JSON text. -/
inductive Row : List Json → List Byte → Prop
  | nil {a} : Ws a → Row [] a
  | cons {a j v js t} : Ws a → Value Any Any j v → Row js t → Row (j :: js) (a ++ (v ++ t))

/-- The value is a string. -/
def IsStr : Json → Bool
  | .str _ => true
  | _ => false

end Tm.Json
