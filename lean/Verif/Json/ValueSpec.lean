import Verif.Json.DocSpec

/-!
# What reading values should do

Independent of the model, except for the values of a document.
-/

namespace Tm.Json

open Tm Spec

/-! ### Numbers and booleans -/

/-- The number that decimal digits denote. -/
def decimal (s : List Byte) : Nat := s.foldl (fun n d => 10 * n + (d.toNat - 0x30)) 0

/-- The integer that a number without fraction and exponent denotes. -/
def integer (minus digits : List Byte) : Int := if minus = [] then decimal digits else -decimal digits

/-- The number that hexadecimal digits denote. -/
def hexadecimal (s : List Byte) : Nat := s.foldl (fun n d => 16 * n + (hexDigit d).getD 0) 0

/-- A letter, as a small letter. -/
def small (b : Byte) : Byte := if 0x41 ≤ b.toNat ∧ b.toNat ≤ 0x5A then b + 0x20 else b

/-- A value of a document that is written as this text, as a number or within quotation marks. -/
def Written (v : JVal) (text : List Byte) : Prop := Means v (.num text) ∨ Means v (.str text)

/-! ### JSON pointers (RFC 6901) -/

/-- A reference token is an array index: zero, or digits that do not start with zero (section 4). -/
def Index (t : List Byte) : Prop := IntPart t

instance (t : List Byte) : Decidable (Index t) := by unfold Index IntPart Digits; infer_instance

/-- Evaluation of reference tokens (section 4). `none` means that the pointer refers to nothing. Of several members with the same name
the first one is taken; the RFC leaves this open. -/
def evaluate : Json → List (List Byte) → Option Json
  | j, [] => some j
  | .arr items, t :: ts =>
    if Index t then
      match items[decimal t]? with
      | some j => evaluate j ts
      | none => none
    else none
  | .obj members, t :: ts =>
    match members.find? (fun m => m.1 = t) with
    | some m => evaluate m.2 ts
    | none => none
  | _, _ :: _ => none

/-- The text of a reference token in a JSON pointer (section 3): `~` is written as `~0` and `/` as `~1`. -/
def escaped : List Byte → List Byte
  | [] => []
  | b :: t => (if b = chr '~' then [chr '~', chr '0'] else if b = chr '/' then [chr '~', chr '1'] else [b]) ++ escaped t

/-- The JSON pointer with these reference tokens (section 3). -/
def pointerText (ts : List (List Byte)) : List Byte := ts.flatMap fun t => chr '/' :: escaped t

/-- Percent-encoding (section 6): a byte may be written as `%` and two hexadecimal digits; `%` itself has to be. `P` holds of the bytes
that are written so; in the RFC these may be any. -/
inductive Percent (P : Byte → Prop) : List Byte → List Byte → Prop
  | nil : Percent P [] []
  | plain {b p s} : b ≠ chr '%' → Percent P p s → Percent P (b :: p) (b :: s)
  | encoded {x y m n p s} : hexDigit x = some m → hexDigit y = some n → P (BitVec.ofNat 8 (16 * m + n)) → Percent P p s →
      Percent P (BitVec.ofNat 8 (16 * m + n) :: p) (chr '%' :: x :: y :: s)

/-- The text denotes these reference tokens: it is a JSON pointer, or a `#` and a JSON pointer that is percent-encoded (section 6). -/
def Denotes (P : Byte → Prop) (text : List Byte) (ts : List (List Byte)) : Prop :=
  text = pointerText ts ∨ ∃ s, Percent P (pointerText ts) s ∧ text = chr '#' :: s

/-- An object in the value has a member with this name. -/
inductive HasName (name : List Byte) : Json → Prop
  | here {m ms} : m ∈ ms → m.1 = name → HasName name (.obj ms)
  | member {m ms} : m ∈ ms → HasName name m.2 → HasName name (.obj ms)
  | item {j js} : j ∈ js → HasName name j → HasName name (.arr js)

/-- The text starts with a digit. -/
def StartsWithDigit (t : List Byte) : Prop := ∃ b, t.head? = some b ∧ Digit b

/-- The value is the given one or part of it. -/
inductive PartOf : JVal → JVal → Prop
  | self {v} : PartOf v v
  | item {v w vs} : PartOf w v → .array vs = w → ∀ u ∈ vs, PartOf u v
  | member {v w ms} : PartOf w v → .object ms = w → ∀ m ∈ ms, PartOf m.2 v

end Tm.Json
