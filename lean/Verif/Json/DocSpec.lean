import Verif.Json.Model
import Verif.Json.Spec
import Batteries.Data.List.Basic

/-!
# What a document should hold

Relates the values of a document to what a text means.
-/

namespace Tm.Json

open Tm Spec

/-- The view shows these bytes. -/
def Shows (v : View) (text : List Byte) : Prop := v.null = false ∧ v.text = .ok text

/-- The type of a number: a number with a fraction or an exponent is a float, other numbers are integers, unsigned without a minus
sign. -/
def kind (minus frac exp : List Byte) : VType :=
  if frac = [] ∧ exp = [] then (if minus = [] then .uint else .int) else .float

/-- How the views of strings, names and numbers are compared with the text. -/
structure Shown where
  str : View → List Byte → Prop
  name : View → List Byte → Prop
  num : View → List Byte → Prop

/-- The value of a document has the structure of what the text means: values of the same types, elements and members in the same
order. Strings, names and numbers are compared by `R`; keywords are as they are written. -/
inductive MeansBy (R : Shown) : JVal → Json → Prop
  | null {v} : Shows v (ascii "null") → MeansBy R (.scalar .null v) .null
  | bool {v} (b : Bool) : Shows v (ascii (if b then "true" else "false")) → MeansBy R (.scalar .bool v) (.bool b)
  | num {v m i f e} : Number m i f e → R.num v (m ++ i ++ f ++ e) → MeansBy R (.scalar (kind m f e) v) (.num (m ++ i ++ f ++ e))
  | str {v text} : R.str v text → MeansBy R (.scalar .string v) (.str text)
  | arr {vs js} : List.Forall₂ (MeansBy R) vs js → MeansBy R (.array vs) (.arr js)
  | obj {vs ms} : List.Forall₂ (fun v m => R.name v.1 m.1) vs ms →
      List.Forall₂ (MeansBy R) (vs.map (·.2)) (ms.map (·.2)) → MeansBy R (.object vs) (.obj ms)

/-- The document holds exactly what the text means: also the characters of strings and names, and numbers as they are written. -/
def Means : JVal → Json → Prop := MeansBy ⟨Shows, Shows, Shows⟩

/-- The view can be read. -/
def Readable (v : View) : Prop := v.null = false ∧ ∃ t, v.text = .ok t

/-! ### Kinds of texts -/

/-- The characters of a string end with an escape of two characters. -/
def EndsInEscape (raw : List Byte) : Prop := ∃ p t e, Body p t ∧ raw = p ++ [chr '\\', e]

/-- They do not. -/
abbrev PlainEnd (raw : List Byte) : Prop := ¬ EndsInEscape raw

/-- The characters of a string do not contain a backslash. -/
abbrev NoEscape (raw : List Byte) : Prop := ∀ b ∈ raw, b ≠ chr '\\'

/-- The last byte of a text is no digit. -/
def PlainLast (v : List Byte) : Prop := ∀ p c, v = p ++ [c] → ¬ Digit c

/-- The text ends within the exponent of a number: after a digit and an `e`, or a digit, an `e` and a sign. -/
def CutNumber (s : List Byte) : Prop :=
  ∃ p d e sign, Digit d ∧ (e = chr 'e' ∨ e = chr 'E') ∧ (sign = [] ∨ sign = [chr '+'] ∨ sign = [chr '-']) ∧ s = p ++ d :: e :: sign

/-! ### Structure -/

/-- The document has the structure of the text; strings and names can be read, whatever they hold, and numbers are not null. -/
def SameShape : JVal → Json → Prop :=
  MeansBy ⟨fun v _ => Readable v, fun v _ => Readable v, fun v _ => v.null = false⟩

end Tm.Json
