import Verif.Uni.Spec

/-!
# The JSON grammar

RFC 8259, written down as inductive relations between byte strings and what they mean. Independent of the model.

The relations have two parameters: `P` must hold of the characters between the quotation marks of every string that is a value, and
`Q` of those of every name of a member. With `P` and `Q` always true this is the grammar of the RFC; the other uses single out texts
in which some kinds of escapes do not occur.
-/

namespace Tm.Json.Spec

open Tm Tm.Uni

/-- What a JSON text means. Numbers are kept as they are written; strings are the UTF-8 bytes of their characters. -/
inductive Json
  | null
  | bool (b : Bool)
  | num (text : List Byte)
  | str (text : List Byte)
  | arr (items : List Json)
  | obj (members : List (List Byte × Json))

/-- The bytes of the characters of an ASCII text. -/
def ascii (s : String) : List Byte := s.toList.map fun c => BitVec.ofNat 8 c.toNat

/-- The byte of an ASCII character. -/
def chr (c : Char) : Byte := BitVec.ofNat 8 c.toNat

/-- White space: space, horizontal tab, line feed and carriage return (RFC 8259 section 2). -/
def Ws (s : List Byte) : Prop := ∀ b ∈ s, b = 0x20 ∨ b = 0x09 ∨ b = 0x0A ∨ b = 0x0D

instance (s : List Byte) : Decidable (Ws s) := by unfold Ws; infer_instance

/-- A decimal digit. -/
def Digit (b : Byte) : Prop := 0x30 ≤ b.toNat ∧ b.toNat ≤ 0x39

instance (b : Byte) : Decidable (Digit b) := by unfold Digit; infer_instance

/-- One or more digits. -/
def Digits (s : List Byte) : Prop := s ≠ [] ∧ ∀ b ∈ s, Digit b

/-- `int`: a zero, or digits that do not start with a zero. -/
def IntPart (s : List Byte) : Prop := s = [chr '0'] ∨ (Digits s ∧ s.head? ≠ some (chr '0'))

/-- `[ frac ]` -/
def Frac (s : List Byte) : Prop := s = [] ∨ ∃ d, Digits d ∧ s = chr '.' :: d

/-- `[ exp ]` -/
def Exp (s : List Byte) : Prop :=
  s = [] ∨ ∃ e sign d, (e = chr 'e' ∨ e = chr 'E') ∧ (sign = [] ∨ sign = [chr '+'] ∨ sign = [chr '-']) ∧ Digits d ∧
    s = e :: (sign ++ d)

/-- The parts of a number (section 6): sign, integer, fraction and exponent. -/
def Number (minus i f e : List Byte) : Prop :=
  (minus = [] ∨ minus = [chr '-']) ∧ IntPart i ∧ Frac f ∧ Exp e

/-- The value of a hexadecimal digit. -/
def hexDigit (b : Byte) : Option Nat :=
  if 0x30 ≤ b.toNat ∧ b.toNat ≤ 0x39 then some (b.toNat - 0x30)
  else if 0x41 ≤ b.toNat ∧ b.toNat ≤ 0x46 then some (b.toNat - 0x41 + 10)
  else if 0x61 ≤ b.toNat ∧ b.toNat ≤ 0x66 then some (b.toNat - 0x61 + 10)
  else none

/-- Four hexadecimal digits and the number they denote. -/
def Hex4 (s : List Byte) (n : Nat) : Prop :=
  ∃ a b c d w x y z, s = [a, b, c, d] ∧ hexDigit a = some w ∧ hexDigit b = some x ∧ hexDigit c = some y ∧
    hexDigit d = some z ∧ n = 4096 * w + 256 * x + 16 * y + z

/-- The characters after the backslash of a short escape, and what they stand for (section 7). -/
def shortEscapes : List (Byte × Byte) :=
  [(chr '"', 0x22), (chr '\\', 0x5C), (chr '/', 0x2F), (chr 'b', 0x08), (chr 'f', 0x0C), (chr 'n', 0x0A), (chr 'r', 0x0D),
    (chr 't', 0x09)]

/-- The characters of a string between the quotation marks, and the bytes they stand for (section 7). An escape `\uXXXX` stands for
a scalar value, or is the first of two that are a surrogate pair. The grammar of the RFC also admits escapes of surrogates that
are not paired, which stand for no character (section 8.2); this specification does not. Bytes from 0x80 on are taken as they are. -/
inductive Body : List Byte → List Byte → Prop
  | nil : Body [] []
  | plain {b raw text} : 0x20 ≤ b.toNat → b ≠ chr '"' → b ≠ chr '\\' → Body raw text → Body (b :: raw) (b :: text)
  | short {e b raw text} : (e, b) ∈ shortEscapes → Body raw text → Body (chr '\\' :: e :: raw) (b :: text)
  | unicode {h n raw text} : Hex4 h n → Scalar n → Body raw text →
      Body (chr '\\' :: chr 'u' :: (h ++ raw)) (utf8 n ++ text)
  | pair {h1 h2 n1 n2 raw text} : Hex4 h1 n1 → Hex4 h2 n2 → 0xD800 ≤ n1 → n1 < 0xDC00 → 0xDC00 ≤ n2 → n2 < 0xE000 →
      Body raw text →
      Body (chr '\\' :: chr 'u' :: (h1 ++ chr '\\' :: chr 'u' :: (h2 ++ raw)))
        (utf8 (0x10000 + (n1 - 0xD800) * 0x400 + (n2 - 0xDC00)) ++ text)

/-- A string with its quotation marks. -/
def quoted (raw : List Byte) : List Byte := chr '"' :: (raw ++ [chr '"'])

mutual

/-- `value` (section 3). -/
inductive Value (P Q : List Byte → Prop) : Json → List Byte → Prop
  | null : Value P Q .null (ascii "null")
  | bool (b : Bool) : Value P Q (.bool b) (ascii (if b then "true" else "false"))
  | num {m i f e} : Number m i f e → Value P Q (.num (m ++ i ++ f ++ e)) (m ++ i ++ f ++ e)
  | str {raw text} : Body raw text → P raw → Value P Q (.str text) (quoted raw)
  | arrNil {a} : Ws a → Value P Q (.arr []) (chr '[' :: (a ++ [chr ']']))
  | arr {a b j v js t} : Ws a → Value P Q j v → MoreValues P Q js t → Ws b →
      Value P Q (.arr (j :: js)) (chr '[' :: (a ++ (v ++ (t ++ (b ++ [chr ']'])))))
  | objNil {a} : Ws a → Value P Q (.obj []) (chr '{' :: (a ++ [chr '}']))
  | obj {a b m u ms t} : Ws a → Member P Q m u → MoreMembers P Q ms t → Ws b →
      Value P Q (.obj (m :: ms)) (chr '{' :: (a ++ (u ++ (t ++ (b ++ [chr '}'])))))

/-- `*( value-separator value )` (section 5). -/
inductive MoreValues (P Q : List Byte → Prop) : List Json → List Byte → Prop
  | nil : MoreValues P Q [] []
  | cons {a b j v js t} : Ws a → Ws b → Value P Q j v → MoreValues P Q js t →
      MoreValues P Q (j :: js) (a ++ (chr ',' :: (b ++ (v ++ t))))

/-- `member` (section 4). -/
inductive Member (P Q : List Byte → Prop) : List Byte × Json → List Byte → Prop
  | mk {raw name a b j v} : Body raw name → Q raw → Ws a → Ws b → Value P Q j v →
      Member P Q (name, j) (quoted raw ++ (a ++ (chr ':' :: (b ++ v))))

/-- `*( value-separator member )` (section 4). -/
inductive MoreMembers (P Q : List Byte → Prop) : List (List Byte × Json) → List Byte → Prop
  | nil : MoreMembers P Q [] []
  | cons {a b m u ms t} : Ws a → Ws b → Member P Q m u → MoreMembers P Q ms t →
      MoreMembers P Q (m :: ms) (a ++ (chr ',' :: (b ++ (u ++ t))))

end

/-- `JSON-text` (section 2): `s` is a JSON text that means `j`. -/
def Text (P Q : List Byte → Prop) (j : Json) (s : List Byte) : Prop :=
  ∃ a v b, Ws a ∧ Value P Q j v ∧ Ws b ∧ s = a ++ (v ++ b)

/-- No condition on strings. -/
def Any : List Byte → Prop := fun _ => True

/-- `s` is a JSON text. -/
def IsJson (s : List Byte) : Prop := ∃ j, Text Any Any j s

example : IsJson (ascii " [ 1 ] ") := by
  refine ⟨.arr [.num (ascii "1")], ascii " ", ascii "[ 1 ]", ascii " ", ?_, ?_, ?_, rfl⟩
  · decide
  · exact Value.arr (a := ascii " ") (b := ascii " ") (v := ascii "1") (t := []) (by decide)
      (Value.num (m := []) (i := ascii "1") (f := []) (e := [])
        ⟨Or.inl rfl, Or.inr ⟨⟨by decide, by decide⟩, by decide⟩, Or.inl rfl, Or.inl rfl⟩) .nil (by decide)
  · decide

end Tm.Json.Spec
