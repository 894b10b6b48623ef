import Verif.Uni.Spec

/-!
# What XML text stands for

Independent of the model: texts are lists of code points, `Tm.Uni.utf8` is their encoding.
-/

namespace Tm.Xml

open Tm.Uni (utf8 encode)

/-- The bytes of a text in ASCII. -/
def ascii (s : String) : List Byte := s.toList.map fun c => BitVec.ofNat 8 c.toNat

/-- The characters of XML: all scalar values except the null character, U+FFFE and U+FFFF. (XML 1.0 also excludes most control
characters, XML 1.1 does not.) -/
def XmlChar (c : Nat) : Prop := (1 ≤ c ∧ c ≤ 0xD7FF) ∨ (0xE000 ≤ c ∧ c ≤ 0xFFFD) ∨ (0x10000 ≤ c ∧ c ≤ 0x10FFFF)

instance (c : Nat) : Decidable (XmlChar c) := by unfold XmlChar; infer_instance

/-- The value of a decimal digit. -/
inductive DecDigit : Byte → Nat → Prop
  | mk (n : Nat) : n < 10 → DecDigit (BitVec.ofNat 8 (0x30 + n)) n

/-- The value of a hexadecimal digit. -/
inductive HexDigit : Byte → Nat → Prop
  | digit (n : Nat) : n < 10 → HexDigit (BitVec.ofNat 8 (0x30 + n)) n
  | lower (n : Nat) : n < 6 → HexDigit (BitVec.ofNat 8 (0x61 + n)) (10 + n)
  | upper (n : Nat) : n < 6 → HexDigit (BitVec.ofNat 8 (0x41 + n)) (10 + n)

/-- `ds` is a numeral with the value `n` in the base `base`. The first argument tells the digits. -/
inductive Numeral (digit : Byte → Nat → Prop) (base : Nat) : List Byte → Nat → Prop
  | one (d : Byte) (n : Nat) : digit d n → Numeral digit base [d] n
  | more (ds : List Byte) (d : Byte) (m n : Nat) :
    Numeral digit base ds m → digit d n → Numeral digit base (ds ++ [d]) (m * base + n)

/-- The entities that XML predefines, with the characters they stand for. -/
def entities : List (List Byte × Nat) :=
  [(ascii "lt;", 0x3C), (ascii "amp;", 0x26), (ascii "quot;", 0x22), (ascii "apos;", 0x27), (ascii "gt;", 0x3E)]

/-- Character data, as it is written in a document (or in the value of an attribute), and the text it stands for: a character other
than "&" and "<" stands for itself, unless it begins "]]>"; predefined entities and character references (with at most 10 decimal or 8
hexadecimal digits) stand for their character; and because custom entities are not supported, the "&" of anything else that could
be an entity stands for itself. -/
inductive Denotes : List Byte → List Nat → Prop
  | nil : Denotes [] []
  | char (c : Nat) (s : List Byte) (t : List Nat) :
    XmlChar c → c ≠ 0x26 → c ≠ 0x3C → ¬ ascii "]]>" <+: utf8 c ++ s → Denotes s t → Denotes (utf8 c ++ s) (c :: t)
  | entity (e : List Byte) (c : Nat) (s : List Byte) (t : List Nat) :
    (e, c) ∈ entities → Denotes s t → Denotes (ascii "&" ++ e ++ s) (c :: t)
  | dec (ds : List Byte) (c : Nat) (s : List Byte) (t : List Nat) :
    Numeral DecDigit 10 ds c → ds.length ≤ 10 → XmlChar c → Denotes s t →
    Denotes (ascii "&#" ++ ds ++ ascii ";" ++ s) (c :: t)
  | hex (ds : List Byte) (c : Nat) (s : List Byte) (t : List Nat) :
    Numeral HexDigit 16 ds c → ds.length ≤ 8 → XmlChar c → Denotes s t →
    Denotes (ascii "&#x" ++ ds ++ ascii ";" ++ s) (c :: t)
  | custom (s : List Byte) (t : List Nat) :
    (∀ p ∈ entities, ¬ p.1 <+: s) → ¬ ascii "#" <+: s → (0x3B : Byte) ∈ s → Denotes s t →
    Denotes (ascii "&" ++ s) (0x26 :: t)

/-- Whitespace that is trimmed. -/
def Blank (c : Nat) : Prop := c = 0x20 ∨ c = 0x09 ∨ c = 0x0A ∨ c = 0x0D

instance (c : Nat) : Decidable (Blank c) := by unfold Blank; infer_instance

/-- A text without the whitespace at its beginning. -/
def stripLeft (t : List Nat) : List Nat := t.dropWhile fun c => decide (Blank c)

/-- A text without the whitespace at its end. -/
def stripRight (t : List Nat) : List Nat := (stripLeft t.reverse).reverse

/-- A text without the whitespace at its beginning, its end, or both. -/
def strip (left right : Bool) (t : List Nat) : List Nat :=
  let t := if left then stripLeft t else t
  if right then stripRight t else t

/-- A text in which every run of whitespace and control characters is one space. -/
def collapse : List Nat → List Nat
  | [] => []
  | c :: t =>
    if c ≤ 0x20 then 0x20 :: collapse (t.dropWhile (· ≤ 0x20)) else c :: collapse t
termination_by t => t.length
decreasing_by
  all_goals simp only [List.length_cons]
  · exact Nat.lt_succ_of_le (List.dropWhile_sublist _).length_le
  · omega

end Tm.Xml
