import Verif.Xml.ReadSpec

/-!
# Documents and the tokens they should be read as

A relation between the bytes of a document and its tokens, with the line in which each token begins. It follows the grammar of XML
(https://www.w3.org/TR/xml, productions 1, 3-5, 10, 14-21, 25, 27, 39-44) and does not refer to the reader, except for the names of the kinds
of tokens.
-/

namespace Tm.Xml

open Tm.Uni (utf8 encode)

/-- Whitespace, production 3. -/
def Space (s : List Byte) : Prop := ∀ b ∈ s, b = 0x20 ∨ b = 0x09 ∨ b = 0x0A ∨ b = 0x0D

/-- The characters a name can begin with, production 4. -/
def NameStart (c : Nat) : Prop :=
  c = 0x3A ∨ (0x41 ≤ c ∧ c ≤ 0x5A) ∨ c = 0x5F ∨ (0x61 ≤ c ∧ c ≤ 0x7A) ∨ (0xC0 ≤ c ∧ c ≤ 0xD6) ∨ (0xD8 ≤ c ∧ c ≤ 0xF6) ∨
  (0xF8 ≤ c ∧ c ≤ 0x2FF) ∨ (0x370 ≤ c ∧ c ≤ 0x37D) ∨ (0x37F ≤ c ∧ c ≤ 0x1FFF) ∨ (0x200C ≤ c ∧ c ≤ 0x200D) ∨
  (0x2070 ≤ c ∧ c ≤ 0x218F) ∨ (0x2C00 ≤ c ∧ c ≤ 0x2FEF) ∨ (0x3001 ≤ c ∧ c ≤ 0xD7FF) ∨ (0xF900 ≤ c ∧ c ≤ 0xFDCF) ∨
  (0xFDF0 ≤ c ∧ c ≤ 0xFFFD) ∨ (0x10000 ≤ c ∧ c ≤ 0xEFFFF)

/-- The characters of names, production 4a. -/
def NameChar (c : Nat) : Prop :=
  NameStart c ∨ c = 0x2D ∨ c = 0x2E ∨ (0x30 ≤ c ∧ c ≤ 0x39) ∨ c = 0xB7 ∨ (0x300 ≤ c ∧ c ≤ 0x36F) ∨ (0x203F ≤ c ∧ c ≤ 0x2040)

instance (c : Nat) : Decidable (NameStart c) := by unfold NameStart; infer_instance
instance (c : Nat) : Decidable (NameChar c) := by unfold NameChar; infer_instance

/-- Names, production 5. -/
inductive Name : List Byte → Prop
  | mk (c : Nat) (cs : List Nat) : NameStart c → (∀ d ∈ cs, NameChar d) → Name (encode utf8 (c :: cs))

/-- What a reader delivers: the kind of a token, its text, and the number of newlines in front of it. -/
abbrev Tok := Kind × List Byte × Nat

/-- The number of newlines in some bytes. -/
def newlines (s : List Byte) : Nat := s.count 0x0A

/-- A text of XML characters. -/
def XmlText (t : List Nat) : Prop := ∀ c ∈ t, XmlChar c

/-- Texts that the buffer of the reader can be extended for without failing an assertion (see C136): shorter than the buffer, or in ASCII. -/
def Modest (t : List Nat) : Prop := (encode utf8 t).length < 64 ∨ ∀ c ∈ t, c < 0x80

/-! The documents come in two sizes: `all := True` gives what XML allows, `all := False` what the reader can be relied on for. They differ in
texts that are not `Modest`, comments with "&", processing instructions that begin with "xml" or have "]]>", and tags without contents that have
attributes. -/

/-- A text begins with "xml", in upper or lower case. -/
def BeginsXml (t : List Nat) : Prop :=
  ∃ x m l q, t = x :: m :: l :: q ∧ (x = 0x78 ∨ x = 0x58) ∧ (m = 0x6D ∨ m = 0x4D) ∧ (l = 0x6C ∨ l = 0x4C)

/-- Comments and processing instructions, productions 15-17. The arguments are the number of newlines in front, the bytes and the token. -/
inductive MiscItem (all : Prop) (n : Nat) : List Byte → Tok → Prop
  | comment (t : List Nat) : XmlText t → (∀ p q, encode utf8 t ++ ascii "-" ≠ p ++ ascii "--" ++ q) → all ∨ Modest t ∧ 0x26 ∉ t →
    MiscItem all n (ascii "<!--" ++ encode utf8 t ++ ascii "-->") (.comment, encode utf8 t, n)
  | instructions (target t : List Nat) : Name (encode utf8 target) → ¬ (BeginsXml target ∧ target.length = 3) → XmlText (target ++ t) →
    (t = [] ∨ ∃ c q, t = c :: q ∧ Blank c) → (∀ p q, encode utf8 (target ++ t) ++ ascii "?" ≠ p ++ ascii "?>" ++ q) →
    all ∨ ¬ BeginsXml target ∧ (∀ p q, encode utf8 (target ++ t) ≠ p ++ ascii "]]>" ++ q) →
    MiscItem all n (ascii "<?" ++ encode utf8 (target ++ t) ++ ascii "?>") (.instructions, encode utf8 (target ++ t), n)

/-- The attributes of a tag, each with the whitespace in front of it, productions 10, 25 and 41. -/
inductive Attrs (all : Prop) : Nat → List Byte → List Tok → Prop
  | nil (n : Nat) : Attrs all n [] []
  | cons (n : Nat) (w name w1 w2 : List Byte) (quote : Byte) (x : List Byte) (t : List Nat) (s : List Byte) (ts : List Tok) :
    Space w → w ≠ [] → Name name → Space w1 → Space w2 → quote = 0x22 ∨ quote = 0x27 → Denotes x t → quote ∉ x → all ∨ Modest t →
    Attrs all (n + newlines (w ++ name ++ w1 ++ ascii "=" ++ w2 ++ [quote] ++ x ++ [quote])) s ts →
    Attrs all n (w ++ name ++ w1 ++ ascii "=" ++ w2 ++ [quote] ++ x ++ [quote] ++ s)
      ((.attrName, name, n + newlines w) :: (.attrValue, encode utf8 t, n + newlines (w ++ name ++ w1 ++ ascii "=" ++ w2)) :: ts)

/-- The two kinds of parts of a document. -/
inductive Part
  | element | body
deriving DecidableEq

/-- Elements, production 39, and what is between the tags of an element, production 43. The arguments are the number of newlines in
front of the part, its bytes and its tokens. -/
inductive Xml (all : Prop) : Part → Nat → List Byte → List Tok → Prop
  /-- `<name attributes>…</name>` -/
  | tags (n : Nat) (name a : List Byte) (as : List Tok) (w s : List Byte) (ts : List Tok) (w' : List Byte) :
    Name name → Attrs all (n + newlines (ascii "<" ++ name)) a as → Space w → Space w' →
    Xml all .body (n + newlines (ascii "<" ++ name ++ a ++ w ++ ascii ">")) s ts →
    Xml all .element n (ascii "<" ++ name ++ a ++ w ++ ascii ">" ++ s ++ ascii "</" ++ name ++ w' ++ ascii ">")
      ((.tagOpen, name, n) :: as ++ ts ++
        [(.tagClose, name, n + newlines (ascii "<" ++ name ++ a ++ w ++ ascii ">" ++ s))])
  /-- `<name attributes/>` -/
  | empty (n : Nat) (name a : List Byte) (as : List Tok) (w : List Byte) :
    Name name → Attrs all (n + newlines (ascii "<" ++ name)) a as → Space w → all ∨ a = [] ∧ as = [] →
    Xml all .element n (ascii "<" ++ name ++ a ++ w ++ ascii "/>")
      ((.tagOpen, name, n) :: as ++ [(.tagClose, name, n + newlines (ascii "<" ++ name ++ a ++ w))])
  | nil (n : Nat) : Xml all .body n [] []
  | element (n : Nat) (e : List Byte) (es : List Tok) (s : List Byte) (ts : List Tok) :
    Xml all .element n e es → Xml all .body (n + newlines e) s ts → Xml all .body n (e ++ s) (es ++ ts)
  | misc (n : Nat) (m : List Byte) (k : Tok) (s : List Byte) (ts : List Tok) :
    MiscItem all n m k → Xml all .body (n + newlines m) s ts → Xml all .body n (m ++ s) (k :: ts)
  /-- a CDATA section, production 18 -/
  | cdata (n : Nat) (t : List Nat) (s : List Byte) (ts : List Tok) : XmlText t →
    (∀ p q, encode utf8 t ++ ascii "]]" ≠ p ++ ascii "]]>" ++ q) →
    Xml all .body (n + newlines (ascii "<![CDATA[" ++ encode utf8 t ++ ascii "]]>")) s ts →
    Xml all .body n (ascii "<![CDATA[" ++ encode utf8 t ++ ascii "]]>" ++ s) ((.cdata, encode utf8 t, n) :: ts)
  /-- character data, up to the next markup -/
  | text (n : Nat) (x : List Byte) (t : List Nat) (s : List Byte) (ts : List Tok) :
    Denotes x t → x ≠ [] → all ∨ Modest t → (s = [] ∨ ascii "<" <+: s) →
    Xml all .body (n + newlines x) s ts → Xml all .body n (x ++ s) ((.contents, encode utf8 t, n) :: ts)

/-- Comments, processing instructions and whitespace outside of the root, production 27. -/
inductive Around (all : Prop) : Nat → List Byte → List Tok → Prop
  | space (n : Nat) (w : List Byte) : Space w → Around all n w []
  | item (n : Nat) (w m : List Byte) (k : Tok) (s : List Byte) (ts : List Tok) :
    Space w → MiscItem all (n + newlines w) m k → Around all (n + newlines (w ++ m)) s ts → Around all n (w ++ m ++ s) (k :: ts)

/-- A document without a prolog, production 1, behind `n` newlines. -/
inductive Doc (all : Prop) (n : Nat) : List Byte → List Tok → Prop
  | mk (m : List Byte) (ms : List Tok) (e : List Byte) (es : List Tok) (m' : List Byte) (ms' : List Tok) :
    Around all n m ms → Xml all .element (n + newlines m) e es → Around all (n + newlines (m ++ e)) m' ms' →
    Doc all n (m ++ e ++ m') (ms ++ es ++ ms' ++ [(.eof, [], n + newlines (m ++ e ++ m'))])

/-- ` name = "value"`, as in a prolog. -/
inductive Setting (name value : List Byte) : List Byte → Prop
  | mk (w w1 w2 : List Byte) (quote : Byte) : Space w → w ≠ [] → Space w1 → Space w2 → quote = 0x22 ∨ quote = 0x27 →
    value ≠ [] → quote ∉ value → 0 ∉ value → Setting name value (w ++ name ++ w1 ++ ascii "=" ++ w2 ++ [quote] ++ value ++ [quote])

/-- Nothing, or a setting. -/
def Optionally (name value s : List Byte) : Prop := s = [] ∧ value = [] ∨ Setting name value s

/-- The XML declaration, production 23: its bytes, the version, and the encoding and the value of `standalone`, both empty if they are
left out. -/
inductive Declaration (version encoding standalone : List Byte) : List Byte → Prop
  | mk (v e s w : List Byte) : Setting (ascii "version") version v → Optionally (ascii "encoding") encoding e →
    Optionally (ascii "standalone") standalone s → standalone = [] ∨ standalone = ascii "yes" ∨ standalone = ascii "no" → Space w →
    Declaration version encoding standalone (ascii "<?xml" ++ v ++ e ++ s ++ w ++ ascii "?>")

/-- Text in which the angle brackets are balanced. -/
inductive Balanced : List Byte → Prop
  | nil : Balanced []
  | char (b : Byte) (s : List Byte) : b ≠ 0x3C → b ≠ 0x3E → b ≠ 0 → Balanced s → Balanced (b :: s)
  | nested (x s : List Byte) : Balanced x → Balanced s → Balanced (ascii "<" ++ x ++ ascii ">" ++ s)

/-- Comments and whitespace in front of a document type. -/
inductive Comments : List Byte → Prop
  | space (w : List Byte) : Space w → Comments w
  | comment (w : List Byte) (t : List Nat) (s : List Byte) : Space w → XmlText t →
    (∀ p q, encode utf8 t ++ ascii "-" ≠ p ++ ascii "--" ++ q) → Comments s →
    Comments (w ++ ascii "<!--" ++ encode utf8 t ++ ascii "-->" ++ s)

/-- The loop of a user who reads all tokens, with memory for everything: the tokens and the reader in the end. The loop is cut after a
number of calls, with the fault `.diverge`. -/
def readAll : Nat → Reader → C (List Token × Reader)
  | 0, _ => .error .diverge
  | fuel + 1, r => do
    match ← nextToken rich r with
    | (false, r) => .ok ([], r)
    | (true, r) =>
      let (ts, r') ← readAll fuel r
      .ok (r.current :: ts, r')

end Tm.Xml
