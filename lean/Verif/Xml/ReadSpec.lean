import Verif.Xml.Spec
import Verif.Xml.Model

/-!
# What reading a document should give

Independent of how the reader works: it is used through `makeReader`, `readProlog` and `nextToken` alone. Tokens are what a call that
returns true leaves in `current`.
-/

namespace Tm.Xml

/-- A reader that is ready for the first call of `nextToken`: fresh, or after its prolog was read. -/
inductive Started (doc : List Byte) (flags : Flags) : Reader → Prop
  | fresh : Started doc flags (makeReader doc flags)
  | prolog (p : Prolog) (r : Reader) : readProlog (makeReader doc flags) = .ok (true, p, r) → Started doc flags r

/-- The calls of `nextToken` from a reader on, as long as they return true, with the tokens that they deliver. Every allocation may
fail or succeed. -/
inductive Reads (r : Reader) : List Token → Reader → Prop
  | nil : Reads r [] r
  | call (ts : List Token) (r' r'' : Reader) (alloc : Nat → Bool) :
    Reads r ts r' → nextToken alloc r' = .ok (true, r'') → Reads r (ts ++ [r''.current]) r''

/-- All allocations succeed. -/
abbrev rich : Nat → Bool := fun _ => true

/-- The tokens that may be outside of the root. -/
def Misc (ks : List Kind) : Prop := ∀ k ∈ ks, k = .comment ∨ k = .instructions

/-- The tokens of `n` attributes. -/
def attributes : Nat → List Kind
  | 0 => []
  | n + 1 => .attrName :: .attrValue :: attributes n

/-- The tokens between an opening and a closing tag: text, comments, processing instructions and elements. -/
inductive Inner : List Kind → Prop
  | nil : Inner []
  | single (k : Kind) (ks : List Kind) : k = .contents ∨ k = .cdata ∨ k = .comment ∨ k = .instructions → Inner ks → Inner (k :: ks)
  | element (n : Nat) (inner ks : List Kind) : Inner inner → Inner ks →
    Inner (.tagOpen :: (attributes n ++ inner ++ .tagClose :: ks))

/-- The tokens of a document: exactly one element, with comments and processing instructions around it, and the end. -/
def Document (ks : List Kind) : Prop :=
  ∃ m n inner m', Misc m ∧ Inner inner ∧ Misc m' ∧
    ks = m ++ (.tagOpen :: (attributes n ++ inner ++ [.tagClose])) ++ m' ++ [.eof]

end Tm.Xml
