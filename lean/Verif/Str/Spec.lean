import Verif.Num.Spec

/-!
# Vocabulary for statements about strings in memory

Independent of the model.
-/

namespace Tm.Str

/-- The bytes of `mem` from position `a` up to, not including, position `b`. -/
def slice (mem : List Byte) (a b : Nat) : List Byte := (mem.drop a).take (b - a)

/-- At position `p` there is the NUL-terminated string `s`. -/
def ZStr (mem : List Byte) (p : Nat) (s : List Byte) : Prop :=
  (∃ tail, mem.drop p = s ++ 0 :: tail) ∧ 0 ∉ s

/-- `[a, b)` is a range of `mem`. -/
def Range (mem : List Byte) (a b : Nat) : Prop := a ≤ b ∧ b ≤ mem.length

/-- `r` is the first position in `[lo, hi)` with `P`, or `hi` if there is none. -/
def IsFirst (P : Nat → Prop) (lo hi r : Nat) : Prop :=
  (lo ≤ r ∧ r < hi ∧ P r ∧ ∀ i, lo ≤ i → i < r → ¬ P i) ∨ (r = hi ∧ ∀ i, lo ≤ i → i < hi → ¬ P i)

/-- `r` is the last position in `[lo, hi)` with `P`, or `notFound` if there is none. -/
def IsLast (P : Nat → Prop) (lo hi : Nat) (notFound : Option Nat) (r : Option Nat) : Prop :=
  (∃ k, r = some k ∧ lo ≤ k ∧ k < hi ∧ P k ∧ ∀ i, k < i → i < hi → ¬ P i) ∨
    (r = notFound ∧ ∀ i, lo ≤ i → i < hi → ¬ P i)

/-- The byte at position `i` satisfies `Q`. -/
def ByteAt (mem : List Byte) (Q : Byte → Prop) (i : Nat) : Prop := ∃ x, mem[i]? = some x ∧ Q x

/-- `needle` occurs at position `i` of the range that ends at `hi`. -/
def Occurs (mem : List Byte) (hi : Nat) (needle : List Byte) (i : Nat) : Prop :=
  i + needle.length ≤ hi ∧ slice mem i (i + needle.length) = needle

/-- The letters `x` and `y` are the same up to ASCII case. -/
def SameLetter (x y : Byte) : Prop :=
  x = y ∨ (97 ≤ x.toNat ∧ x.toNat ≤ 122 ∧ y.toNat + 32 = x.toNat) ∨
    (97 ≤ y.toNat ∧ y.toNat ≤ 122 ∧ x.toNat + 32 = y.toNat)

/-- `needle` occurs, up to ASCII case, at position `i` of the range that ends at `hi`. -/
def OccursIgnoreCase (mem : List Byte) (hi : Nat) (needle : List Byte) (i : Nat) : Prop :=
  i + needle.length ≤ hi ∧
    ∀ k (h : k < needle.length), ∃ x, mem[i + k]? = some x ∧ SameLetter x needle[k]

/-- Whether the character at position `lo + k` of a string that starts at `lo` is escaped: the character before it is
the escape character, and is not itself escaped. -/
def escaped (mem : List Byte) (lo : Nat) (esc : Byte) : Nat → Bool
  | 0 => false
  | k + 1 => decide (mem[lo + k]? = some esc) && !escaped mem lo esc k

/-- Position `i` of the string `[lo, hi)` is a match for an unescaped character of `set`: it holds a character of `set`,
it is not escaped, and it is not an escape character that escapes an escape character. -/
def UnescapedMatch (mem : List Byte) (lo hi : Nat) (set : List Byte) (esc : Byte) (i : Nat) : Prop :=
  ByteAt mem (· ∈ set) i ∧ escaped mem lo esc (i - lo) = false ∧
    ¬ (mem[i]? = some esc ∧ i + 1 < hi ∧ mem[i + 1]? = some esc)

/-- The pieces of a text between the characters of `d`, in order; there is always one more piece than there are
characters of `d` in the text. -/
def pieces (d : List Byte) : List Byte → List (List Byte)
  | [] => [[]]
  | x :: xs =>
    if x ∈ d then [] :: pieces d xs
    else match pieces d xs with
      | [] => [[x]]
      | p :: ps => (x :: p) :: ps

/-- The codes of the characters of a text. -/
def codes (s : List Byte) : List Nat := s.map (·.toNat)

/-- The code of a character after replacing a small letter by the capital letter. -/
def upperCode (c : Byte) : Nat := if 97 ≤ c.toNat ∧ c.toNat ≤ 122 then c.toNat - 32 else c.toNat

/-- The codes of the characters of a text in capital letters. -/
def upperCodes (s : List Byte) : List Nat := s.map upperCode

/-- `r` compares `x` to `y` in the lexicographic order (a proper prefix comes first), as in C: negative, zero, positive. -/
def Compares (r : Int) (x y : List Nat) : Prop := (r < 0 ↔ x < y) ∧ (r = 0 ↔ x = y) ∧ (0 < r ↔ y < x)

/-- A decimal digit. -/
def isDigit (c : Byte) : Bool := decide (48 ≤ c.toNat) && decide (c.toNat ≤ 57)

/-- A text in the order for humans: maximal runs of digits are taken together, other characters are on their own. -/
def humanTokens : List Byte → List (List Byte)
  | [] => []
  | x :: xs =>
    match humanTokens xs with
    | (y :: t) :: ts =>
      if isDigit x ∧ isDigit y then (x :: y :: t) :: ts else [x] :: (y :: t) :: ts
    | ts => [x] :: ts

/-- Rank of a token in the order for humans: numbers come after all other characters and are ordered by value, other
characters by their code in capital letters. -/
def tokenRank (t : List Byte) : Nat :=
  match t with
  | [] => 0
  | x :: _ => if isDigit x then 256 + Num.numVal 10 (t.map (fun c => c.toNat - 48)) else upperCode x

/-- The ranks of the tokens of a text. -/
def humanRanks (s : List Byte) : List Nat := (humanTokens s).map tokenRank

/-- No number in the text is written with a leading zero. -/
def NoLeadingZeros (s : List Byte) : Prop := ∀ t ∈ humanTokens s, t.head? = some 48 → t = [48]

/-- All numbers in the text are so small that the rank fits into an `int`. -/
def SmallNumbers (s : List Byte) : Prop := ∀ t ∈ humanTokens s, tokenRank t ≤ 2147483647

end Tm.Str
