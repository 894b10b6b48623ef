import Verif.Uni.Spec

/-!
# Encoded texts as bytes

Independent of the model: the encoding schemes of the Unicode standard (section 3.10), what the parts of a byte string are that are
not the encoding of any character, and the text that remains when those are dropped or replaced.
-/

namespace Tm.Uni

/-- The UTF-32 encoding of a scalar value. -/
def utf32 (c : Nat) : List (BitVec 32) := [BitVec.ofNat 32 c]

/-- The bytes of a unit, the most significant first. -/
def be16 (u : BitVec 16) : List Byte := [BitVec.ofNat 8 (u.toNat / 256), BitVec.ofNat 8 u.toNat]
/-- The bytes of a unit, the least significant first. -/
def le16 (u : BitVec 16) : List Byte := [BitVec.ofNat 8 u.toNat, BitVec.ofNat 8 (u.toNat / 256)]
/-- The bytes of a unit, the most significant first. -/
def be32 (u : BitVec 32) : List Byte :=
  [BitVec.ofNat 8 (u.toNat / 16777216), BitVec.ofNat 8 (u.toNat / 65536), BitVec.ofNat 8 (u.toNat / 256), BitVec.ofNat 8 u.toNat]
/-- The bytes of a unit, the least significant first. -/
def le32 (u : BitVec 32) : List Byte :=
  [BitVec.ofNat 8 u.toNat, BitVec.ofNat 8 (u.toNat / 256), BitVec.ofNat 8 (u.toNat / 65536), BitVec.ofNat 8 (u.toNat / 16777216)]

/-- Reading units from the left: the characters of the string, with `none` for each unit at which no character starts. -/
inductive Pieces {α : Type} (enc : Nat → List α) : List α → List (Option Nat) → Prop where
  | nil : Pieces enc [] []
  | char {c : Nat} {t : List α} {ps : List (Option Nat)} : Scalar c → Pieces enc t ps → Pieces enc (enc c ++ t) (some c :: ps)
  | bad {a : α} {t : List α} {ps : List (Option Nat)} : (¬ ∃ c u, Scalar c ∧ a :: t = enc c ++ u) → Pieces enc t ps →
      Pieces enc (a :: t) (none :: ps)

/-- The encoding schemes. -/
inductive Scheme where
  | utf8 | utf16be | utf16le | utf32be | utf32le
deriving DecidableEq, Repr

/-- The byte order mark: U+FEFF in the scheme. -/
def Scheme.mark : Scheme → List Byte
  | .utf8 => Uni.utf8 0xFEFF
  | .utf16be => be16 0xFEFF
  | .utf16le => le16 0xFEFF
  | .utf32be => be32 0xFEFF
  | .utf32le => le32 0xFEFF

example : Scheme.utf8.mark = [0xEF, 0xBB, 0xBF] := by decide
example : Scheme.utf32le.mark = [0xFF, 0xFE, 0, 0] := by decide

/-- The number of bytes of a unit. -/
def Scheme.width : Scheme → Nat
  | .utf8 => 1 | .utf16be => 2 | .utf16le => 2 | .utf32be => 4 | .utf32le => 4

/-- The bytes are made of these pieces, in this scheme. -/
def Scheme.Text : Scheme → List Byte → List (Option Nat) → Prop
  | .utf8, s, ps => Pieces Uni.utf8 s ps
  | .utf16be, s, ps => ∃ us, s = us.flatMap be16 ∧ Pieces Uni.utf16 us ps
  | .utf16le, s, ps => ∃ us, s = us.flatMap le16 ∧ Pieces Uni.utf16 us ps
  | .utf32be, s, ps => ∃ us, s = us.flatMap be32 ∧ Pieces Uni.utf32 us ps
  | .utf32le, s, ps => ∃ us, s = us.flatMap le32 ∧ Pieces Uni.utf32 us ps

/-- The UTF-8 encoding of the pieces, with `rep` for what is ill-formed. -/
def render (rep : List Byte) (ps : List (Option Nat)) : List Byte := ps.flatMap fun p => match p with
  | some c => Uni.utf8 c
  | none => rep

end Tm.Uni
