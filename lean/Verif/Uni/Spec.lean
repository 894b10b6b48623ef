import Verif.Basic

/-!
# Unicode encoding forms

Independent of the model: the encoding forms UTF-8, UTF-16 and UTF-32 of the Unicode standard (section 3.9, tables 3-5, 3-6 and 3-7).
-/

namespace Tm.Uni

/-- Unicode scalar values: all code points except surrogates. -/
def Scalar (c : Nat) : Prop := c < 0xD800 ∨ (0xE000 ≤ c ∧ c ≤ 0x10FFFF)

instance (c : Nat) : Decidable (Scalar c) := by unfold Scalar; infer_instance

/-- The UTF-8 encoding of a scalar value (table 3-6). -/
def utf8 (c : Nat) : List Byte :=
  if c < 0x80 then [BitVec.ofNat 8 c]
  else if c < 0x800 then [BitVec.ofNat 8 (0xC0 + c / 64), BitVec.ofNat 8 (0x80 + c % 64)]
  else if c < 0x10000 then
    [BitVec.ofNat 8 (0xE0 + c / 4096), BitVec.ofNat 8 (0x80 + c / 64 % 64), BitVec.ofNat 8 (0x80 + c % 64)]
  else
    [BitVec.ofNat 8 (0xF0 + c / 262144), BitVec.ofNat 8 (0x80 + c / 4096 % 64), BitVec.ofNat 8 (0x80 + c / 64 % 64),
      BitVec.ofNat 8 (0x80 + c % 64)]

/-- The UTF-16 encoding of a scalar value (table 3-5). -/
def utf16 (c : Nat) : List (BitVec 16) :=
  if c < 0x10000 then [BitVec.ofNat 16 c]
  else [BitVec.ofNat 16 (0xD800 + (c - 0x10000) / 1024), BitVec.ofNat 16 (0xDC00 + (c - 0x10000) % 1024)]

/-- The encoding of a text. -/
def encode {α : Type} (enc : Nat → List α) (cs : List Nat) : List α := cs.flatMap enc

/-- All code points are scalar values. -/
def Scalars (cs : List Nat) : Prop := ∀ c ∈ cs, Scalar c

/-- `s` is the encoding of some text. -/
def WellFormed {α : Type} (enc : Nat → List α) (s : List α) : Prop := ∃ cs, Scalars cs ∧ s = encode enc cs

/-- A continuation byte of UTF-8. -/
def Continuation (b : Byte) : Prop := 0x80 ≤ b.toNat ∧ b.toNat < 0xC0

/-- `n` is the length of the longest prefix of `s` that is well-formed. -/
def LongestWellFormed {α : Type} (enc : Nat → List α) (s : List α) (n : Nat) : Prop :=
  n ≤ s.length ∧ WellFormed enc (s.take n) ∧ ∀ m ≤ s.length, WellFormed enc (s.take m) → m ≤ n

example : utf8 0x20AC = [0xE2, 0x82, 0xAC] := by decide
example : utf8 0x1F600 = [0xF0, 0x9F, 0x98, 0x80] := by decide
example : utf16 0x1F600 = [0xD83D, 0xDE00] := by decide

end Tm.Uni
