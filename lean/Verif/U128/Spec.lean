import Verif.U128.Model
/-!
# Specification vocabulary for 128-bit integers: the represented natural number.
-/
namespace Tm.U128

/-- The number a pair of halves represents. -/
def U128.toNat (v : U128) : Nat := v.low.toNat + 2 ^ 64 * v.high.toNat

/-- The representation of a natural number, modulo 2^128. -/
def ofNat (n : Nat) : U128 := ⟨BitVec.ofNat 64 n, BitVec.ofNat 64 (n / 2 ^ 64)⟩

/-- Number of set bits among the `w` lowest bits of `n`. -/
def bitCount : Nat → Nat → Nat
  | 0, _ => 0
  | w + 1, n => n % 2 + bitCount w (n / 2)

/-- `i` is the index of the highest set bit of `n`. -/
def IsHighestBit (n i : Nat) : Prop := 2 ^ i ≤ n ∧ n < 2 ^ (i + 1)

/-- `i` is the index of the lowest set bit of `n`. -/
def IsLowestBit (n i : Nat) : Prop := n.testBit i = true ∧ ∀ j < i, n.testBit j = false

/-- The number represented by little-endian bytes. -/
def fromLeBytes : List (BitVec 8) → Nat
  | [] => 0
  | b :: bs => b.toNat + 256 * fromLeBytes bs

end Tm.U128
