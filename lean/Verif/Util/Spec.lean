import Verif.Util.Model

/-! # What the functions of tm_utility.h should give, independent of how they work -/

namespace Tm.Util

variable {α : Type}

/-- A strict weak order, as for sorting. -/
structure StrictWeak (lt : α → α → Bool) : Prop where
  irrefl : ∀ a, lt a a = false
  trans : ∀ a b c, lt a b = true → lt b c = true → lt a c = true
  comparable : ∀ a b c, lt a c = true → lt a b = true ∨ lt b c = true

/-- One of the values, and none is less. -/
def Least (lt : α → α → Bool) (xs : List α) (m : α) : Prop := m ∈ xs ∧ ∀ x ∈ xs, lt x m = false

/-- One of the values, and none is greater. -/
def Greatest (lt : α → α → Bool) (xs : List α) (m : α) : Prop := m ∈ xs ∧ ∀ x ∈ xs, lt m x = false

/-- The middle one of three values in order. -/
def Middle (lt : α → α → Bool) (xs : List α) (m : α) : Prop :=
  ∃ lo hi, xs.Perm [lo, m, hi] ∧ lt m lo = false ∧ lt hi m = false

/-- A number of type `int`. -/
def IsInt (x : Int) : Prop := -2 ^ 31 ≤ x ∧ x < 2 ^ 31

/-- The byte of a number, counted from the least significant one. -/
def byte (x i : Nat) : Nat := x / 256 ^ i % 256

end Tm.Util
