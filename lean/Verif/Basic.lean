/-!
# Shared vocabulary of the models

`C α` is the result of running a piece of C/C++ code: either a value, or a `Fault` when the code
fails one of its assertions or has undefined behaviour. The constructors are kept apart so that theorems can say which
one happens.
-/

namespace Tm

/-- The ways in which a run of the modelled C/C++ code can leave the defined behaviour. -/
inductive Fault where
  /-- a `TM_ASSERT`-style assertion does not hold -/
  | assertion
  /-- read or write outside an object -/
  | oob
  /-- signed integer overflow -/
  | overflow
  /-- shift amount not smaller than the width of the shifted type -/
  | shift
  /-- division by zero -/
  | divZero
  /-- use of an indeterminate value, or of a null / dangling pointer -/
  | invalid
  /-- the loop did not finish within the given number of iterations -/
  | diverge
deriving DecidableEq, Repr

/-- Result of running modelled code. -/
abbrev C (α : Type) := Except Fault α

instance {α : Type} [DecidableEq α] : DecidableEq (C α) := fun x y =>
  match x, y with
  | .ok a, .ok b => if h : a = b then isTrue (by rw [h]) else isFalse (by intro h'; cases h'; exact h rfl)
  | .error a, .error b => if h : a = b then isTrue (by rw [h]) else isFalse (by intro h'; cases h'; exact h rfl)
  | .ok _, .error _ => isFalse (by intro h; cases h)
  | .error _, .ok _ => isFalse (by intro h; cases h)

@[simp] theorem ok_bind {α β : Type} (a : α) (f : α → C β) : ((.ok a : C α) >>= f) = f a := rfl
@[simp] theorem error_bind {α β : Type} (e : Fault) (f : α → C β) : ((.error e : C α) >>= f) = .error e := rfl
@[simp] theorem pure_eq_ok {α : Type} (a : α) : (pure a : C α) = .ok a := rfl

/-- `TM_ASSERT(cond)`. -/
def assert (c : Bool) : C Unit := if c then .ok () else .error .assertion

/-- `p[i] = v` where `p` points to the first element of the object `b`. -/
def wr {α : Type} (b : List α) (i : Nat) (v : α) : C (List α) :=
  if i < b.length then .ok (b.set i v) else .error .oob

/-- `p[i]` where `p` points to the first element of the object `b`. -/
def rd {α : Type} (b : List α) (i : Nat) : C α :=
  match b[i]? with
  | some v => .ok v
  | none => .error .oob

/-- A `char`, as its unsigned value. -/
abbrev Byte := BitVec 8

/-- `p[i] = v` where `p` points to the first element of the object `b` and `i` may be negative. -/
def wrI {α : Type} (b : List α) (i : Int) (v : α) : C (List α) :=
  if 0 ≤ i then wr b i.toNat v else .error .oob

/-- `v << n` on a `w` bit unsigned type: an oversized shift is undefined behaviour. -/
def shl {w : Nat} (v : BitVec w) (n : Nat) : C (BitVec w) :=
  if n < w then .ok (v <<< n) else .error .shift

/-- `v >> n` on a `w` bit unsigned type. -/
def shr {w : Nat} (v : BitVec w) (n : Nat) : C (BitVec w) :=
  if n < w then .ok (v >>> n) else .error .shift

/-- C's conversion of a comparison result to an unsigned integer. -/
def b2u {w : Nat} (c : Bool) : BitVec w := if c then 1 else 0

/-- Error codes (`tm_errc`), shared by all libraries. -/
inductive Errc where
  | ok | einval | erange | eoverflow | enomem | eio | enoent | other
deriving DecidableEq, Repr

end Tm
