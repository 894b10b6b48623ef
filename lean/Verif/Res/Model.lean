import Verif.Basic

/-!
# Model of tm_resource_ptr.h

`T` is `tmu_contents` of tm_unicode.h, with its customization points. A program is a history of operations on variables of type
`resource_ptr<tmu_contents>` and on values of type `tmu_contents`. An allocation gives a block with a new name.
-/

namespace Tm.Res

/-- `tmu_contents`, lines 335-343 of tm_unicode.h. A pointer is null or names a block. -/
structure Contents where
  data : Option Nat
  size : Nat
  capacity : Nat
  deriving DecidableEq, Repr

/-- `T()`: the members are zero. -/
def Contents.zero : Contents := ⟨none, 0, 0⟩

/-- `tml::valid_resource` for `tmu_contents`, line 7992 of tm_unicode.h. -/
def valid (c : Contents) : Bool := c.data.isSome && decide (0 < c.capacity)

/-- `TMU_FREE`: freeing a block that is not allocated is undefined. -/
def free (live : List Nat) (block : Nat) : C (List Nat) := if block ∈ live then .ok (live.erase block) else .error .invalid

/-- `tml::destroy_resource` for `tmu_contents`, line 7993, and `tmu_destroy_contents`, lines 7571-7581 of tm_unicode.h. -/
def destroy (live : List Nat) (c : Contents) : C (List Nat × Contents) :=
  match c.data with
  | some block => do
    assert (decide (0 < c.capacity))
    let live ← free live block
    .ok (live, Contents.zero)
  | none => .ok (live, Contents.zero)

/-- The state of a program: the blocks that are allocated, the name of the next one, the variables of type `resource_ptr` (`none` after
the destructor), and the values of type `tmu_contents` for which the program itself is responsible. -/
structure State where
  live : List Nat
  fresh : Nat
  vars : List (Option Contents)
  mine : List Contents
  deriving DecidableEq, Repr

/-- What a program can do. Numbers are positions in the lists of variables and of values. -/
inductive Op
  /-- get a value from a function that allocates, with these members `size` and `capacity` -/
  | allocate (size capacity : Nat)
  /-- `tmu_destroy_contents(&value)`, and forget it -/
  | destroyValue (k : Nat)
  /-- `resource_ptr()` -/
  | construct
  /-- `resource_ptr(value)`, `make_resource(value)`: the variable becomes responsible -/
  | adopt (k : Nat)
  /-- `resource_ptr(std::move(i))` -/
  | moveConstruct (i : Nat)
  /-- `i = std::move(j)` -/
  | moveAssign (i j : Nat)
  /-- `i.release()` -/
  | release (i : Nat)
  /-- `i.reset()` -/
  | reset (i : Nat)
  /-- `i.reset(value)`: the variable becomes responsible -/
  | resetTo (i k : Nat)
  /-- `i.swap(j)` -/
  | swap (i j : Nat)
  /-- the destructor of `i` -/
  | destruct (i : Nat)
  deriving DecidableEq, Repr

/-- The member `data` of a variable that was not destructed. -/
def var (s : State) (i : Nat) : C Contents :=
  match s.vars[i]? with
  | some (some c) => .ok c
  | _ => .error .invalid

/-- A value of the program. -/
def value (s : State) (k : Nat) : C Contents :=
  match s.mine[k]? with
  | some c => .ok c
  | none => .error .invalid

/-- `swap`, lines 61-65: `this` is `i`, `other` is `j`, which may be the same. -/
def swapVars (s : State) (i j : Nat) : C State := do
  let temp ← var s j
  let data ← var s i
  let s := { s with vars := s.vars.set j (some data) }
  let s := { s with vars := s.vars.set i (some temp) }
  .ok s

/-- One operation. Constructors: lines 39-41 and 84-87, move assignment: lines 43-46, destructor: line 48, `release`: lines 50-54,
`reset`: lines 56-59, `swap`: lines 61-65. -/
def step (s : State) : Op → C State
  | .allocate size capacity =>
    .ok { s with live := s.fresh :: s.live, fresh := s.fresh + 1, mine := s.mine ++ [⟨some s.fresh, size, capacity⟩] }
  | .destroyValue k => do
    let c ← value s k
    let r ← destroy s.live c
    .ok { s with live := r.1, mine := s.mine.eraseIdx k }
  | .construct => .ok { s with vars := s.vars ++ [some Contents.zero] }
  | .adopt k => do
    let c ← value s k
    .ok { s with vars := s.vars ++ [some c], mine := s.mine.eraseIdx k }
  | .moveConstruct i => do
    let c ← var s i
    .ok { s with vars := s.vars.set i (some Contents.zero) ++ [some c] }
  | .moveAssign i j => swapVars s i j
  | .release i => do
    let result ← var s i
    .ok { s with vars := s.vars.set i (some Contents.zero), mine := s.mine ++ [result] }
  | .reset i => do
    let c ← var s i
    let r ← destroy s.live c
    let s := { s with live := r.1, vars := s.vars.set i (some r.2) }
    .ok { s with vars := s.vars.set i (some Contents.zero) }
  | .resetTo i k => do
    let new ← value s k
    let c ← var s i
    let r ← destroy s.live c
    let s := { s with live := r.1, vars := s.vars.set i (some r.2) }
    .ok { s with vars := s.vars.set i (some new), mine := s.mine.eraseIdx k }
  | .swap i j => swapVars s i j
  | .destruct i => do
    let c ← var s i
    let r ← destroy s.live c
    .ok { s with live := r.1, vars := s.vars.set i none }

/-- A program. -/
def run : State → List Op → C State
  | s, [] => .ok s
  | s, o :: os => do
    let s ← step s o
    run s os

/-- `tmu_contents_result`, lines 362-365 of tm_unicode.h: what is read into memory and an error code. -/
structure ContentsResult where
  contents : Contents
  ec : Nat
  deriving DecidableEq, Repr

/-- `tml::valid_resource` for `tmu_contents_result`, line 7995 of tm_unicode.h. -/
def validResult (r : ContentsResult) : Bool := decide (r.ec = 0)

/-- `release` for `tmu_contents_result`, lines 50-54: what is returned, and what is left in the variable. -/
def releaseResult (data : ContentsResult) : ContentsResult × ContentsResult := (data, ⟨Contents.zero, 0⟩)

end Tm.Res
