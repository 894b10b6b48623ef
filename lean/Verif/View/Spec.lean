import Verif.View.Model

/-! # What views should do, independent of how they work -/

namespace Tm.View

variable {α : Type}

/-- Some values of a memory. -/
def slice (mem : List α) (first n : Nat) : List α := (mem.drop first).take n

/-- The values of a view. -/
def St.contents (s : St α) : List α := slice s.mem s.view.ptr s.view.sz

/-- The view is one of a part of the memory, and has not more values than fit. No object has 2^63 bytes or more. -/
def St.Fits (s : St α) : Prop := s.view.ptr + s.view.cap ≤ s.mem.length ∧ s.view.sz ≤ s.view.cap ∧ s.mem.length < 2 ^ 63

/-- It is still a view of the same part of the memory, and the rest of the memory is as before. -/
def Keeps (s s' : St α) : Prop :=
  s'.view.ptr = s.view.ptr ∧ s'.view.cap = s.view.cap ∧ s'.mem.length = s.mem.length ∧
  ∀ i, i < s.view.ptr ∨ s.view.ptr + s.view.cap ≤ i → s'.mem[i]? = s.mem[i]?

/-- The call succeeds, the view has these values afterwards, and nothing else is changed. -/
def Becomes (s : St α) (r : C (St α)) (contents : List α) : Prop :=
  ∃ s', r = .ok s' ∧ s'.contents = contents ∧ s'.Fits ∧ Keeps s s'

/-- The calls that change a view. Values are given by reference, ranges by pointers. -/
inductive Op
  | pushBack (elem : Nat)
  | popBack
  | tryPushBack (elem : Nat)
  | tryPopBack
  | emplaceBack
  | clear
  | resize (sz : Nat)
  | grow (n : Nat)
  | assignRange (first last : Nat)
  | assignLength (first length : Nat)
  | assignFill (n val : Nat)
  | insertFill (position n val : Nat)
  | insertRange (position first last : Nat)
  | erase (position : Nat)
  | eraseRange (first last : Nat)

/-- A call without its result. -/
def exec (s : St α) : Op → C (St α)
  | .pushBack e => View.pushBack s e
  | .popBack => View.popBack s
  | .tryPushBack e => do .ok (← View.tryPushBack s e).2
  | .tryPopBack => do .ok (← View.tryPopBack s).2
  | .emplaceBack => do .ok (← View.emplaceBack s).2
  | .clear => .ok (View.clear s)
  | .resize n => View.resize s n
  | .grow n => View.grow s n
  | .assignRange f l => View.assignRange s f l
  | .assignLength f n => View.assignLength s f n
  | .assignFill n v => View.assignFill s n v
  | .insertFill p n v => View.insertFill s p n v
  | .insertRange p f l => View.insertRange s p f l
  | .erase p => View.erase s p
  | .eraseRange f l => View.eraseRange s f l

/-- Calls that succeed, one after the other. `pop` says whether `pop_back` may be called for an empty view. -/
inductive History (pop : Prop) (s : St α) : St α → Prop
  | nil : History pop s s
  | call (op : Op) (s' s'' : St α) : History pop s s' → (op = .popBack → s'.view.sz = 0 → pop) → exec s' op = .ok s'' → History pop s s''

end Tm.View
