import Verif.Basic

/-!
# Model of tm_arrayview.h

There is one memory, a list of values. Pointers, iterators and references are indices of it, so that they may point into the view as
well as elsewhere. Sizes are of type `size_t` with 64 bits; the assertions that a size is not negative are always true.

Simplifications: values are copied as a whole. The pointer of a view is not null.
-/

namespace Tm.View

variable {α : Type}

/-- A result of type `size_t`. -/
def wrap (x : Int) : Nat := (x % 2 ^ 64).toNat

/-- `memmove` of `n` values. A negative number of values is a very large one. -/
def memmove (mem : List α) (dest src : Nat) (n : Int) : C (List α) :=
  if 0 ≤ n ∧ src + n.toNat ≤ mem.length ∧ dest + n.toNat ≤ mem.length then
    .ok (mem.take dest ++ (mem.drop src).take n.toNat ++ mem.drop (dest + n.toNat))
  else .error .oob

/-- `memcpy` of `n` values: overlapping ranges are undefined behaviour. -/
def memcpy (mem : List α) (dest src n : Nat) : C (List α) :=
  if dest < src + n ∧ src < dest + n then .error .invalid else memmove mem dest src n

/-! ## UninitializedArrayView -/

/-- `UninitializedArrayView`, lines 359-364. -/
structure View where
  ptr : Nat
  sz : Nat
  cap : Nat
  deriving DecidableEq, Repr

/-- A memory and a view of it. -/
structure St (α : Type) where
  mem : List α
  view : View
  deriving DecidableEq, Repr

/-- `end`, line 377. -/
def St.stop (s : St α) : Nat := s.view.ptr + s.view.sz

/-- `remaining`, line 398. -/
def St.remaining (s : St α) : Nat := wrap (s.view.cap - s.view.sz)

/-- `makeUninitializedArrayView`, lines 622-625. -/
def makeUninitialized (mem : List α) (ptr cap : Nat) : St α := ⟨mem, ⟨ptr, 0, cap⟩⟩

/-- `makeInitializedArrayView`, lines 626-629. -/
def makeInitialized (mem : List α) (ptr size cap : Nat) : St α := ⟨mem, ⟨ptr, size, cap⟩⟩

/-- `operator[]` and `at`, lines 400-426: the value. -/
def get (s : St α) (i : Nat) : C α := do
  assert (decide (i < s.view.sz))
  rd s.mem (s.view.ptr + i)

/-- `back`, lines 458-467. -/
def back (s : St α) : C α := do
  assert (s.view.sz ≠ 0)
  rd s.mem (s.view.ptr + (s.view.sz - 1))

/-- `front`, lines 468-477. -/
def front (s : St α) : C α := do
  assert (s.view.sz ≠ 0)
  rd s.mem s.view.ptr

/-- `push_back`, lines 479-484. -/
def pushBack (s : St α) (elem : Nat) : C (St α) := do
  assert (decide (wrap (s.view.sz + 1) ≤ s.view.cap))
  let x ← rd s.mem elem
  let mem ← wr s.mem (s.view.ptr + s.view.sz) x
  .ok ⟨mem, { s.view with sz := wrap (s.view.sz + 1) }⟩

/-- `pop_back`, lines 485-488. -/
def popBack (s : St α) : C (St α) := .ok { s with view := { s.view with sz := wrap (s.view.sz - 1) } }

/-- `try_push_back`, lines 490-494. -/
def tryPushBack (s : St α) (elem : Nat) : C (Bool × St α) := do
  if s.remaining = 0 then .ok (false, s)
  else do
    let s ← pushBack s elem
    .ok (true, s)

/-- `try_pop_back`, lines 495-501. -/
def tryPopBack (s : St α) : C (Bool × St α) :=
  if 0 < s.view.sz then .ok (true, { s with view := { s.view with sz := wrap (s.view.sz - 1) } }) else .ok (false, s)

/-- `emplace_back`, lines 513-518 (505-511): the reference that is returned as well. -/
def emplaceBack (s : St α) : C (Nat × St α) := do
  assert (decide (wrap (s.view.sz + 1) ≤ s.view.cap))
  let sz := wrap (s.view.sz + 1)
  .ok (s.view.ptr + (sz - 1), { s with view := { s.view with sz := sz } })

/-- `clear`, line 521. -/
def clear (s : St α) : St α := { s with view := { s.view with sz := 0 } }

/-- `resize`, lines 522-525. -/
def resize (s : St α) (sz : Nat) : C (St α) := do
  assert (decide (sz ≤ s.view.cap))
  .ok { s with view := { s.view with sz := sz } }

/-- `grow`, lines 526-529. -/
def grow (s : St α) (n : Nat) : C (St α) := do
  let sz := wrap (s.view.sz + n)
  assert (decide (sz ≤ s.view.cap))
  .ok { s with view := { s.view with sz := sz } }

/-- A pointer is not inside of the view, as in lines 533 and 540. -/
def outside (s : St α) (p : Nat) : Bool := decide (p < s.view.ptr) || decide (s.stop ≤ p)

/-- `assign` of a range, lines 532-537; line 531 is the one of another view. -/
def assignRange (s : St α) (first last : Nat) : C (St α) := do
  assert (outside s first && outside s last)
  let sz := wrap (last - first)
  assert (decide (sz ≤ s.view.cap))
  let mem ← memcpy s.mem s.view.ptr first sz
  .ok ⟨mem, { s.view with sz := sz }⟩

/-- `assign` of a pointer and a length, lines 538-544. -/
def assignLength (s : St α) (first length : Nat) : C (St α) := do
  assert (decide (length ≤ s.view.cap))
  assert (outside s first && outside s (first + length))
  let mem ← memcpy s.mem s.view.ptr first length
  .ok ⟨mem, { s.view with sz := length }⟩

/-- The loop of `assign`, lines 551-553, from the index `i` on. -/
def assignLoop (ptr val : Nat) : Nat → List α → Nat → C (List α)
  | _, mem, 0 => .ok mem
  | i, mem, n + 1 => do
    let x ← rd mem val
    let mem ← wr mem (ptr + i) x
    assignLoop ptr val (i + 1) mem n

/-- `assign` of copies of a value, lines 545-554. -/
def assignFill (s : St α) (n val : Nat) : C (St α) := do
  let n := if n < s.view.cap then n else s.view.cap
  let mem ← assignLoop s.view.ptr val 0 s.mem n
  .ok ⟨mem, { s.view with sz := n }⟩

/-- The loop of `insert`, lines 574-576, from the index `i` of type `int` on. -/
def insertLoop (position : Nat) (tmp : α) : Nat → List α → Nat → C (List α)
  | _, mem, 0 => .ok mem
  | i, mem, n + 1 => do
    let mem ← wr mem (position + i) tmp
    if i = 2 ^ 31 - 1 then .error .overflow else insertLoop position tmp (i + 1) mem n

/-- `insert` of copies of a value, lines 561-579, and `append`, line 598. -/
def insertFill (s : St α) (position n val : Nat) : C (St α) := do
  assert (decide (s.view.ptr ≤ position) && decide (position ≤ s.stop))
  let rem := s.remaining
  let count := if n < rem then n else rem
  let suffix : Int := s.stop - position
  if 0 < count then do
    let tmp ← rd s.mem val
    let mem ← memmove s.mem (position + count) position suffix
    let mem ← insertLoop position tmp 0 mem count
    .ok ⟨mem, { s.view with sz := wrap (s.view.sz + count) }⟩
  else .ok s

/-- `insert` of a range, lines 580-595, and `append`, line 597. -/
def insertRange (s : St α) (position first last : Nat) : C (St α) := do
  assert (decide (first ≤ last))
  assert (decide (s.view.ptr ≤ position) && decide (position ≤ s.stop))
  let rem := s.remaining
  let count := last - first
  assert (decide (count ≤ rem))
  if 0 < count && count ≤ rem then do
    let mem ← memmove s.mem (position + count) position (s.stop - position)
    let mem ← memcpy mem position first count
    .ok ⟨mem, { s.view with sz := wrap (s.view.sz + count) }⟩
  else .ok s

/-- `erase` of one value, lines 600-606. -/
def erase (s : St α) (position : Nat) : C (St α) := do
  assert (decide (s.view.ptr ≤ position) && decide (position ≤ s.stop))
  let mem ← memmove s.mem position (position + 1) (s.stop - position - 1)
  .ok ⟨mem, { s.view with sz := wrap (s.view.sz - 1) }⟩

/-- `erase` of a range, lines 607-619. -/
def eraseRange (s : St α) (first last : Nat) : C (St α) := do
  assert (decide (first ≤ last))
  if first = s.view.ptr && last = s.stop then .ok (clear s)
  else if first < last then do
    assert (decide (s.view.ptr ≤ first) && decide (last ≤ s.stop))
    let mem ← memmove s.mem first last (s.stop - last)
    .ok ⟨mem, { s.view with sz := wrap (s.view.sz - (last - first : Nat)) }⟩
  else .ok s

/-! ## Ranges -/

/-- `makeRangeView` of a container at `data` with `sz` values, lines 309-316, and of an array, lines 333-340: pointer and size. -/
def makeRangeFrom (data sz start : Nat) : C (Nat × Nat) :=
  let start := if sz ≤ start then sz else start
  .ok (data + start, wrap (sz - start))

/-- `makeRangeView` with an end, lines 318-330 and 342-354. -/
def makeRange (data sz start stop : Nat) : C (Nat × Nat) := do
  let start := if sz ≤ start then sz else start
  let stop := if sz ≤ stop then sz else stop
  assert (decide (start ≤ stop))
  .ok (data + start, wrap (stop - start))

/-! ## GridView -/

/-- `GridView`, lines 645-648. -/
structure Grid where
  ptr : Nat
  width : Nat
  height : Nat
  deriving DecidableEq, Repr

/-- `isInBounds`, line 665. -/
def Grid.inBounds (g : Grid) (x y : Nat) : Bool := decide (x < g.width) && decide (y < g.height)

/-- `size`, line 668. -/
def Grid.size (g : Grid) : Nat := wrap (g.width * g.height)

/-- `index`, line 670. -/
def Grid.index (g : Grid) (x y : Nat) : Nat := wrap (x + y * g.width)

/-- `coordinatesFromIndex`, lines 672-675. The divisor is not zero by the assertion. -/
def Grid.coordinates (g : Grid) (i : Nat) : C (Nat × Nat) := do
  assert (decide (i < g.size))
  .ok (i % g.width, i / g.width)

/-- `at` of an index, lines 691-702, and `operator[]`: the value. -/
def Grid.atIndex (g : Grid) (mem : List α) (i : Nat) : C α := do
  assert (decide (i < g.size))
  rd mem (g.ptr + i)

/-- `at` of coordinates, lines 704-717: the value. -/
def Grid.at (g : Grid) (mem : List α) (x y : Nat) : C α := do
  assert (g.inBounds x y)
  let i := wrap (x + y * g.width)
  assert (decide (i < g.size))
  rd mem (g.ptr + i)

/-- `queryAt` of an index, lines 722-728: a pointer or null. -/
def Grid.queryIndex (g : Grid) (i : Nat) : Option Nat := if i < g.size then some (g.ptr + i) else none

/-- `queryAt` of coordinates, lines 729-735: a pointer or null. -/
def Grid.query (g : Grid) (x y : Nat) : Option Nat := if g.inBounds x y then some (g.ptr + x + wrap (y * g.width)) else none

end Tm.View
