import Verif.Num.Spec
/-!
# Model of the alignment helpers and of `StackAllocator` (tm_allocator.h)

Addresses, sizes and alignments are 64 bit words (`uintptr_t`, `size_t`), `NULL` is address 0. Pointer arithmetic is
word arithmetic: forming a pointer outside the buffer is not a fault by itself. The contents of the buffer are a list of
bytes next to the allocator; only `memcpy` inside `reallocate_bytes` touches them.
-/
namespace Tm.Alloc
open Num

/-- `size_t`, `uintptr_t` -/
abbrev U64 := BitVec 64

/-- tm_allocator.h:1330 `is_power_of_two` -/
def isPowerOfTwo (v : U64) : Bool := v != 0 && (v &&& (v - 1)) == 0

/-- tm_allocator.h:1331-1332 `is_pointer_aligned` (both overloads) -/
def isPointerAligned (ptr alignment : U64) : C Bool :=
  if alignment = 0 then .error .divZero else .ok (ptr % alignment == 0)

/-- tm_allocator.h:1333-1344 `alignment_offset` (both overloads) -/
def alignmentOffset (ptr alignment : U64) : C U64 := do
  assert (alignment != 0 && isPowerOfTwo alignment)
  let offset := (alignment - ptr) &&& (alignment - 1)
  let al ← isPointerAligned (ptr + offset) alignment
  assert al
  return offset

/-- tm_allocator.h:201 `next_capacity` -/
def nextCapacity (c : U64) : U64 := 3 * ((c + 2) / 2)

/-- tm_allocator.h:299-309 `MemoryBlock` -/
structure Block where
  ptr : U64
  size : U64
deriving DecidableEq, Repr

/-- tm_allocator.h:303 `MemoryBlock::operator bool` -/
def Block.ok (b : Block) : Bool := b.ptr != 0

/-- `return {};` -/
def Block.none : Block := ⟨0, 0⟩

/-- tm_allocator.h:316-321 the data members of `StackAllocator` -/
structure Stack where
  p : U64
  sz : U64
  cap : U64
  last : U64
deriving DecidableEq, Repr

/-- tm_allocator.h:318-321, 1553-1555 `StackAllocator(ptr, capacity)` -/
def Stack.make (ptr capacity : U64) : C Stack := do
  assert (ptr != 0 || capacity == 0)
  return ⟨ptr, 0, capacity, 0⟩

/-- tm_allocator.h:351-353 `is_valid`, for an allocator that exists -/
def Stack.isValid (s : Stack) : Bool := s.p == 0 || (s.cap != 0 && decide (s.sz ≤ s.cap))

/-- tm_allocator.h:341-344 `end` (and 345-348 `back`) -/
def Stack.endPtr (s : Stack) : C U64 := do
  assert s.isValid
  return s.p + s.sz

/-- tm_allocator.h:1557-1568 `allocate_bytes` -/
def Stack.allocate (s : Stack) (size alignment : U64) : C (Block × Stack) :=
  if size = 0 then .ok (.none, s) else do
    let e ← s.endPtr
    let offset ← alignmentOffset e alignment
    if s.cap < s.sz + offset + size then .ok (.none, s) else do
      let e ← s.endPtr
      let result := e + offset
      let al ← isPointerAligned result alignment
      assert al
      return (⟨result, size⟩, { s with sz := s.sz + (offset + size), last := 1 })

/-- tm_allocator.h:1613-1617 `is_most_recent_allocation` -/
def Stack.isMostRecent (s : Stack) (ptr size : U64) : C Bool := do
  let endPtr := ptr + size
  let off ← alignmentOffset endPtr s.last
  let e ← s.endPtr
  return endPtr + off == e

/-- tm_allocator.h:1618-1626 `owns` -/
def Stack.owns (s : Stack) (ptr : U64) : C Bool :=
  if ptr = 0 then .ok true else do
    let result := decide (s.p ≤ ptr) && decide (ptr < s.p + s.sz)
    assert (result || !(decide (s.p ≤ ptr) && decide (ptr < s.p + s.cap)))
    return result

/-- tm_allocator.h:1603 `!ptr || owns(ptr)` -/
def Stack.freeOwned (s : Stack) (ptr : U64) : C Bool := if ptr = 0 then .ok true else s.owns ptr

/-- tm_allocator.h:1607 `!ptr || size == 0 || is_most_recent_allocation(ptr, size)` -/
def Stack.freeInOrder (s : Stack) (ptr size : U64) : C Bool :=
  if ptr = 0 ∨ size = 0 then .ok true else s.isMostRecent ptr size

/-- tm_allocator.h:1608 `ptr && is_most_recent_allocation(ptr, size)` -/
def Stack.freeRecent (s : Stack) (ptr size : U64) : C Bool := if ptr = 0 then .ok false else s.isMostRecent ptr size

/-- tm_allocator.h:1599-1612 `free_bytes` -/
def Stack.free (s : Stack) (ptr size alignment : U64) : C Stack := do
  assert s.isValid
  let own ← s.freeOwned ptr
  assert own
  let inOrder ← s.freeInOrder ptr size
  assert inOrder
  let recent ← s.freeRecent ptr size
  if recent then do
    let off ← alignmentOffset (ptr + size) s.last
    return { s with sz := s.sz - (size + off), last := alignment }
  else return s

/-- tm_allocator.h:1627-1637 `remaining(alignment)` -/
def Stack.remaining (s : Stack) (alignment : U64) : C U64 := do
  assert s.isValid
  let result := s.cap - s.sz
  let e ← s.endPtr
  let offset ← alignmentOffset e alignment
  return if offset ≤ result then result - offset else 0

/-- tm_allocator.h:338 `remaining()` -/
def Stack.remaining0 (s : Stack) : U64 := s.cap - s.sz

/-- tm_allocator.h:387-390 `get_capacity_for<T>`: `size` and `alignment` are `sizeof(T)` and `alignof(T)` -/
def Stack.capacityFor (s : Stack) (size alignment : U64) : C U64 := do
  let r ← s.remaining alignment
  if size = 0 then .error .divZero else return r / size

/-- tm_allocator.h:1639-1642 `clear` -/
def Stack.clear (s : Stack) : Stack := { s with sz := 0, last := 1 }

/-- tm_allocator.h:355-358 `StateSnapshot` -/
structure Snapshot where
  sz : U64
  last : U64
deriving DecidableEq, Repr

/-- tm_allocator.h:360 `get_state` -/
def Stack.getState (s : Stack) : Snapshot := ⟨s.sz, s.last⟩

/-- tm_allocator.h:1643-1646 `set_state` -/
def Stack.setState (s : Stack) (t : Snapshot) : Stack := { s with sz := t.sz, last := t.last }

/-- `memcpy` inside one buffer of contents `mem`, given as offsets from its start: overlapping regions or bytes outside
the buffer are undefined behaviour. -/
def memcpy (mem : List Byte) (dst src n : Nat) : C (List Byte) :=
  if dst + n ≤ mem.length ∧ src + n ≤ mem.length ∧ (n = 0 ∨ dst + n ≤ src ∨ src + n ≤ dst) then
    .ok (splice mem dst ((mem.drop src).take n))
  else .error .oob

/-- tm_allocator.h:1583 the copy of the old block's bytes into the new block; copying nothing is a no-op -/
def Stack.copyBlock (s : Stack) (mem : List Byte) (dst src n : U64) : C (List Byte) :=
  if n = 0 then .ok mem else memcpy mem (dst - s.p).toNat (src - s.p).toNat n.toNat

/-- tm_allocator.h:1569-1587 `reallocate_bytes`; `mem` are the contents of the buffer. The block is assumed to lie in the
buffer of this allocator (or to be empty), otherwise the copy faults in the model. -/
def Stack.reallocate (s : Stack) (mem : List Byte) (ptr oldSize newSize alignment : U64) :
    C (Block × Stack × List Byte) := do
  assert s.isValid
  let recent ← s.isMostRecent ptr oldSize
  if recent then
    if s.cap < s.sz + (newSize - oldSize) then .ok (.none, s, mem)
    else .ok (⟨ptr, newSize⟩, { s with sz := s.sz + (newSize - oldSize) }, mem)
  else if newSize < oldSize then .ok (⟨ptr, oldSize⟩, s, mem)
  else do
    let (result, s') ← s.allocate newSize alignment
    if result.ok then do
      let mem' ← s.copyBlock mem result.ptr ptr (if oldSize < newSize then oldSize else newSize)
      return (result, s', mem')
    else return (result, s', mem)

/-- tm_allocator.h:1588-1598 `reallocate_bytes_in_place` -/
def Stack.reallocateInPlace (s : Stack) (ptr oldSize newSize : U64) : C (Bool × Stack) := do
  assert (s.p != 0)
  let recent ← s.isMostRecent ptr oldSize
  if recent && decide (s.sz + (newSize - oldSize) ≤ s.cap) then
    return (true, { s with sz := s.sz + (newSize - oldSize) })
  else return (false, s)

/-- tm_allocator.h:411-425 `StackAllocatorGuard`: the guarded allocator (`none` after `dismiss`) is named by the flag -/
structure Guard where
  armed : Bool
  state : Snapshot
deriving DecidableEq, Repr

/-- tm_allocator.h:1787-1788 the guard's constructor -/
def Guard.make (s : Stack) : Guard := ⟨true, s.getState⟩

/-- tm_allocator.h:1809 `dismiss` -/
def Guard.dismiss (g : Guard) : Guard := { g with armed := false }

/-- tm_allocator.h:1802-1807 the guard's destructor, applied to the allocator it guards -/
def Guard.destroy (g : Guard) (s : Stack) : Stack := if g.armed then s.setState g.state else s

/-- tm_allocator.h:1789-1792 move construction: the new guard and what is left of the old one -/
def Guard.move (g : Guard) : Guard × Guard := (g, g.dismiss)

end Tm.Alloc
