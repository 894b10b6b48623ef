import Verif.Alloc.Stack
/-!
# Model of `FixedSizeIdAllocator` and `FixedSizeGenerationalIdAllocator` (tm_allocator.h)

The storage is a list of slots of `elem` bytes each; only the first 32 bit word of a slot is looked at by the allocators,
so a slot is represented by that word. `size`, `capacity` and `free_index` are `int32_t` in the code; they are unbounded
integers here, except where the code converts explicitly; so the two assertions on `size` itself (1873, 1964), which fail
only with 2^31 slots in use, and the narrowing of the new capacity (1867, 1959) are left out.
Byte offsets are computed as in the code, modulo 2^32 for `uint32_t * int32_t` and with a fault on overflow for
`int32_t * int32_t`. An access at an offset that is not the start of a slot is reported as `.invalid`.
-/
namespace Tm.Alloc

/-- `uint32_t` -/
abbrev U32 := BitVec 32

/-- tm_allocator.h:559-569 the data members of `FixedSizeIdAllocator`. `slots.length` is `capacity`, `hasData` is
`data != nullptr`. -/
structure IdAlloc where
  hasData : Bool
  slots : List U32
  size : Nat
  free : Int
  elem : Nat
deriving DecidableEq, Repr

/-- The slot at byte offset `off`. -/
def IdAlloc.slotAt (s : IdAlloc) (off : Nat) : C Nat :=
  if off % s.elem = 0 ∧ s.elem ≠ 0 then
    if off / s.elem < s.slots.length then .ok (off / s.elem) else .error .oob
  else .error .invalid

/-- The product of two `int32_t`. -/
def mulI32 (a b : Int) : C Int := if -2 ^ 31 ≤ a * b ∧ a * b < 2 ^ 31 then .ok (a * b) else .error .overflow

/-- tm_allocator.h:1813-1822 constructor; `memory` says whether `malloc` succeeds and with what contents. The alignment
is not modelled. -/
def IdAlloc.make (initialCapacity elementSize : Int) (memory : Option (Nat → U32)) : C IdAlloc := do
  assert (decide (4 ≤ elementSize))
  if initialCapacity ≤ 0 then return ⟨false, [], 0, -1, elementSize.toNat⟩
  else do
    let _ ← mulI32 elementSize initialCapacity
    match memory with
    | none => return ⟨false, [], 0, -1, elementSize.toNat⟩
    | some f => return ⟨true, (List.range initialCapacity.toNat).map f, 0, -1, elementSize.toNat⟩

/-- tm_allocator.h:1885-1893 `pop` -/
def IdAlloc.pop (s : IdAlloc) : C (U32 × IdAlloc) :=
  if 0 ≤ s.free then do
    assert (decide (s.free < s.size))
    let result := BitVec.ofInt 32 (s.free + 1)
    let off ← mulI32 s.free s.elem
    let k ← s.slotAt off.toNat
    let next ← rd s.slots k
    return (result, { s with free := next.toInt })
  else .ok (0, s)

/-- tm_allocator.h:1862-1869 growing the storage; `memory` says whether `realloc` succeeds and with what contents in the
new part. -/
def IdAlloc.growIfFull (s : IdAlloc) (memory : Option (Nat → U32)) : IdAlloc :=
  if s.slots.length ≤ s.size then
    match memory with
    | none => s
    | some f =>
      let newCapacity := (nextCapacity (BitVec.ofNat 64 s.slots.length)).toNat
      { s with slots := s.slots ++ (List.range (newCapacity - s.slots.length)).map f }
  else s

/-- tm_allocator.h:1858-1877 `create` -/
def IdAlloc.create (s : IdAlloc) (memory : Option (Nat → U32)) : C (U32 × IdAlloc) := do
  assert s.hasData
  let (id, s) ← s.pop
  if id ≠ 0 then return (id, s)
  else
    let s := s.growIfFull memory
    if s.size < s.slots.length then return (BitVec.ofNat 32 (s.size + 1), { s with size := s.size + 1 })
    else return (0, s)

/-- tm_allocator.h:1881-1884 `data_from_id`: the byte offset of the element from the start of the storage, if any -/
def IdAlloc.dataFromId (s : IdAlloc) (id : U32) : Option U32 :=
  if id ≠ 0 ∧ (id - 1).toInt < s.size then some ((id - 1) * BitVec.ofNat 32 s.elem) else none

/-- tm_allocator.h:1894-1900 `push` -/
def IdAlloc.push (s : IdAlloc) (id : U32) : C IdAlloc := do
  assert (id != 0)
  let index := id - 1
  let k ← s.slotAt (index * BitVec.ofNat 32 s.elem).toNat
  let slots ← wr s.slots k (BitVec.ofInt 32 s.free)
  return { s with slots := slots, free := index.toInt }

/-- tm_allocator.h:1878-1880 `destroy` -/
def IdAlloc.destroy (s : IdAlloc) (id : U32) : C IdAlloc :=
  if (s.dataFromId id).isSome then s.push id else .ok s

/-! ## Generational ids -/

/-- tm_allocator.h:506 `GenerationalId::generation` -/
def genOf (bits : U32) : U32 := bits >>> 24
/-- tm_allocator.h:507 `GenerationalId::id` -/
def idxOf (bits : U32) : U32 := bits &&& 0x007FFFFF#32
/-- tm_allocator.h:508 `GenerationalId::occupied` -/
def occOf (bits : U32) : Bool := (bits &&& 0x00800000#32) != 0#32
/-- tm_allocator.h:510-512 `GenerationalId::make` -/
def makeId (generation id : U32) (occupied : Bool) : U32 :=
  ((generation &&& 0xFF#32) <<< 24) ||| (id &&& 0x007FFFFF#32) ||| (b2u occupied <<< 23)

/-- tm_allocator.h:693-698 the data members of `FixedSizeGenerationalIdAllocator`. `slots` are the headers, `slots.length` is
`capacity`; `base` is the address of the storage. -/
structure GenAlloc where
  hasData : Bool
  base : U64
  slots : List U32
  size : Nat
  free : Int
  elem : Nat
  align : U64
deriving DecidableEq, Repr

/-- The slot at byte offset `off`. -/
def GenAlloc.slotAt (s : GenAlloc) (off : Nat) : C Nat :=
  if off % s.elem = 0 ∧ s.elem ≠ 0 then
    if off / s.elem < s.slots.length then .ok (off / s.elem) else .error .oob
  else .error .invalid

/-- tm_allocator.h:1905-1908 the size of a slot and its alignment, from the size and alignment of the elements -/
def genLayout (elementSize elementAlignment : Nat) : C (Nat × U64) := do
  let off ← alignmentOffset 4 (BitVec.ofNat 64 elementAlignment)
  return (elementSize + 4 + off.toNat, BitVec.ofNat 64 (if elementAlignment < 4 then 4 else elementAlignment))

/-- tm_allocator.h:1902-1914 constructor; `memory` says whether `malloc` succeeds, at what address and with what contents -/
def GenAlloc.make (initialCapacity : Int) (elementSize elementAlignment : Nat) (memory : Option (U64 × (Nat → U32))) :
    C GenAlloc := do
  let (elem, align) ← genLayout elementSize elementAlignment
  if initialCapacity ≤ 0 then return ⟨false, 0, [], 0, -1, elem, align⟩
  else do
    let _ ← mulI32 elem initialCapacity
    match memory with
    | none => return ⟨false, 0, [], 0, -1, elem, align⟩
    | some (a, f) => return ⟨true, a, (List.range initialCapacity.toNat).map f, 0, -1, elem, align⟩

/-- tm_allocator.h:1979-1988 `pop` -/
def GenAlloc.pop (s : GenAlloc) : C (U32 × GenAlloc) :=
  if 0 < s.free then do
    assert (decide (s.free ≤ s.size))
    let off ← mulI32 s.free s.elem
    let k ← s.slotAt off.toNat
    let header ← rd s.slots k
    return (makeId (genOf header) (BitVec.ofInt 32 s.free) true, { s with free := (idxOf header).toInt })
  else .ok (0, s)

/-- tm_allocator.h:1954-1961 growing the storage; `memory` says whether `realloc` succeeds, where, and with what contents in
the new part. -/
def GenAlloc.growIfFull (s : GenAlloc) (memory : Option (U64 × (Nat → U32))) : GenAlloc :=
  if s.slots.length ≤ s.size then
    match memory with
    | none => s
    | some (a, f) =>
      let newCapacity := (nextCapacity (BitVec.ofNat 64 s.slots.length)).toNat
      { s with base := a, slots := s.slots ++ (List.range (newCapacity - s.slots.length)).map f }
  else s

/-- tm_allocator.h:1950-1971 `create` -/
def GenAlloc.create (s : GenAlloc) (memory : Option (U64 × (Nat → U32))) : C (U32 × GenAlloc) := do
  assert s.hasData
  let (id, s) ← s.pop
  if id ≠ 0 then return (id, s)
  else
    let s := s.growIfFull memory
    if s.size < s.slots.length then do
      let off ← mulI32 s.size s.elem
      let k ← s.slotAt off.toNat
      let header := makeId 0 (BitVec.ofNat 32 s.size) true
      let slots ← wr s.slots k header
      return (header, { s with slots := slots, size := s.size + 1 })
    else return (0, s)

/-- tm_allocator.h:1996-2004 `base_from_id`: the slot of the id, if the id is valid -/
def GenAlloc.baseFromId (s : GenAlloc) (id : U32) : C (Option Nat) :=
  if !occOf id then .ok none
  else if (s.size : Int) ≤ (idxOf id).toInt then .ok none
  else do
    let k ← s.slotAt (idxOf id * BitVec.ofNat 32 s.elem).toNat
    let header ← rd s.slots k
    return if header ≠ id then none else some k

/-- tm_allocator.h:2005-2008 `body_from_base`: the address of the element of slot `k` -/
def GenAlloc.bodyOf (s : GenAlloc) (k : Nat) : C U64 := do
  let endOfHeader := s.base + BitVec.ofNat 64 (k * s.elem) + 4
  let off ← alignmentOffset endOfHeader s.align
  return endOfHeader + off

/-- tm_allocator.h:1975-1978 `data_from_id` -/
def GenAlloc.dataFromId (s : GenAlloc) (id : U32) : C (Option U64) := do
  let b ← s.baseFromId id
  match b with
  | none => return none
  | some k => do
    let a ← s.bodyOf k
    return some a

/-- tm_allocator.h:1989-1995 `push` -/
def GenAlloc.push (s : GenAlloc) (id : U32) : C GenAlloc := do
  let index := idxOf id
  let k ← s.slotAt (index * BitVec.ofNat 32 s.elem).toNat
  let header ← rd s.slots k
  assert (header == id)
  let slots ← wr s.slots k (makeId (genOf header + 1) (BitVec.ofInt 32 s.free) false)
  return { s with slots := slots, free := index.toInt }

/-- tm_allocator.h:1972-1974 `destroy` -/
def GenAlloc.destroy (s : GenAlloc) (id : U32) : C GenAlloc := do
  let b ← s.baseFromId id
  if b.isSome then s.push id else return s

/-- tm_allocator.h:631-635 the position of a `ForwardIterator`: its slot and the number of slots left -/
structure GenIter where
  slot : Nat
  size : Int
deriving DecidableEq, Repr

/-- tm_allocator.h:2034-2039 the search loop of `operator++` -/
def GenAlloc.iterLoop (s : GenAlloc) : Nat → Nat → Int → C GenIter
  | 0, _, _ => .error .diverge
  | fuel + 1, k, n => do
    let header ← rd s.slots k
    if occOf header then return ⟨k, n⟩
    else if n - 1 ≠ 0 then s.iterLoop fuel (k + 1) (n - 1)
    else return ⟨k + 1, n - 1⟩

/-- tm_allocator.h:2029-2042 `ForwardIterator::operator++` (and 2068-2082 for the const iterator). Reads beyond the storage
fault. -/
def GenAlloc.iterNext (s : GenAlloc) (it : GenIter) : C GenIter := do
  assert (it.size != 0)
  s.iterLoop (s.slots.length + 1) (it.slot + 1) (it.size - 1)

/-- tm_allocator.h:679, 2010-2016 `begin` -/
def GenAlloc.begin (s : GenAlloc) : C GenIter :=
  if s.size ≠ 0 then do
    let header ← rd s.slots 0
    if !occOf header then s.iterNext ⟨0, s.size⟩ else return ⟨0, s.size⟩
  else .ok ⟨0, s.size⟩

/-- tm_allocator.h:680 `end` -/
def GenAlloc.endIter (s : GenAlloc) : GenIter := ⟨s.size, 0⟩

end Tm.Alloc
