import Verif.Alloc.Stack
/-!
# Model of `MonotonicAllocator` (tm_allocator.h)

The array of stack allocators is a list, next to its address. What the system gives (the address of the array after `TM_REALLOC`, the address
of new pages) are parameters, 0 is a failure. Pages that were mapped are part of the result. Using `current_stack_allocator` to change a stack
allocator is not modelled.
-/
namespace Tm.Alloc

/-- tm_allocator.h:434-439 the data members of `MonotonicAllocator`; `table` is the pointer `allocators`, `array` is what it points to -/
structure Mono where
  table : U64
  array : List Stack
  current : Nat
  capacity : Nat
  blockSize : U64
  leak : Bool
deriving DecidableEq, Repr

/-- tm_allocator.h:316-321 `StackAllocator{}` -/
def Stack.empty : Stack := ⟨0, 0, 0, 0⟩

/-- tm_allocator.h:1688-1694 the constructor: `table` is what `TM_MALLOC` gives and `memory` what is in this memory, `granularity` is the size of
pages -/
def Mono.make (table : U64) (memory : Stack) (granularity : U64) : Mono :=
  if table = 0 then ⟨0, [], 0, 0, granularity, false⟩ else ⟨table, [memory], 0, 1, granularity, false⟩

/-- What the system gives in one call: the address of the greater array, and the address of the pages -/
structure Given where
  table : U64
  page : U64
deriving DecidableEq, Repr

/-- tm_allocator.h:1764-1771 the new pages, whose size is `size`, and the allocation from them. The last part is the pages that were mapped. -/
def Mono.takePages (m : Mono) (index : Nat) (pages : U64) (g : Given) (size alignment : U64) : C (Block × Mono × List (U64 × U64)) :=
  if g.page = 0 then .ok (.none, m, [])
  else do
    let s ← Stack.make g.page pages
    let (r, s) ← s.allocate size alignment
    .ok (r, { m with array := m.array.set index s }, [(g.page, pages)])

/-- tm_allocator.h:1746-1763 another stack allocator; it becomes the current one if the size is not greater than that of a page -/
def Mono.grow (m : Mono) (g : Given) (size alignment : U64) : C (Block × Mono × List (U64 × U64)) :=
  if m.capacity = 2 ^ 31 - 1 then .error .overflow
  else if g.table = 0 then .ok (.none, m, [])
  else if size ≤ m.blockSize then
    Mono.takePages { m with table := g.table, array := m.array ++ [Stack.empty], capacity := m.capacity + 1, current := m.capacity } m.capacity
      m.blockSize g size alignment
  else
    Mono.takePages { m with table := g.table, array := m.array ++ [Stack.empty], capacity := m.capacity + 1 } m.capacity size g size alignment

/-- tm_allocator.h:1742-1772 `allocate_bytes`: the block, the allocator, and the pages that were mapped -/
def Mono.allocate (m : Mono) (g : Given) (size alignment : U64) : C (Block × Mono × List (U64 × U64)) := do
  assert (m.table != 0)
  let s ← rd m.array m.current
  let (r, s) ← s.allocate size alignment
  if r.ok then .ok (r, { m with array := m.array.set m.current s }, []) else m.grow g size alignment

/-- tm_allocator.h:1775-1778 the loop of `owns` -/
def ownsLoop (ptr : U64) : List Stack → C Bool
  | [] => .ok false
  | s :: l => do
    let r ← s.owns ptr
    if r then .ok true else ownsLoop ptr l

/-- tm_allocator.h:1773-1779 `owns` -/
def Mono.owns (m : Mono) (ptr : U64) : C Bool := if ptr = 0 then .ok true else ownsLoop ptr (m.array.take m.capacity)

/-- tm_allocator.h:471 `leak_memory_on_destruction` -/
def Mono.setLeak (m : Mono) (enabled : Bool) : Mono := { m with leak := enabled }

/-- What is given back to the system: blocks of `TM_MALLOC`, and pages -/
structure Returned where
  freed : List U64
  unmapped : List U64
deriving DecidableEq, Repr

/-- tm_allocator.h:1728-1733 the destructor: what is given back -/
def Mono.destroy (m : Mono) : Returned := if !m.leak && m.table != 0 then ⟨[m.table], []⟩ else ⟨[], []⟩

/-- tm_allocator.h:1702-1706, 1719-1723 what is left of an allocator that was moved from -/
def Mono.moved : Mono := ⟨0, [], 0, 0, 0, false⟩

/-- tm_allocator.h:1695-1707 the move constructor: the new allocator, and what is left of the old one -/
def Mono.moveMake (other : Mono) : Mono × Mono := (other, Mono.moved)

/-- tm_allocator.h:1708-1727 move assignment of another allocator: the allocator, what is left of the other one, and what is given back -/
def Mono.moveAssign (m other : Mono) : Mono × Mono × Returned :=
  (other, Mono.moved, if !m.leak && m.table != 0 then ⟨[m.table], []⟩ else ⟨[], []⟩)

end Tm.Alloc
