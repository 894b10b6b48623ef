import Verif.Alloc.Stack
/-!
# Model of the functions that create and destroy objects, and of `DynamicStackAllocator` (tm_allocator.h)

The allocation helpers are those of level 0. The allocator is a `StackAllocator`. An object is its address and its size; constructing
an object outside of the block that was allocated is the fault `.oob`, destroying one that does not exist is the fault `.invalid`. What
constructors and destructors do besides is not modelled.
-/
namespace Tm.Alloc

/-- An object: where it is, and its size. -/
structure Obj where
  addr : Nat
  size : Nat
deriving DecidableEq, Repr

/-- tm_allocator.h:1019-1024 `allocate_storage_impl`, with 305-308 `MemoryBlock::as`: the block, and its size in elements. `size` is
`sizeof(T)`; the number of bytes wraps around. -/
def Stack.allocateStorage (s : Stack) (count size alignment : U64) : C (Block × U64 × Stack) := do
  assert s.isValid
  let (b, s) ← s.allocate (count * size) alignment
  .ok (b, b.size / size, s)

/-- tm_allocator.h:1040-1044 `free_storage_impl` -/
def Stack.freeStorage (s : Stack) (ptr count size alignment : U64) : C Stack := do
  assert s.isValid
  s.free ptr (count * size) alignment

/-- tm_allocator.h:1061-1063, 1084-1086 and 1105-1107 the loops over placement new: from element `i` on, `n` elements of `size` bytes, in
each of which an object of `built` bytes is constructed -/
def constructLoop (b : Block) (size built : U64) : Nat → Nat → C (List Obj)
  | 0, _ => .ok []
  | n + 1, i =>
    if i * size.toNat + built.toNat ≤ b.size.toNat then do
      let l ← constructLoop b size built n (i + 1)
      .ok (⟨b.ptr.toNat + i * size.toNat, built.toNat⟩ :: l)
    else .error .oob

/-- tm_allocator.h:1057-1066 `create_default_init`; with a count of 1 also 1092-1099 `create` of a single object. The pointer, the
allocator and the objects. -/
def Stack.createInit (s : Stack) (count size alignment : U64) : C (U64 × Stack × List Obj) := do
  let (b, _, s) ← s.allocateStorage count size alignment
  if b.ok then do
    let l ← constructLoop b size size count.toNat 0
    .ok (b.ptr, s, l)
  else .ok (b.ptr, s, [])

/-- tm_allocator.h:1101-1110 `create` of an array. The object constructed in each element has the type that is left when pointers are
removed from the type of the elements; `built` is its size. -/
def Stack.createArray (s : Stack) (count size built alignment : U64) : C (U64 × Stack × List Obj) := do
  let (b, _, s) ← s.allocateStorage count size alignment
  if b.ok then do
    let l ← constructLoop b size built count.toNat 0
    .ok (b.ptr, s, l)
  else .ok (b.ptr, s, [])

/-- tm_allocator.h:1079-1089 `create_at_least`: also the number of elements -/
def Stack.createAtLeast (s : Stack) (count size built alignment : U64) : C (U64 × U64 × Stack × List Obj) := do
  let (b, n, s) ← s.allocateStorage count size alignment
  if b.ok then do
    let l ← constructLoop b size built n.toNat 0
    .ok (b.ptr, n, s, l)
  else .ok (b.ptr, n, s, [])

/-- tm_allocator.h:1119-1121 the loop over destructors; `objs` are the objects that exist -/
def destructLoop (ptr size : U64) : Nat → Nat → List Obj → C (List Obj)
  | 0, _, objs => .ok objs
  | n + 1, i, objs =>
    let o : Obj := ⟨ptr.toNat + i * size.toNat, size.toNat⟩
    if o ∈ objs then destructLoop ptr size n (i + 1) (objs.erase o) else .error .invalid

/-- tm_allocator.h:1116-1124 `destroy` -/
def Stack.destroyObjects (s : Stack) (objs : List Obj) (ptr count size alignment : U64) : C (Stack × List Obj) := do
  let objs ← (if ptr ≠ 0 then destructLoop ptr size count.toNat 0 objs else .ok objs)
  let s ← s.freeStorage ptr count size alignment
  .ok (s, objs)

/-- tm_allocator.h:1261-1266, 1270-1277: what `std::unique_ptr` with the deleters does when it is destroyed: a null pointer is left alone -/
def Stack.destroyUnique (s : Stack) (objs : List Obj) (ptr count size alignment : U64) : C (Stack × List Obj) :=
  if ptr = 0 then .ok (s, objs) else s.destroyObjects objs ptr count size alignment

/-! ### DynamicStackAllocator -/

/-- The memory that `TM_MALLOC` gave and that was not given back, and the objects of the program: `none` before the object is
constructed and after it was destroyed. -/
structure World where
  heap : List U64
  objs : Nat → Option Stack

/-- The objects, with `x` for the object `v`. -/
def putObj (objs : Nat → Option Stack) (v : Nat) (x : Option Stack) : Nat → Option Stack := fun u => if u = v then x else objs u

/-- `TM_MALLOC`: the answer of the system, 0 if there is no memory. An answer that is in use counts as 0, `malloc` does not give it. -/
def malloc (heap : List U64) (answer : U64) : U64 × List U64 := if answer = 0 ∨ answer ∈ heap then (0, heap) else (answer, answer :: heap)

/-- `TM_FREE`: giving back memory that was not given is a fault. -/
def mfree (heap : List U64) (p : U64) : C (List U64) := if p ∈ heap then .ok (heap.erase p) else .error .invalid

/-- tm_allocator.h:318-321, 366 the default constructor -/
def dynDefault : Stack := ⟨0, 0, 0, 0⟩

/-- tm_allocator.h:1648-1653 the constructor -/
def dynMake (heap : List U64) (capacity answer : U64) : Stack × List U64 :=
  if capacity ≠ 0 then
    let m := malloc heap answer
    (⟨m.1, 0, if m.1 ≠ 0 then capacity else 0, 0⟩, m.2)
  else (dynDefault, heap)

/-- tm_allocator.h:1659-1662, 1674-1677 what is left of an allocator that was moved from -/
def dynMoved : Stack := ⟨0, 0, 0, 1⟩

/-- tm_allocator.h:1666-1669, 1682-1685 gives the memory back, if there is any -/
def dynFree (heap : List U64) (s : Stack) : C (List U64) := if s.p ≠ 0 then mfree heap s.p else .ok heap

/-- What a program does with its objects. -/
inductive DynOp
  | default (v : Nat)
  | make (v : Nat) (capacity answer : U64)
  | moveMake (v w : Nat)
  | moveAssign (v w : Nat)
  | destroy (v : Nat)
  | allocate (v : Nat) (size alignment : U64)
  | free (v : Nat) (ptr size alignment : U64)
  | clear (v : Nat)

/-- One action. An object can only be constructed if it does not exist, and used if it does; other actions are no programs and do
nothing. -/
def World.step (w : World) : DynOp → C World
  | .default v => match w.objs v with
    | some _ => .ok w
    | none => .ok ⟨w.heap, putObj w.objs v (some dynDefault)⟩
  | .make v capacity answer => match w.objs v with
    | some _ => .ok w
    | none => let x := dynMake w.heap capacity answer
      .ok ⟨x.2, putObj w.objs v (some x.1)⟩
  -- tm_allocator.h:1654-1663 the move constructor
  | .moveMake v u => match w.objs v, w.objs u with
    | none, some s => .ok ⟨w.heap, putObj (putObj w.objs u (some dynMoved)) v (some s)⟩
    | _, _ => .ok w
  -- tm_allocator.h:1664-1680 move assignment
  | .moveAssign v u => match w.objs v, w.objs u with
    | some d, some s =>
      if v ≠ u then do
        let heap ← dynFree w.heap d
        .ok ⟨heap, putObj (putObj w.objs v (some s)) u (some dynMoved)⟩
      else .ok w
    | _, _ => .ok w
  -- tm_allocator.h:1681-1686 the destructor
  | .destroy v => match w.objs v with
    | some s => do
      let heap ← dynFree w.heap s
      .ok ⟨heap, putObj w.objs v none⟩
    | none => .ok w
  | .allocate v size alignment => match w.objs v with
    | some s => do
      let x ← s.allocate size alignment
      .ok ⟨w.heap, putObj w.objs v (some x.2)⟩
    | none => .ok w
  | .free v ptr size alignment => match w.objs v with
    | some s => do
      let s ← s.free ptr size alignment
      .ok ⟨w.heap, putObj w.objs v (some s)⟩
    | none => .ok w
  | .clear v => match w.objs v with
    | some s => .ok ⟨w.heap, putObj w.objs v (some s.clear)⟩
    | none => .ok w

/-- A history. -/
def World.run (w : World) : List DynOp → C World
  | [] => .ok w
  | op :: ops => do
    let w ← w.step op
    w.run ops

/-- Before the first object. -/
def World.start : World := ⟨[], fun _ => none⟩

end Tm.Alloc
