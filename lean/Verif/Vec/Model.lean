import Verif.Basic

/-!
# Model of tm_small_vector.h

`tm_size_t` is the default `size_t` with 64 bits, and `TM_REALLOC_IN_PLACE` is not defined, as by default. Element types are either
trivially copyable, or nothing about them is trivial. Positions are indices: an iterator `it` is `it - begin()`.

Storage knows for every element whether there is an object in it. For types that are not trivial this makes misuse visible: to
construct an object over another one, to assign to or destroy an object that is not there, or to give back storage in which there is
still an object, is a fault of the model. (In C++ the first and the last are not undefined but lose an object that is never destroyed.)
The order of destructor calls is not modelled.
-/

namespace Tm.Vec

open Tm

variable {α : Type}

/-- Storage for one element: empty, or with an object. An object that was moved from has no value that can be relied on: `none`. -/
inductive Slot (α : Type)
  | raw
  | obj (x : Option α)
deriving Repr

/-- There is no object. -/
def Slot.isRaw : Slot α → Bool
  | .raw => true
  | .obj _ => false

/-- A block of storage for `len` elements. -/
structure Mem (α : Type) where
  len : Nat
  cell : Nat → Slot α

/-- Storage without objects. -/
def Mem.fresh (len : Nat) : Mem α := ⟨len, fun _ => .raw⟩

def Mem.set (m : Mem α) (i : Nat) (s : Slot α) : Mem α := ⟨m.len, fun k => if k = i then s else m.cell k⟩

/-- The template arguments. `triv`: `T` is trivially copyable. `esz`: `sizeof(T)`. `n`: the size `N` of the small buffer. `fixed`: the
allocator is `no_allocator_tag`. -/
structure Cfg where
  triv : Bool
  esz : Nat
  n : Nat
  fixed : Bool
deriving DecidableEq, Repr

/-! ### Objects -/

/-- `TM_PLACEMENT_NEW(&p[i]) T(x)`, and `p[i] = x` or a copied byte range for trivial types. -/
def construct (c : Cfg) (m : Mem α) (i : Nat) (x : Option α) : C (Mem α) :=
  if i < m.len then
    if !c.triv && !(m.cell i).isRaw then .error .invalid else .ok (m.set i (.obj x))
  else .error .oob

/-- `p[i] = x`. -/
def assign (c : Cfg) (m : Mem α) (i : Nat) (x : Option α) : C (Mem α) :=
  if i < m.len then
    if !c.triv && (m.cell i).isRaw then .error .invalid else .ok (m.set i (.obj x))
  else .error .oob

/-- `p[i].~T()`. For trivial types the code does not call it. -/
def destroyAt (c : Cfg) (m : Mem α) (i : Nat) : C (Mem α) :=
  if c.triv then .ok m
  else if i < m.len then
    if (m.cell i).isRaw then .error .invalid else .ok (m.set i .raw)
  else .error .oob

/-- The value of `p[i]`. -/
def get (m : Mem α) (i : Nat) : C (Option α) :=
  if i < m.len then
    match m.cell i with
    | .raw => .error .invalid
    | .obj x => .ok x
  else .error .oob

/-- `std::move(p[i])` as the source of a construction or assignment. A trivial move is a copy. -/
def take (c : Cfg) (m : Mem α) (i : Nat) : C (Option α × Mem α) := do
  let x ← get m i
  .ok (x, if c.triv then m else m.set i (.obj none))

/-! ### Loops over objects -/

/-- `p[i].~T()` for the `n` elements from `i` on. -/
def destroyRange (c : Cfg) : Nat → Mem α → Nat → C (Mem α)
  | 0, m, _ => .ok m
  | n + 1, m, i => do
    let m ← destroyAt c m i
    destroyRange c n m (i + 1)

/-- `p[i] = *first` for the values of the range. -/
def assignList (c : Cfg) (m : Mem α) (i : Nat) : List (Option α) → C (Mem α)
  | [] => .ok m
  | x :: xs => do
    let m ← assign c m i x
    assignList c m (i + 1) xs

/-- `TM_PLACEMENT_NEW(&p[i]) T(*first)` for the values of the range. -/
def constructList (c : Cfg) (m : Mem α) (i : Nat) : List (Option α) → C (Mem α)
  | [] => .ok m
  | x :: xs => do
    let m ← construct c m i x
    constructList c m (i + 1) xs

/-- The values of the first elements, from `i` on. -/
def readAll (m : Mem α) : Nat → Nat → C (List (Option α))
  | 0, _ => .ok []
  | n + 1, i => do
    let x ← get m i
    let xs ← readAll m n (i + 1)
    .ok (x :: xs)

/-- The values of the elements, which are moved from. -/
def takeAll (c : Cfg) : Nat → Mem α → Nat → C (List (Option α) × Mem α)
  | 0, m, _ => .ok ([], m)
  | n + 1, m, i => do
    let (x, m) ← take c m i
    let (xs, m) ← takeAll c n m (i + 1)
    .ok (x :: xs, m)

/-- The objects from `i` on are move constructed in other storage, at the same index, and destroyed: lines 430-435. For a trivially
copyable type this is the `TM_MEMCPY` of line 421. -/
def relocate (c : Cfg) : Nat → Nat → Mem α → Mem α → C (Mem α × Mem α)
  | 0, _, new, old => .ok (new, old)
  | n + 1, i, new, old => do
    let (x, old) ← take c old i
    let new ← construct c new i x
    let old ← destroyAt c old i
    relocate c n (i + 1) new old

/-- Storage is given back, or left, as in lines 437-439 and 452-454: there must be no object in it. -/
def leave (c : Cfg) (m : Mem α) : C Unit :=
  if c.triv || (List.range m.len).all (fun i => (m.cell i).isRaw) then .ok () else .error .invalid

/-! ### The heap -/

/-- The heap: the blocks that are allocated, by number. Request number `k` is granted if `ok k`. -/
structure Heap where
  next : Nat
  live : List Nat
  ok : Nat → Bool

/-- `TM_MALLOC`. -/
def malloc (h : Heap) : Option Nat × Heap :=
  if h.ok h.next then (some h.next, { h with next := h.next + 1, live := h.next :: h.live })
  else (none, { h with next := h.next + 1 })

/-- `T* ptr`. -/
inductive Ptr
  | null
  | sbo
  | heap (id : Nat)
deriving DecidableEq, Repr

/-- `TM_FREE`. -/
def free (h : Heap) : Ptr → C Heap
  | .null => .ok h
  | .sbo => .error .invalid
  | .heap id => if h.live.contains id then .ok { h with live := h.live.erase id } else .error .invalid

/-- `TM_REALLOC`: the block is moved, or stays if there is no memory. -/
def realloc (h : Heap) : Ptr → C (Option Nat × Heap)
  | .heap id =>
    if h.live.contains id then
      .ok (if h.ok h.next then (some h.next, { h with next := h.next + 1, live := h.next :: h.live.erase id })
        else (none, { h with next := h.next + 1 }))
    else .error .invalid
  | _ => .error .invalid

/-- The number of elements of which a block of `sizeof(T) * cap` bytes has room. The product wraps around. -/
def room (c : Cfg) (cap : Nat) : Nat := (c.esz * cap) % 2 ^ 64 / c.esz

/-- `max_count`, line 152. -/
def maxCount : Nat := 2 ^ 63 - 1

/-- `small_vector_guts`, lines 146-169. `cap` and `sbo` are `capacity()` and `is_sbo()`; `mem` is the storage at `ptr`. -/
structure Vec (α : Type) where
  ptr : Ptr
  mem : Mem α
  sz : Nat
  cap : Nat
  sbo : Bool

/-- `small_vector_guts<T>{}`. -/
def Vec.none : Vec α := ⟨.null, .fresh 0, 0, 0, false⟩

/-- `make_guts_from_sbo_uninitialized(get_sbo(), N, 0)`, lines 587-599, which is the default constructor, line 1271. -/
def make (c : Cfg) : C (Vec α) := do
  assert (c.n ≤ maxCount)
  .ok ⟨if c.n = 0 then .null else .sbo, .fresh c.n, 0, c.n, decide (c.n > 0)⟩

/-- `create`, lines 369-378 and 518. -/
def create (c : Cfg) (h : Heap) (cap : Nat) : C (Heap × Vec α) :=
  if c.fixed then .ok (h, .none)
  else
    match malloc h with
    | (some id, h) => do
      assert (cap ≤ maxCount)
      .ok (h, ⟨.heap id, .fresh (room c cap), 0, cap, false⟩)
    | (none, h) => .ok (h, .none)

/-- `get_next_capacity`, lines 350-354. The sums are those of `size_t`. -/
def nextCapacity (old atLeast : Nat) : Nat :=
  let r := (old + old / 2 + 1) % 2 ^ 64
  let s := (old + atLeast) % 2 ^ 64
  if r < s then s else r

/-- The rest of `grow_by` when the block cannot be extended: lines 416-443. -/
def growMove (c : Cfg) (h : Heap) (v : Vec α) (cap : Nat) : C (Heap × Vec α × Bool) :=
  match malloc h with
  | (none, h) => .ok (h, v, false)
  | (some id, h) => do
    let (new, old) ← relocate c v.sz 0 (.fresh (room c cap)) v.mem
    leave c old
    let h ← if v.sbo then .ok h else free h v.ptr
    assert (cap ≤ maxCount)
    .ok (h, { v with ptr := .heap id, mem := new, cap := cap, sbo := false }, true)

/-- `grow_by`, lines 379-444 and 519-523. -/
def growBy (c : Cfg) (h : Heap) (v : Vec α) (amount : Nat) : C (Heap × Vec α × Bool) := do
  assert (amount ≤ maxCount - v.sz)
  if c.fixed then .ok (h, v, decide (v.sz + amount ≤ v.cap))
  else if v.ptr = .null then do
    assert (v.sz = 0)
    assert (v.cap = 0)
    let (h, v) ← create c h amount
    .ok (h, v, decide (v.ptr ≠ .null))
  else if v.sz + amount ≤ v.cap then .ok (h, v, true)
  else if c.triv && !v.sbo then do
    let (r, h) ← realloc h v.ptr
    match r with
    | some id => do
      assert (nextCapacity v.cap amount ≤ maxCount)
      .ok (h, { v with ptr := .heap id, mem := ⟨room c (nextCapacity v.cap amount), fun k => if k < v.mem.len then v.mem.cell k else .raw⟩,
                       cap := nextCapacity v.cap amount, sbo := false }, true)
    | none => growMove c h v (nextCapacity v.cap amount)
  else growMove c h v (nextCapacity v.cap amount)

/-- `destroy`, lines 445-458 and 524-532. It is also the destructor, line 750. -/
def destroy (c : Cfg) (h : Heap) (v : Vec α) : C (Heap × Vec α) := do
  let m ← destroyRange c v.sz v.mem 0
  if c.fixed || v.sbo then .ok (h, { v with mem := m, sz := 0 })
  else do
    leave c m
    let h ← free h v.ptr
    .ok (h, .none)

/-! ### Access -/

/-- `size()`. -/
def Vec.size (v : Vec α) : Nat := v.sz

/-- `operator[]` and `at`, lines 221-245. -/
def Vec.at (v : Vec α) (i : Nat) : C (Option α) := do
  assert (v.ptr ≠ .null)
  assert (0 < v.sz)
  assert (i < v.sz)
  get v.mem i

/-- The assertion in `owns`, lines 333, 337 and 345, and `clear`, line 276. -/
def valid (v : Vec α) : C Unit := assert (v.ptr ≠ .null || (v.sz = 0 && v.cap = 0))

/-! ### Changes without allocation -/

/-- `pop_back`, lines 264-270. -/
def popBack (c : Cfg) (v : Vec α) : C (Vec α) := do
  assert (v.ptr ≠ .null)
  assert (0 < v.sz)
  let m ← destroyAt c v.mem (v.sz - 1)
  .ok { v with mem := m, sz := v.sz - 1 }

/-- `clear`, lines 275-284. -/
def clear (c : Cfg) (v : Vec α) : C (Vec α) := do
  valid v
  let m ← destroyRange c v.sz v.mem 0
  .ok { v with mem := m, sz := 0 }

/-- The loop of lines 314-316: `*dest = std::move(*src)` for `n` elements. -/
def moveDown (c : Cfg) : Nat → Mem α → Nat → Nat → C (Mem α)
  | 0, m, _, _ => .ok m
  | n + 1, m, dest, src => do
    let (x, m) ← take c m src
    let m ← assign c m dest x
    moveDown c n m (dest + 1) (src + 1)

/-- `TM_MEMMOVE` of `n` elements within the storage. -/
def memmove (m : Mem α) (dest src n : Nat) : C (Mem α) :=
  if dest + n ≤ m.len && src + n ≤ m.len then
    .ok ⟨m.len, fun k => if dest ≤ k ∧ k < dest + n then m.cell (k - dest + src) else m.cell k⟩
  else .error .oob

/-- `erase(first, last)`, lines 292-329. -/
def erase (c : Cfg) (v : Vec α) (first last : Nat) : C (Vec α) := do
  valid v
  assert (first ≤ v.sz)
  assert (last ≤ v.sz)
  assert (first ≤ last)
  if first = last then .ok v
  else do
    let m ← if c.triv then (if last = v.sz then .ok v.mem else memmove v.mem first last (v.sz - last))
      else do
        let m ← if last = v.sz then .ok v.mem else moveDown c (v.sz - last) v.mem first last
        destroyRange c (last - first) m (v.sz - (last - first))
    .ok { v with mem := m, sz := v.sz - (last - first) }

/-! ### Insertion -/

/-- The loop of lines 962-966, with `tail` and `current` as they are before they are decremented, `current` one higher. -/
def roomConstruct (c : Cfg) : Nat → Mem α → Nat → Nat → C (Mem α)
  | 0, m, _, _ => .ok m
  | n + 1, m, tail, current => do
    let (x, m) ← take c m (tail - 1)
    let m ← construct c m (current - 1) x
    roomConstruct c n m (tail - 1) (current - 1)

/-- The loop of lines 971-975. -/
def roomAssign (c : Cfg) : Nat → Mem α → Nat → Nat → C (Mem α)
  | 0, m, _, _ => .ok m
  | n + 1, m, tail, current => do
    let (x, m) ← take c m (tail - 1)
    let m ← if tail = current then (if c.triv then assign c m (current - 1) x else assign c m (current - 1) none)
      else assign c m (current - 1) x
    roomAssign c n m (tail - 1) (current - 1)

/-- `make_room`, lines 945-987. The result is `room_result`, as indices. The self move assignment that happens for `n = 0` leaves an
object without a value that can be relied on. -/
def makeRoom (c : Cfg) (h : Heap) (v : Vec α) (pos n : Nat) : C (Heap × Vec α × Option (Nat × Nat)) := do
  assert (pos ≤ v.sz)
  let (h, v, grown) ← growBy c h v n
  if !grown then .ok (h, v, none)
  else do
    let suffix := v.sz - pos
    if c.triv then do
      let m ← if suffix ≠ 0 then memmove v.mem (pos + n) pos suffix else .ok v.mem
      .ok (h, { v with mem := m, sz := v.sz + n }, some (pos, pos + n))
    else if suffix ≠ 0 then do
      let m ← roomConstruct c (min n suffix) v.mem v.sz (v.sz + n)
      let m ← roomAssign c (suffix - n) m (v.sz - min n suffix) (v.sz + n - min n suffix)
      .ok (h, { v with mem := m, sz := v.sz + n }, some (pos, pos + min n suffix))
    else .ok (h, { v with sz := v.sz + n }, some (pos, pos))

/-- The values are put into the room: lines 997-1005, 1018-1026, 1041-1055 and 1079-1120. The first are assigned, the others constructed. -/
def putAll (c : Cfg) (m : Mem α) (fi fu : Nat) (xs : List (Option α)) : C (Mem α) := do
  let m ← assignList c m fi (xs.take (fu - fi))
  constructList c m fu (xs.drop (fu - fi))

/-- `insert_value_impl`, lines 989-1030, `insert_n_impl`, lines 1032-1059, and, without the assertions about the range,
`insert_it_impl`, lines 1061-1077. The result says whether a pointer was returned. -/
def insertAll (c : Cfg) (h : Heap) (v : Vec α) (pos : Nat) (xs : List (Option α)) : C (Heap × Vec α × Bool) := do
  let (h, v, r) ← makeRoom c h v pos xs.length
  match r with
  | none => .ok (h, v, false)
  | some (fi, fu) => do
    let m ← putAll c v.mem fi fu xs
    .ok (h, { v with mem := m }, true)

/-- The argument `value`: an object outside of the vector, or an element of it. -/
inductive Src (α : Type)
  | ext (x : Option α)
  | own (i : Nat)
deriving DecidableEq

/-- `T temp{value}` if the vector owns the value: lines 755-769, 781-786 and 832-837. -/
def temp (v : Vec α) : Src α → C (Option α)
  | .ext x => .ok x
  | .own i => v.at i

/-- `T temp{std::move(value)}`: lines 771-778 and 788-795. -/
def tempMove (c : Cfg) (v : Vec α) : Src α → C (Option α × Vec α)
  | .ext x => .ok (x, v)
  | .own i => do
    let _ ← v.at i
    let (x, m) ← take c v.mem i
    .ok (x, { v with mem := m })

/-- `insert(pos, n, value)`, lines 754-761. -/
def insertN (c : Cfg) (h : Heap) (v : Vec α) (pos n : Nat) (s : Src α) : C (Heap × Vec α × Bool) := do
  valid v
  let x ← temp v s
  insertAll c h v pos (List.replicate n x)

/-- `insert(pos, value)`, lines 763-770. -/
def insertOne (c : Cfg) (h : Heap) (v : Vec α) (pos : Nat) (s : Src α) : C (Heap × Vec α × Bool) := do
  valid v
  let x ← temp v s
  insertAll c h v pos [x]

/-- `insert(pos, std::move(value))`, lines 771-778. -/
def insertMove (c : Cfg) (h : Heap) (v : Vec α) (pos : Nat) (s : Src α) : C (Heap × Vec α × Bool) := do
  valid v
  let (x, v) ← tempMove c v s
  insertAll c h v pos [x]

/-- `push_back(value)`, lines 780-787. -/
def pushBack (c : Cfg) (h : Heap) (v : Vec α) (s : Src α) : C (Heap × Vec α × Bool) := insertOne c h v v.sz s

/-- `push_back(std::move(value))`, lines 788-795. -/
def pushBackMove (c : Cfg) (h : Heap) (v : Vec α) (s : Src α) : C (Heap × Vec α × Bool) := insertMove c h v v.sz s

/-- `emplace_back(args...)`, lines 872-886, and `emplace`, lines 848-870, where the argument is a reference to an element: it is read
after there is room. -/
def emplace (c : Cfg) (h : Heap) (v : Vec α) (pos : Nat) (s : Src α) : C (Heap × Vec α × Bool) := do
  let (h', v', r) ← makeRoom c h v pos 1
  match r with
  | none => .ok (h', v', false)
  | some (fi, fu) => do
    let x ← match s with
      | .ext x => .ok x
      | .own i => if v'.ptr = v.ptr then get v'.mem i else .error .invalid
    let m ← putAll c v'.mem fi fu [x]
    .ok (h', { v' with mem := m }, true)

/-- A range `[first, last)`: values outside of the vector, two null pointers, or elements of the vector. Pointers to values outside are
assumed not to point to the end of the storage of the vector. -/
inductive Range (α : Type)
  | ext (xs : List (Option α))
  | null
  | own (first last : Nat)
deriving DecidableEq

/-- `owns(first)`, lines 332-343. -/
def ownsRange (v : Vec α) : Range α → Bool
  | .ext _ => false
  | .null => v.ptr = .null
  | .own _ _ => true

/-- `insert(pos, first, last)`, lines 820-829 and 1061-1077. -/
def insertRange (c : Cfg) (h : Heap) (v : Vec α) (pos : Nat) (r : Range α) : C (Heap × Vec α × Bool) := do
  valid v
  assert (!ownsRange v r)
  match r with
  | .ext xs => do
    assert (pos ≤ v.sz)
    if xs.length = 0 then .ok (h, v, true) else insertAll c h v pos xs
  | _ => .ok (h, v, true)

/-- `resize(count, value)`, lines 797-808. `resize(count)` passes `T{}`. -/
def resize (c : Cfg) (h : Heap) (v : Vec α) (count : Nat) (s : Src α) : C (Heap × Vec α × Bool) :=
  if v.sz = count then .ok (h, v, true)
  else if v.sz > count then do
    let w ← erase c v count v.sz
    .ok (h, w, decide (w.sz ≠ v.sz))
  else do
    let (h, w, _) ← insertN c h v v.sz (count - v.sz) s
    .ok (h, w, decide (w.sz ≠ v.sz))

/-- `reserve`, lines 809-812. -/
def reserve (c : Cfg) (h : Heap) (v : Vec α) (count : Nat) : C (Heap × Vec α × Bool) :=
  if v.cap ≥ count then .ok (h, v, true) else growBy c h v (count - v.cap)

/-! ### Assignment -/

/-- The values are assigned to the objects that are there, more are constructed, and those left over are destroyed: lines 1134-1158,
1196-1253 and 704-727. -/
def overwrite (c : Cfg) (v : Vec α) (xs : List (Option α)) : C (Vec α) := do
  assert (v.ptr ≠ .null)
  let m ← assignList c v.mem 0 (xs.take v.sz)
  let m ← constructList c m (min v.sz xs.length) (xs.drop v.sz)
  let m ← destroyRange c (v.sz - xs.length) m xs.length
  .ok { v with mem := m, sz := xs.length }

/-- The same with elements of the vector as the range, lines 1236-1238: `ptr[i] = *first` with both in the same storage. -/
def copyDown (c : Cfg) : Nat → Mem α → Nat → Nat → C (Mem α)
  | 0, m, _, _ => .ok m
  | n + 1, m, dest, src => do
    let x ← get m src
    let m ← assign c m dest x
    copyDown c n m (dest + 1) (src + 1)

/-- `assign(n, value)`, lines 831-838 and 1122-1160. -/
def assignN (c : Cfg) (h : Heap) (v : Vec α) (n : Nat) (s : Src α) : C (Heap × Vec α × Bool) := do
  valid v
  let x ← temp v s
  if n > v.cap then do
    let (h, _) ← destroy c h v
    let (h, w) ← create c h n
    if w.ptr = .null then .ok (h, w, false)
    else do
      let w ← overwrite c w (List.replicate n x)
      .ok (h, w, true)
  else do
    let w ← overwrite c v (List.replicate n x)
    .ok (h, w, true)

/-- `assign(first, last)`, lines 839-846 and 1162-1194. -/
def assignRange (c : Cfg) (h : Heap) (v : Vec α) (r : Range α) : C (Heap × Vec α × Bool) :=
  match r with
  | .null => do
    let v ← clear c v
    .ok (h, v, true)
  | .own first last => do
    assert (first ≤ last && last ≤ v.sz)
    if first = last then do
      let v ← clear c v
      .ok (h, v, true)
    else do
      assert (v.ptr ≠ .null)
      let m ← if c.triv then memmove v.mem 0 first (last - first) else copyDown c (last - first) v.mem 0 first
      let m ← destroyRange c (v.sz - (last - first)) m (last - first)
      .ok (h, { v with mem := m, sz := last - first }, true)
  | .ext xs =>
    if xs.length = 0 then do
      let v ← clear c v
      .ok (h, v, true)
    else if xs.length > v.cap then do
      let (h, v) ← destroy c h v
      let (h, w) ← create c h xs.length
      if w.ptr = .null then .ok (h, v, false)
      else do
        let w ← overwrite c w xs
        let (h, _) ← destroy c h v
        .ok (h, w, true)
    else do
      let w ← overwrite c v xs
      .ok (h, w, true)

/-! ### Two vectors -/

/-- The small buffer is replaced if it does not have room: lines 1276-1279 and 1289-1292. -/
def storage (c : Cfg) (h : Heap) (v : Vec α) (size : Nat) : C (Heap × Vec α) :=
  if c.n < size then do
    let (h, w) ← create c h size
    .ok (h, if w.ptr = .null then v else w)
  else .ok (h, v)

/-- `small_vector(const base& other)`, lines 1272-1284 and 1311. -/
def copyMake (c : Cfg) (h : Heap) (other : Vec α) : C (Heap × Vec α) := do
  let v ← make c
  if other.sz = 0 then .ok (h, v)
  else do
    let (h, v) ← storage c h v other.sz
    if v.cap ≥ other.sz then do
      let xs ← readAll other.mem other.sz 0
      let m ← constructList c v.mem 0 xs
      .ok (h, { v with mem := m, sz := other.sz })
    else .ok (h, v)

/-- `small_vector(base&& other)`, lines 1285-1310 and 1312. The result are the new vector and `other`. -/
def moveMake (c : Cfg) (h : Heap) (other : Vec α) : C (Heap × Vec α × Vec α) := do
  let v ← make c
  let size := other.sz
  if other.sbo then do
    let (h, v) ← storage c h v other.sz
    if v.cap ≥ other.sz then do
      let (xs, mo) ← takeAll c other.sz other.mem 0
      let m ← constructList c v.mem 0 xs
      let other ← clear c { other with mem := mo }
      .ok (h, { v with mem := m, sz := size }, other)
    else do
      let other ← clear c other
      .ok (h, v, other)
  else if other.sz = 0 && other.cap < v.cap then .ok (h, v, other)
  else .ok (h, other, .none)

/-- `operator=(const base& other)` of another vector, lines 667-672, 1313-1318 and 1325. -/
def copyAssign (c : Cfg) (h : Heap) (v other : Vec α) : C (Heap × Vec α) := do
  let xs ← readAll other.mem other.sz 0
  let (h, v, _) ← assignRange c h v (.ext xs)
  .ok (h, v)

/-- `operator=(base&& other)` of another vector, lines 673-748, 1319-1324 and 1326. The result are the vector and `other`. -/
def moveAssign (c : Cfg) (h : Heap) (v other : Vec α) : C (Heap × Vec α × Vec α) :=
  if other.sbo then
    if other.sz = 0 then do
      let v ← clear c v
      let other ← clear c other
      .ok (h, v, other)
    else if other.sz > v.cap then do
      let (h, v) ← destroy c h v
      let (h, w) ← create c h other.sz
      if w.ptr = .null then do
        let other ← clear c other
        .ok (h, v, other)
      else do
        let (xs, mo) ← takeAll c other.sz other.mem 0
        let w ← overwrite c w xs
        let (h, _) ← destroy c h v
        let other ← clear c { other with mem := mo }
        .ok (h, w, other)
    else do
      let (xs, mo) ← takeAll c other.sz other.mem 0
      let w ← overwrite c v xs
      let other ← clear c { other with mem := mo }
      .ok (h, w, other)
  else do
    let (h, _) ← destroy c h v
    .ok (h, other, .none)

/-- `swap(ptr[i], other.ptr[i])` for the first `n` elements: lines 895-898. -/
def swapCells (c : Cfg) : Nat → Nat → Mem α → Mem α → C (Mem α × Mem α)
  | 0, _, a, b => .ok (a, b)
  | n + 1, i, a, b => do
    let x ← get a i
    let y ← get b i
    let a ← assign c a i y
    let b ← assign c b i x
    swapCells c n (i + 1) a b

/-- The elements that only one of the vectors has are moved to the other one: lines 899-920. -/
def swapTail (c : Cfg) (sz other : Nat) (a b : Mem α) : C (Mem α × Mem α) :=
  if other < sz then do
    let (b, a) ← relocate c (sz - other) (min sz other) b a
    .ok (a, b)
  else relocate c (other - sz) (min sz other) a b

/-- `set_sbo_capacity` or `set_capacity`, lines 158-166, as in lines 927-936. -/
def setCap (v : Vec α) (cap : Nat) : C (Vec α) := do
  assert (cap ≤ maxCount)
  .ok { v with cap := cap, sbo := v.sbo && decide (cap > 0) }

/-- `swap`, lines 888-938 and 1328-1331. The template arguments of both vectors differ only in `N`. -/
def swap (c d : Cfg) (h : Heap) (v w : Vec α) : C (Heap × Vec α × Vec α × Bool) :=
  if w.sbo || v.sbo then do
    let (h, v, r) ← reserve c h v w.sz
    if !r then .ok (h, v, w, false)
    else do
      let (h, w, r) ← reserve d h w v.sz
      if !r then .ok (h, v, w, false)
      else do
        let (a, b) ← swapCells c (min v.sz w.sz) 0 v.mem w.mem
        let (a, b) ← swapTail c v.sz w.sz a b
        let v' ← setCap { v with mem := a, sz := w.sz } w.cap
        let w' ← setCap { w with mem := b, sz := v.sz } v.cap
        .ok (h, v', w', true)
  else do
    let v' ← setCap { v with ptr := w.ptr, mem := w.mem, sz := w.sz } w.cap
    let w' ← setCap { w with ptr := v.ptr, mem := v.mem, sz := v.sz } v.cap
    .ok (h, v', w', true)

end Tm.Vec
