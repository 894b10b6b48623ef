import Verif.Hash.Model
/-!
# Model of `tm_hashmapx.h` with the memory of its keys and values

`Hash/Model.lean` identifies a key with its contents. Here keys are pointers to blocks of memory (`TMH_X_KEY_IS_STRING`, 418-427), the
arrays of the map are blocks too, and the macros that describe values are a parameter. A block is identified by the number of the call
of `malloc` that gave it, so that a block that was given back is never mistaken for another one. The two arrays of a map are one list of
pairs. A value that was never written is `none`.
-/
namespace Tm.Hash.Owned

/-- A pointer to the beginning of a block; `none` is the null pointer. -/
abbrev Ptr := Option Nat

/-- The memory: the bytes of the blocks that are in use, and the number of calls of `malloc`. -/
structure Heap where
  live : Nat → Option (List Byte)
  calls : Nat

/-- `TM_MALLOC` of `elements` elements, then writing `bytes` into the block. -/
def malloc (mem : Nat → Bool) (elements : Nat) (bytes : List Byte) (h : Heap) : Ptr × Heap :=
  if canAlloc mem h.calls elements then (some h.calls, ⟨fun x => if x = h.calls then some bytes else h.live x, h.calls + 1⟩)
  else (none, ⟨h.live, h.calls + 1⟩)

/-- `TM_FREE`; giving back a block twice is a fault. -/
def free (a : Nat) (h : Heap) : C Heap :=
  if (h.live a).isSome then .ok ⟨fun x => if x = a then none else h.live x, h.calls⟩ else .error .invalid

/-- Access to a block. -/
def load (h : Heap) (a : Nat) : C (List Byte) :=
  match h.live a with
  | none => .error .invalid
  | some s => .ok s

/-- `TM_STRLEN` -/
def strlen : List Byte → C Nat
  | [] => .error .oob
  | b :: bs => if b = 0 then .ok 0 else do
    let n ← strlen bs
    .ok (n + 1)

/-- `TM_STRCMP(lhs, rhs) == 0` -/
def strEq : List Byte → List Byte → C Bool
  | a :: as, b :: bs => if a ≠ b then .ok false else if a = 0 then .ok true else strEq as bs
  | _, _ => .error .oob

/-- tm_hashmapx.h:633-642 `tmh_string_copy`; `out` is what `*out` was before, `none` if it was never written -/
def stringCopy (mem : Nat → Bool) (out : Option Ptr) (src : Option (List Byte)) (h : Heap) : C (Bool × Option Ptr × Heap) :=
  match src with
  | none => .ok (true, out, h)
  | some s => do
    let n ← strlen s
    let r := malloc mem (n + 1) (s.take (n + 1)) h
    .ok (r.1.isSome, some r.1, r.2)

/-- tm_hashmapx.h:643-645 `tmh_string_equals`; that equal pointers are compared first makes no difference -/
def stringEquals (l r : Option (List Byte)) : C Bool :=
  match l, r with
  | none, none => .ok true
  | some a, some b => strEq a b
  | _, _ => .ok false

/-- tm_hashmapx.h:646-651 `tmh_string_destroy`; the argument is what `*str` is, `none` if it was never written -/
def stringDestroy (p : Option Ptr) (h : Heap) : C (Option Ptr × Heap) :=
  match p with
  | none => .error .invalid
  | some none => .ok (some none, h)
  | some (some a) => do
    let h ← free a h
    .ok (some none, h)

/-- tm_hashmapx.h:652-659 `tmh_string_destructive_move`: what `*dest` and `*src` become -/
def destructiveMove (dest src : Ptr) : C (Ptr × Ptr) := do
  assert dest.isNone
  .ok (src, none)

/-- tm_hashmapx.h:404-416 the macros that describe values: `TMH_X_VALUE_COPY` (into a variable that was never written),
what `TMH_X_VALUE_MOVE` leaves in its source (the target becomes what the source was), `TMH_X_VALUE_DESTROY`. -/
structure Values (V X : Type) where
  copy : (Nat → Bool) → X → Heap → C (Bool × Option V × Heap)
  left : Option V → Option V
  destroy : Option V → Heap → C (Option V × Heap)

/-- tm_hashmapx.h:404-408 `TMH_X_VALUE_IS_TRIVIAL` -/
def trivialValues (V : Type) : Values V V := ⟨fun _ x h => .ok (true, some x, h), id, fun v h => .ok (v, h)⟩

/-- tm_hashmapx.h:152-166 strings as values, with the macros the documentation gives as examples. `clears` says whether
`TMH_X_VALUE_MOVE` sets its source to null; the default one (410-412) does not. -/
def stringValues (clears : Bool) : Values Ptr (Option (List Byte)) :=
  ⟨fun mem x h => stringCopy mem none x h, fun v => if clears then some none else v, stringDestroy⟩

/-- tm_hashmapx.h:445-450 the map. `capacity` is the length of `slots`. -/
structure HMap (V : Type) where
  keysAt : Ptr
  valsAt : Ptr
  slots : List (Ptr × Option V)
  count : Nat

variable {V X : Type}

/-- The pointer is not null and its block is in use. -/
def alive (h : Heap) (p : Ptr) : Bool :=
  match p with
  | none => false
  | some a => (h.live a).isSome

/-- Access to `keys[i]` and `values[i]`. -/
def HMap.at (m : HMap V) (h : Heap) (i : Nat) : C (Ptr × Option V) :=
  if alive h m.keysAt && alive h m.valsAt then rd m.slots i else .error .invalid

/-- tm_hashmapx.h:677-698 `create`. If the second array cannot be had, the first one is given back and `keys` still points to it. -/
def create (mem : Nat → Bool) (h : Heap) : C (HMap V × Heap) :=
  match malloc mem 16 [] h with
  | (none, h) => .ok (⟨none, none, [], 0⟩, h)
  | (some a, h) =>
    match malloc mem 16 [] h with
    | (some b, h) => .ok (⟨some a, some b, List.replicate 16 (none, none), 0⟩, h)
    | (none, h) => do
      let h ← free a h
      .ok (⟨some a, none, [], 0⟩, h)

/-- tm_hashmapx.h:703-710 the loop of `destroy` -/
def destroySlots (vs : Values V X) : List (Ptr × Option V) → Heap → C Heap
  | [], h => .ok h
  | (none, _) :: t, h => destroySlots vs t h
  | (some a, v) :: t, h => do
    let k ← stringDestroy (some (some a)) h
    let w ← vs.destroy v k.2
    destroySlots vs t w.2

/-- tm_hashmapx.h:712-719 giving back an array -/
def freeArray (p : Ptr) (h : Heap) : C Heap :=
  match p with
  | none => .ok h
  | some a => free a h

/-- tm_hashmapx.h:702-711 destroying the entries -/
def destroyEntries (vs : Values V X) (m : HMap V) (h : Heap) : C Heap :=
  if m.keysAt.isSome && m.valsAt.isSome && decide (0 < m.count) then
    if alive h m.keysAt && alive h m.valsAt then destroySlots vs m.slots h else .error .invalid
  else .ok h

/-- tm_hashmapx.h:700-722 `destroy` -/
def destroy (vs : Values V X) (m : HMap V) (h : Heap) : C (HMap V × Heap) := do
  let h ← destroyEntries vs m h
  let h ← freeArray m.keysAt h
  let h ← freeArray m.valsAt h
  .ok (⟨none, none, [], 0⟩, h)

/-- tm_hashmapx.h:782-787, 852-857, 893-898 the assertions on the map -/
def HMap.check (m : HMap V) : C Unit := do
  assert (m.keysAt.isSome && m.valsAt.isSome)
  assert (decide (0 < m.slots.length))
  assert (isPow2 (BitVec.ofNat 64 m.slots.length))
  assert (decide (m.count ≤ m.slots.length))

/-- tm_hashmapx.h:801-803, 814, 866-867, 871 the `i`-th place to look for a key with the given hash -/
def place (capacity : Nat) (hash : U64) (i : Nat) : Nat :=
  let mask := BitVec.ofNat 64 (capacity - 1)
  (((hash &&& mask) + BitVec.ofNat 64 i) &&& mask).toNat

/-- `TMH_X_KEY_EQUALS` of a key of the map and a string, tm_hashmapx.h:420 -/
def keyEquals (h : Heap) (k : Ptr) (s : List Byte) : C Bool :=
  match k with
  | none => stringEquals none (some s)
  | some a => do
    let t ← load h a
    stringEquals (some t) (some s)

/-- tm_hashmapx.h:813-832 the search for a place to store a key -/
def HMap.probe (m : HMap V) (h : Heap) (hash : U64) (s : List Byte) : Nat → Nat → Option Nat → C (Option (Nat × Bool))
  | 0, _, found => .ok (found.map fun p => (p, false))
  | left + 1, i, found => do
    let e ← m.at h (place m.slots.length hash i)
    if found.isNone ∧ e.1 = none then m.probe h hash s left (i + 1) (some (place m.slots.length hash i))
    else do
      let eq ← keyEquals h e.1 s
      if eq then .ok (some (place m.slots.length hash i, true)) else m.probe h hash s left (i + 1) found

/-- What `insert_move` leaves behind: what it returns, the map, what `*key` and `*value` are, the memory. -/
structure Moved (V : Type) where
  ok : Bool
  map : HMap V
  key : Ptr
  value : Option V
  heap : Heap

/-- tm_hashmapx.h:838-840 the value that was there before -/
def destroyOld (vs : Values V X) (existing : Bool) (v : Option V) (h : Heap) : C (Option V × Heap) :=
  if existing then vs.destroy v h else .ok (v, h)

/-- tm_hashmapx.h:834-844 storing the entry -/
def HMap.store (vs : Values V X) (m : HMap V) (h : Heap) (p : Nat) (existing : Bool) (key : Ptr) (value : Option V) : C (Moved V) := do
  let e ← m.at h p
  let d ← stringDestroy (some e.1) h
  let k ← destructiveMove d.1.join key
  let w ← destroyOld vs existing e.2 d.2
  let slots ← wr m.slots p (k.1, value)
  .ok ⟨true, { m with slots := slots, count := if existing then m.count else m.count + 1 }, k.2, vs.left value, w.2⟩

/-- An `insert_move`. -/
abbrev Ins' (V : Type) := Heap → HMap V → Ptr → Option V → C (Moved V)

/-- What `rehash` leaves behind: what it returns, both maps, the memory. -/
structure Rehashed' (V : Type) where
  ok : Bool
  old : HMap V
  new : HMap V
  heap : Heap

/-- tm_hashmapx.h:724-733 `rehash`: `left` slots remain, starting with `i` -/
def rehash (vs : Values V X) (ins : Ins' V) : Nat → Nat → HMap V → HMap V → Heap → C (Rehashed' V)
  | 0, _, old, new, h => .ok ⟨true, old, new, h⟩
  | left + 1, i, old, new, h => do
    let e ← old.at h i
    match e.1 with
    | none => rehash vs ins left (i + 1) old new h
    | some a => do
      let r ← ins h new (some a) e.2
      if r.ok then do
        let w ← vs.destroy r.value r.heap
        let slots ← wr old.slots i (none, w.1)
        rehash vs ins left (i + 1) { old with slots := slots } r.map w.2
      else do
        let slots ← wr old.slots i (r.key, r.value)
        .ok ⟨false, { old with slots := slots }, r.map, r.heap⟩

/-- The result of `grow`. -/
structure Grown (V : Type) where
  ok : Bool
  map : HMap V
  heap : Heap

/-- tm_hashmapx.h:735-757 `grow` -/
def grow (vs : Values V X) (mem : Nat → Bool) (ins : Ins' V) (m : HMap V) (h : Heap) : C (Grown V) := do
  let k := malloc mem (m.slots.length * 2) [] h
  let v := malloc mem (m.slots.length * 2) [] k.2
  if k.1.isNone || v.1.isNone then do
    let d ← destroy vs ⟨k.1, v.1, [], 0⟩ v.2
    .ok ⟨false, m, d.2⟩
  else do
    let r ← rehash vs ins m.slots.length 0 m ⟨k.1, v.1, List.replicate (m.slots.length * 2) (none, none), 0⟩ v.2
    if !r.ok then do
      let d ← destroy vs r.new r.heap
      .ok ⟨false, r.old, d.2⟩
    else do
      let d ← destroy vs r.old r.heap
      .ok ⟨true, r.new, d.2⟩

/-- tm_hashmapx.h:800-847 the loop of `insert_move` -/
def insertLoop (vs : Values V X) (mem : Nat → Bool) (ins : Ins' V) : Nat → Heap → HMap V → Nat → Option V → C (Moved V)
  | 0, _, _, _, _ => .error .diverge
  | fuel + 1, h, m, key, value => do
    let s ← load h key
    let hash ← stringHash (some s)
    let r ← m.probe h hash s maxProbe 0 none
    match r with
    | some (p, existing) => m.store vs h p existing (some key) value
    | none => do
      let g ← grow vs mem ins m h
      if !g.ok then .ok ⟨false, g.map, some key, value, g.heap⟩ else insertLoop vs mem ins fuel g.heap g.map key value

/-- tm_hashmapx.h:792-798 growing a map that gets too full -/
def growIfFull (vs : Values V X) (mem : Nat → Bool) (ins : Ins' V) (m : HMap V) (h : Heap) : C (Grown V) :=
  if m.slots.length / 2 + m.slots.length / 2 / 2 ≤ m.count + 1 then grow vs mem ins m h else .ok ⟨true, m, h⟩

/-- tm_hashmapx.h:781-848 `insert_move`; the first argument bounds the depth of the recursion through `rehash` and the number of
iterations of the loop -/
def insertMove (vs : Values V X) (mem : Nat → Bool) : Nat → Ins' V
  | 0, _, _, _, _ => .error .diverge
  | fuel + 1, h, m, key, value => do
    m.check
    match key with
    | none => .ok ⟨false, m, none, value, h⟩
    | some a => do
      let g ← growIfFull vs mem (insertMove vs mem fuel) m h
      if !g.ok then .ok ⟨false, g.map, some a, value, g.heap⟩
      else insertLoop vs mem (insertMove vs mem fuel) (fuel + 1) g.heap g.map a value

/-- tm_hashmapx.h:759-779 `insert` of a string the caller owns; `none` is a null pointer -/
def insert (vs : Values V X) (mem : Nat → Bool) (fuel : Nat) (h : Heap) (m : HMap V) (key : Option (List Byte)) (value : X) : C (Grown V) :=
  match key with
  | none => .ok ⟨false, m, h⟩
  | some s => do
    let k ← stringCopy mem none (some s) h
    if !k.1 then .ok ⟨false, m, k.2.2⟩
    else match k.2.1 with
    | none => .error .invalid
    | some kp => do
      let v ← vs.copy mem value k.2.2
      if !v.1 then do
        let d ← stringDestroy (some kp) v.2.2
        .ok ⟨false, m, d.2⟩
      else do
        let r ← insertMove vs mem fuel v.2.2 m kp v.2.1
        if !r.ok then do
          let d ← stringDestroy (some r.key) r.heap
          let w ← vs.destroy r.value d.2
          .ok ⟨false, r.map, w.2⟩
        else .ok ⟨true, r.map, r.heap⟩

/-- tm_hashmapx.h:870-879 the loop of `find_index` -/
def HMap.findLoop (m : HMap V) (h : Heap) (hash : U64) (s : List Byte) : Nat → Nat → C (Option Nat)
  | 0, _ => .ok none
  | left + 1, i => do
    let e ← m.at h (place m.slots.length hash i)
    let eq ← keyEquals h e.1 s
    if eq then .ok (some (place m.slots.length hash i)) else m.findLoop h hash s left (i + 1)

/-- tm_hashmapx.h:850-881 `find_index` of a string the caller owns -/
def HMap.findIndex (m : HMap V) (h : Heap) (key : Option (List Byte)) : C (Option Nat) := do
  m.check
  if m.count = 0 then .ok none
  else do
    let hash ← stringHash key
    match key with
    | none => .error .assertion
    | some s => m.findLoop h hash s maxProbe 0

/-- tm_hashmapx.h:883-889 `find`: the value found -/
def HMap.find (m : HMap V) (h : Heap) (key : Option (List Byte)) : C (Option (Option V)) := do
  let r ← m.findIndex h key
  match r with
  | none => .ok none
  | some p => do
    let e ← m.at h p
    .ok (some e.2)

/-- tm_hashmapx.h:891-908 `get`: the key and value at an index -/
def HMap.get (m : HMap V) (h : Heap) (index : Nat) : C (Option (Nat × Option V)) := do
  m.check
  if index < m.slots.length then do
    let e ← m.at h index
    .ok (e.1.map fun a => (a, e.2))
  else .ok none

/-- tm_hashmapx.h:915-919, 929-933 emptying a slot -/
def HMap.clearSlot (vs : Values V X) (m : HMap V) (h : Heap) (p : Nat) : C (HMap V × Heap) := do
  let e ← m.at h p
  let d ← stringDestroy (some e.1) h
  let w ← vs.destroy e.2 d.2
  let slots ← wr m.slots p (none, w.1)
  .ok ({ m with slots := slots, count := if m.count = 0 then 2 ^ 64 - 1 else m.count - 1 }, w.2)

/-- tm_hashmapx.h:910-921 `remove` of a string the caller owns -/
def HMap.remove (vs : Values V X) (m : HMap V) (h : Heap) (key : Option (List Byte)) : C (Grown V) := do
  let r ← m.findIndex h key
  match r with
  | none => .ok ⟨false, m, h⟩
  | some p => do
    let c ← m.clearSlot vs h p
    .ok ⟨true, c.1, c.2⟩

/-- tm_hashmapx.h:923-937 `remove_index` -/
def HMap.removeIndex (vs : Values V X) (m : HMap V) (h : Heap) (index : Nat) : C (Grown V) := do
  assert (decide (0 < m.count))
  if index < m.slots.length then do
    let e ← m.at h index
    match e.1 with
    | none => .ok ⟨false, m, h⟩
    | some _ => do
      let c ← m.clearSlot vs h index
      .ok ⟨true, c.1, c.2⟩
  else .ok ⟨false, m, h⟩

end Tm.Hash.Owned
