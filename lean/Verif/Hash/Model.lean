import Verif.Basic
/-!
# Model of `tm_hashmapx.h`

The macros that describe keys are the fields of `Keys`. Keys are identified up to `TMH_X_KEY_EQUALS` (a string key stands for its
contents), which makes key equality the equality of `K`; the tombstone is one particular key. Copying, moving and destroying keys
and values only manage memory and are not modelled: a copy is the same value, and the copies in `insert` (759-779) always succeed.
A value cell that was never written is `none`.

Allocation is decided by an oracle: `mem n` says whether the `n`-th call of `malloc` succeeds. Whatever it says, an array of 2^63 or
more elements cannot be obtained, since no object has that many bytes. `tm_size_t` is the default `size_t`.
-/
namespace Tm.Hash

/-- `uint64_t` -/
abbrev U64 := BitVec 64

/-! ## FNV-1a -/

/-- tm_hashmapx.h:607 the multiplication by the prime, written with shifts -/
def fnvMul (h : U64) : U64 := h + ((h <<< 1) + (h <<< 4) + (h <<< 5) + (h <<< 7) + (h <<< 8) + (h <<< 40))

/-- tm_hashmapx.h:601-609 the loop of `tmh_hash_combine` over the bytes -/
def fnvLoop : List Byte → U64 → U64
  | [], h => h
  | b :: bs, h => fnvLoop bs (fnvMul (h ^^^ b.zeroExtend 64))

/-- tm_hashmapx.h:593-612 `tmh_hash_combine`; the data are the first `size` bytes of `data` -/
def hashCombine (data : List Byte) (size : Nat) (prev : U64) : C U64 :=
  if size = 0 then .ok prev
  else if size ≤ data.length then .ok (fnvLoop (data.take size) prev)
  else .error .oob

/-- tm_hashmapx.h:590-592 `tmh_hash` -/
def hashBytes (data : List Byte) (size : Nat) : C U64 := hashCombine data size 0xCBF29CE484222325

/-- tm_hashmapx.h:619-627 the loop of `tmh_string_hash_combine`, up to the terminator -/
def strLoop : List Byte → U64 → C U64
  | [], _ => .error .oob
  | b :: bs, h => if b = 0 then .ok h else strLoop bs (fnvMul (h ^^^ b.zeroExtend 64))

/-- tm_hashmapx.h:615-630 `tmh_string_hash_combine`; `none` is a null pointer -/
def stringHashCombine (str : Option (List Byte)) (prev : U64) : C U64 :=
  match str with
  | none => .error .assertion
  | some s => strLoop s prev

/-- tm_hashmapx.h:614 `tmh_string_hash` -/
def stringHash (str : Option (List Byte)) : C U64 := stringHashCombine str 0xCBF29CE484222325

/-! ## The map -/

/-- tm_hashmapx.h:83-93 (documentation of the key macros) the tombstone and the hash function -/
structure Keys (K : Type) where
  tomb : K
  hash : K → U64

variable {K V : Type} [DecidableEq K]

/-- tm_hashmapx.h:445-450 the map structure. `keys.length` is `capacity`; `hasData` says that both arrays exist. -/
structure Map (K V : Type) where
  hasData : Bool
  keys : List K
  vals : List (Option V)
  count : Nat
deriving DecidableEq, Repr

/-- tm_hashmapx.h:631 `tmh_is_power_of_two` -/
def isPow2 (x : U64) : Bool := (x &&& (x - 1)) == 0

/-- tm_hashmapx.h:279 `TMH_MAX_LINEAR_PROBE` -/
def maxProbe : Nat := 16

/-- A call of `malloc` for `elements` elements. -/
def canAlloc (mem : Nat → Bool) (n elements : Nat) : Bool := mem n && decide (elements < 2 ^ 63)

/-- tm_hashmapx.h:693-696, 746-749 an array of tombstones next to an unwritten array -/
def Map.blank (ks : Keys K) (capacity : Nat) : Map K V :=
  ⟨true, List.replicate capacity ks.tomb, List.replicate capacity none, 0⟩

/-- tm_hashmapx.h:677-698 `create`. Returns the number of calls of `malloc` so far too. When the second allocation fails `keys` is left
dangling; no function accepts such a map, so it is not distinguished from one without arrays. -/
def Map.create (ks : Keys K) (mem : Nat → Bool) (n : Nat) : Map K V × Nat :=
  if canAlloc mem n 16 then
    if canAlloc mem (n + 1) 16 then (Map.blank ks 16, n + 2) else (⟨false, [], [], 0⟩, n + 2)
  else (⟨false, [], [], 0⟩, n + 1)

/-- tm_hashmapx.h:782-787, 852-857, 893-898 the assertions on the map -/
def Map.check (m : Map K V) : C Unit := do
  assert m.hasData
  assert (decide (0 < m.keys.length))
  assert (isPow2 (BitVec.ofNat 64 m.keys.length))
  assert (decide (m.count ≤ m.keys.length))

/-- tm_hashmapx.h:801-803, 814, 866-867, 871 the `i`-th place to look for a key -/
def Map.probeIndex (m : Map K V) (ks : Keys K) (key : K) (i : Nat) : Nat :=
  let mask := BitVec.ofNat 64 (m.keys.length - 1)
  (((ks.hash key &&& mask) + BitVec.ofNat 64 i) &&& mask).toNat

/-- tm_hashmapx.h:813-832 the search for a place to store a key: `left` places remain, starting with the `i`-th; `found` is the
tombstone found so far. Returns the place and whether the key is already there. -/
def Map.probe (m : Map K V) (ks : Keys K) (key : K) : Nat → Nat → Option Nat → C (Option (Nat × Bool))
  | 0, _, found => .ok (found.map fun p => (p, false))
  | left + 1, i, found => do
    let k ← rd m.keys (m.probeIndex ks key i)
    if found.isNone ∧ k = ks.tomb then m.probe ks key left (i + 1) (some (m.probeIndex ks key i))
    else if k = key then return some (m.probeIndex ks key i, true)
    else m.probe ks key left (i + 1) found

/-- tm_hashmapx.h:834-843 storing the entry -/
def Map.put (m : Map K V) (p : Nat) (existing : Bool) (key : K) (value : V) : C (Map K V) := do
  let keys ← wr m.keys p key
  let vals ← wr m.vals p (some value)
  return ⟨m.hasData, keys, vals, if existing then m.count else m.count + 1⟩

/-- The result of an operation that may allocate: what it returns, the map, and the number of calls of `malloc` so far. -/
structure Res (K V : Type) where
  ok : Bool
  map : Map K V
  calls : Nat
deriving DecidableEq, Repr

/-- An `insert_move` to be used by `rehash`. -/
abbrev Ins (K V : Type) := Map K V → Nat → K → V → C (Res K V)

/-- What `rehash` leaves behind: what it returns, both maps, the number of calls of `malloc`. -/
structure Rehashed (K V : Type) where
  ok : Bool
  old : Map K V
  new : Map K V
  calls : Nat

/-- tm_hashmapx.h:728-730 what follows the insertion of one entry into the new map -/
def rehashNext (ks : Keys K) (old : Map K V) (i : Nat) (r : Res K V) (continue' : Map K V → Map K V → Nat → C (Rehashed K V)) :
    C (Rehashed K V) :=
  if r.ok then do
    let keys ← wr old.keys i ks.tomb
    continue' { old with keys := keys } r.map r.calls
  else .ok ⟨false, old, r.map, r.calls⟩

/-- tm_hashmapx.h:724-733 `rehash`: `left` slots remain, starting with `i` -/
def rehash (ks : Keys K) (ins : Ins K V) : Nat → Nat → Map K V → Map K V → Nat → C (Rehashed K V)
  | 0, _, old, new, n => .ok ⟨true, old, new, n⟩
  | left + 1, i, old, new, n => do
    let k ← rd old.keys i
    if k = ks.tomb then rehash ks ins left (i + 1) old new n
    else do
      let v ← rd old.vals i
      match v with
      | none => .error .invalid
      | some v => do
        let r ← ins new n k v
        rehashNext ks old i r (rehash ks ins left (i + 1))

/-- tm_hashmapx.h:735-757 `grow` -/
def grow (ks : Keys K) (mem : Nat → Bool) (ins : Ins K V) (m : Map K V) (n : Nat) : C (Res K V) :=
  let capacity := m.keys.length * 2
  if !canAlloc mem n capacity || !canAlloc mem (n + 1) capacity then .ok ⟨false, m, n + 2⟩
  else do
    let r ← rehash ks ins m.keys.length 0 m (Map.blank ks capacity) (n + 2)
    if !r.ok then return ⟨false, r.old, r.calls⟩
    else return ⟨true, r.new, r.calls⟩

/-- tm_hashmapx.h:800-847 the loop of `insert_move` -/
def insertLoop (ks : Keys K) (mem : Nat → Bool) (ins : Ins K V) : Nat → Ins K V
  | 0, _, _, _, _ => .error .diverge
  | fuel + 1, m, n, key, value => do
    let r ← m.probe ks key maxProbe 0 none
    match r with
    | some (p, existing) => do
      let m ← m.put p existing key value
      return ⟨true, m, n⟩
    | none => do
      let g ← grow ks mem ins m n
      if !g.ok then return ⟨false, g.map, g.calls⟩
      else insertLoop ks mem ins fuel g.map g.calls key value

/-- tm_hashmapx.h:792-798 growing a map that gets too full -/
def growIfFull (ks : Keys K) (mem : Nat → Bool) (ins : Ins K V) (m : Map K V) (n : Nat) : C (Res K V) :=
  if m.keys.length / 2 + m.keys.length / 2 / 2 ≤ m.count + 1 then grow ks mem ins m n else .ok ⟨true, m, n⟩

/-- tm_hashmapx.h:781-848 `insert_move`; the first argument bounds the depth of the recursion through `rehash` and the number of
iterations of the loop -/
def insertMove (ks : Keys K) (mem : Nat → Bool) : Nat → Ins K V
  | 0, _, _, _, _ => .error .diverge
  | fuel + 1, m, n, key, value => do
    m.check
    if key = ks.tomb then return ⟨false, m, n⟩
    else do
      let g ← growIfFull ks mem (insertMove ks mem fuel) m n
      if !g.ok then return ⟨false, g.map, g.calls⟩
      else insertLoop ks mem (insertMove ks mem fuel) (fuel + 1) g.map g.calls key value

/-- tm_hashmapx.h:759-779 `insert` -/
def insert (ks : Keys K) (mem : Nat → Bool) (fuel : Nat) : Ins K V := fun m n key value =>
  if key = ks.tomb then .ok ⟨false, m, n⟩ else insertMove ks mem fuel m n key value

/-- tm_hashmapx.h:870-879 the loop of `find_index` -/
def Map.findLoop (m : Map K V) (ks : Keys K) (key : K) : Nat → Nat → C (Option Nat)
  | 0, _ => .ok none
  | left + 1, i => do
    let k ← rd m.keys (m.probeIndex ks key i)
    if k = key then return some (m.probeIndex ks key i) else m.findLoop ks key left (i + 1)

/-- tm_hashmapx.h:850-881 `find_index` -/
def Map.findIndex (m : Map K V) (ks : Keys K) (key : K) : C (Option Nat) := do
  m.check
  if m.count = 0 then return none
  else m.findLoop ks key maxProbe 0

/-- tm_hashmapx.h:883-889 `find`, together with reading the value -/
def Map.find (m : Map K V) (ks : Keys K) (key : K) : C (Option (Option V)) := do
  let r ← m.findIndex ks key
  match r with
  | none => return none
  | some p => do
    let v ← rd m.vals p
    return some v

/-- tm_hashmapx.h:891-908 `get`: the key and value at an index -/
def Map.get (m : Map K V) (ks : Keys K) (index : Nat) : C (Option (K × Option V)) := do
  m.check
  if index < m.keys.length then do
    let k ← rd m.keys index
    if k = ks.tomb then return none
    else do
      let v ← rd m.vals index
      return some (k, v)
  else return none

/-- tm_hashmapx.h:915-919, 929-933 emptying a slot; the count is unsigned and wraps around -/
def Map.clearSlot (m : Map K V) (ks : Keys K) (p : Nat) : C (Map K V) := do
  let keys ← wr m.keys p ks.tomb
  let vals ← wr m.vals p none
  return ⟨m.hasData, keys, vals, if m.count = 0 then 2 ^ 64 - 1 else m.count - 1⟩

/-- tm_hashmapx.h:910-921 `remove` -/
def Map.remove (m : Map K V) (ks : Keys K) (key : K) : C (Bool × Map K V) := do
  let r ← m.findIndex ks key
  match r with
  | none => return (false, m)
  | some p => do
    let m ← m.clearSlot ks p
    return (true, m)

/-- tm_hashmapx.h:923-937 `remove_index` -/
def Map.removeIndex (m : Map K V) (ks : Keys K) (index : Nat) : C (Bool × Map K V) := do
  assert (decide (0 < m.count))
  if index < m.keys.length then do
    let k ← rd m.keys index
    if k = ks.tomb then return (false, m)
    else do
      let m ← m.clearSlot ks index
      return (true, m)
  else return (false, m)

/-- tm_hashmapx.h:939-946 `count` and `capacity` -/
def Map.capacity (m : Map K V) : Nat := m.keys.length

end Tm.Hash
