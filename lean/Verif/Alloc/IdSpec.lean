import Verif.Alloc.Ids
/-!
# Histories of the id allocators

What a client can do, and the states it can reach. `seen` and `dead` only record the history.
-/
namespace Tm.Alloc

/-- What a client of `FixedSizeIdAllocator` does. Live ids are named by their position in the list of live ids, newest first;
`memory` is what `realloc` would answer; `write` stores into the first word of the element. -/
inductive IdEvent where
  | create (memory : Option (Nat → U32))
  | destroy (i : Nat)
  | write (i : Nat) (v : U32)

/-- The allocator, the ids handed out and not destroyed, and all ids ever handed out. -/
structure IdClient where
  st : IdAlloc
  live : List U32
  seen : List U32
deriving DecidableEq, Repr

/-- A store through the pointer returned by `data_from_id`. -/
def IdAlloc.store (s : IdAlloc) (id v : U32) : C IdAlloc :=
  match s.dataFromId id with
  | none => .error .invalid
  | some off => do
    let k ← s.slotAt off.toNat
    let slots ← wr s.slots k v
    return { s with slots := slots }

/-- A client that received `id` from `create`. -/
def IdClient.took (c : IdClient) (id : U32) (st : IdAlloc) : IdClient :=
  if id = 0 then { c with st := st } else ⟨st, id :: c.live, id :: c.seen⟩

/-- One action; naming a live id that does not exist does nothing. -/
def IdClient.step (c : IdClient) : IdEvent → C IdClient
  | .create m => do
    let r ← c.st.create m
    return c.took r.1 r.2
  | .destroy i =>
    match c.live[i]? with
    | none => .ok c
    | some id => do
      let st ← c.st.destroy id
      return ⟨st, c.live.eraseIdx i, c.seen⟩
  | .write i v =>
    match c.live[i]? with
    | none => .ok c
    | some id => do
      let st ← c.st.store id v
      return { c with st := st }

def IdClient.run (c : IdClient) : List IdEvent → C IdClient
  | [] => .ok c
  | e :: es => do
    let c ← c.step e
    c.run es

/-- The states reachable from a newly constructed allocator. -/
def IdReachable (c : IdClient) : Prop :=
  ∃ (capacity elementSize : Int) (memory : Option (Nat → U32)) (st : IdAlloc) (evs : List IdEvent),
    IdAlloc.make capacity elementSize memory = .ok st ∧ (⟨st, [], []⟩ : IdClient).run evs = .ok c

/-- The storage has at most 2^31 bytes. -/
def IdClient.Small (c : IdClient) : Prop := c.st.slots.length * c.st.elem ≤ 2 ^ 31

/-- What a client of `FixedSizeGenerationalIdAllocator` does. -/
inductive GenEvent where
  | create (memory : Option (U64 × (Nat → U32)))
  | destroy (i : Nat)

/-- The allocator, the ids handed out and not destroyed, and the destroyed ids. -/
structure GenClient where
  st : GenAlloc
  live : List U32
  dead : List U32
deriving DecidableEq, Repr

def GenClient.took (c : GenClient) (id : U32) (st : GenAlloc) : GenClient :=
  if id = 0 then { c with st := st } else ⟨st, id :: c.live, c.dead⟩

/-- One action; naming a live id that does not exist does nothing. -/
def GenClient.step (c : GenClient) : GenEvent → C GenClient
  | .create m => do
    let r ← c.st.create m
    return c.took r.1 r.2
  | .destroy i =>
    match c.live[i]? with
    | none => .ok c
    | some id => do
      let st ← c.st.destroy id
      return ⟨st, c.live.eraseIdx i, id :: c.dead⟩

def GenClient.run (c : GenClient) : List GenEvent → C GenClient
  | [] => .ok c
  | e :: es => do
    let c ← c.step e
    c.run es

/-- The states reachable from a newly constructed allocator. -/
def GenReachable (c : GenClient) : Prop :=
  ∃ (capacity : Int) (elementSize elementAlignment : Nat) (memory : Option (U64 × (Nat → U32))) (st : GenAlloc)
    (evs : List GenEvent), GenAlloc.make capacity elementSize elementAlignment memory = .ok st ∧
    (⟨st, [], []⟩ : GenClient).run evs = .ok c

/-- The storage has at most 2^31 bytes and fewer slots than an id can name. -/
def GenClient.Small (c : GenClient) : Prop := c.st.slots.length * c.st.elem ≤ 2 ^ 31 ∧ c.st.slots.length < 2 ^ 23 - 1

end Tm.Alloc
