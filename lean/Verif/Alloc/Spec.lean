import Verif.Alloc.Stack
/-!
# Specification vocabulary for the stack allocator

Blocks as intervals of addresses (plain natural numbers), and the client of an allocator: it keeps the list of blocks it
has been given and has not given back, newest first.
-/
namespace Tm.Alloc

/-- `a` is a power of two. -/
def Pow2 (a : Nat) : Prop := ∃ k, a = 2 ^ k

/-- A block a client holds, with the alignment it asked for. -/
structure Live where
  ptr : U64
  size : U64
  align : U64
deriving DecidableEq, Repr

/-- The first address after the block. -/
def Live.stop (b : Live) : Nat := b.ptr.toNat + b.size.toNat

/-- The block lies in the buffer of `cap` bytes at address `p`. -/
def Inside (p cap : U64) (b : Live) : Prop := p.toNat ≤ b.ptr.toNat ∧ b.stop ≤ p.toNat + cap.toNat

/-- The block is aligned as requested. -/
def IsAligned (b : Live) : Prop := b.align.toNat ∣ b.ptr.toNat

/-- No address belongs to both blocks. -/
def Disjoint (a b : Live) : Prop := ∀ x : Nat, ¬ ((a.ptr.toNat ≤ x ∧ x < a.stop) ∧ (b.ptr.toNat ≤ x ∧ x < b.stop))

/-- The bytes of a block, read from the contents `mem` of the buffer at address `p`. -/
def bytesOf (p : U64) (mem : List Byte) (b : Live) : List Byte :=
  (mem.drop (b.ptr.toNat - p.toNat)).take b.size.toNat

/-- What a client does; blocks are named by their position in the list of live blocks, newest first. -/
inductive Event where
  /-- ask for a block -/
  | alloc (size align : U64)
  /-- give the `i`-th block back -/
  | free (i : Nat)
  /-- change the size of the `i`-th block -/
  | realloc (i : Nat) (newSize : U64)
deriving DecidableEq, Repr

/-- An allocator with its buffer and its client. -/
structure Client where
  st : Stack
  mem : List Byte
  live : List Live
deriving DecidableEq, Repr

/-- The client's view after asking for a block. -/
def Client.took (c : Client) (r : Block) (st : Stack) (align : U64) : Client :=
  if r.ok then { c with st := st, live := ⟨r.ptr, r.size, align⟩ :: c.live } else { c with st := st }

/-- The client's view after resizing its `i`-th block `b` with outcome `r`: nothing changes on failure; a block of size 0
is not held any more; a block that moved is the newest one. -/
def Client.resized (c : Client) (i : Nat) (b : Live) (r : Block) (st : Stack) (mem : List Byte) : Client :=
  if !r.ok then { c with st := st, mem := mem }
  else if r.ptr = b.ptr then
    if r.size = 0 then { st := st, mem := mem, live := c.live.eraseIdx i }
    else { st := st, mem := mem, live := c.live.set i { b with size := r.size } }
  else { st := st, mem := mem, live := ⟨r.ptr, r.size, b.align⟩ :: c.live.eraseIdx i }

/-- One client action. Naming a block that does not exist does nothing. -/
def Client.step (c : Client) : Event → C Client
  | .alloc size align => do
    let (r, st) ← c.st.allocate size align
    return c.took r st align
  | .free i =>
    match c.live[i]? with
    | none => .ok c
    | some b => do
      let st ← c.st.free b.ptr b.size b.align
      return { c with st := st, live := c.live.eraseIdx i }
  | .realloc i newSize =>
    match c.live[i]? with
    | none => .ok c
    | some b => do
      let (r, st, mem) ← c.st.reallocate c.mem b.ptr b.size newSize b.align
      return c.resized i b r st mem

/-- A whole history. -/
def Client.run (c : Client) : List Event → C Client
  | [] => .ok c
  | e :: es => do
    let c' ← c.step e
    c'.run es

/-- A client of a fresh allocator over a buffer with contents `mem` at address `p`. -/
def Client.fresh (p cap : U64) (mem : List Byte) : Client := ⟨⟨p, 0, cap, 0⟩, mem, []⟩

/-- A real buffer: not at address 0, not empty, not reaching the end of the address space, of less than 2^62 bytes. -/
def Buffer (p cap : U64) (mem : List Byte) : Prop :=
  p ≠ 0 ∧ cap ≠ 0 ∧ cap.toNat < 2 ^ 62 ∧ p.toNat + cap.toNat < 2 ^ 64 ∧ mem.length = cap.toNat

/-- Sizes and alignments so large that adding them to the fill level overflows `size_t` are excluded. -/
def Event.Fits : Event → Prop
  | .alloc size align => size.toNat < 2 ^ 62 ∧ align.toNat ≤ 2 ^ 62
  | .realloc _ newSize => newSize.toNat < 2 ^ 62
  | .free _ => True

/-- Only the newest block is given back or resized. -/
def Event.Lifo : Event → Prop
  | .alloc _ _ => True
  | .free i => i = 0
  | .realloc i _ => i = 0

/-- Blocks are requested with alignment `a` only. -/
def Event.Uniform (a : U64) : Event → Prop
  | .alloc _ align => align = a
  | _ => True

instance : DecidablePred Event.Fits
  | .alloc size align => inferInstanceAs (Decidable (size.toNat < 2 ^ 62 ∧ align.toNat ≤ 2 ^ 62))
  | .realloc _ newSize => inferInstanceAs (Decidable (newSize.toNat < 2 ^ 62))
  | .free _ => inferInstanceAs (Decidable True)

instance : DecidablePred Event.Lifo
  | .alloc _ _ => inferInstanceAs (Decidable True)
  | .realloc i _ => inferInstanceAs (Decidable (i = 0))
  | .free i => inferInstanceAs (Decidable (i = 0))

instance (a : U64) : DecidablePred (Event.Uniform a)
  | .alloc _ align => inferInstanceAs (Decidable (align = a))
  | .realloc _ _ => inferInstanceAs (Decidable True)
  | .free _ => inferInstanceAs (Decidable True)

/-- What a client has after a history of actions satisfying `P`, with sizes below 2^62; it may have written anything into the
buffer meanwhile. -/
def ReachableBy (P : Event → Prop) (p cap : U64) (c : Client) : Prop :=
  ∃ mem evs c₀, Buffer p cap mem ∧ (∀ e ∈ evs, e.Fits) ∧ (∀ e ∈ evs, P e) ∧
    (Client.fresh p cap mem).run evs = .ok c₀ ∧ c.st = c₀.st ∧ c.live = c₀.live ∧ c.mem.length = c₀.mem.length

/-- A client that either works in stack order or uses a single alignment. -/
def Reachable (p cap : U64) (c : Client) : Prop :=
  ReachableBy Event.Lifo p cap c ∨ ∃ a, ReachableBy (Event.Uniform a) p cap c

end Tm.Alloc
