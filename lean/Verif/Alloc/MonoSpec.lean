import Verif.Alloc.Mono
import Verif.Alloc.Spec
/-!
# Specification vocabulary for the monotonic allocator

A client asks for blocks. Pages that the system maps are intervals of addresses.
-/
namespace Tm.Alloc

/-- A request: the size, the alignment, and what the system gives if it is asked. -/
structure Request where
  size : U64
  align : U64
  given : Given
deriving DecidableEq, Repr

/-- An allocator, the pages that were mapped for it (address and size), and the blocks its client was given: each one with the size and the
alignment that the client asked for. -/
structure Pool where
  mono : Mono
  mapped : List (U64 × U64)
  live : List Live
deriving DecidableEq, Repr

/-- One request. -/
def Pool.step (c : Pool) (q : Request) : C Pool := do
  let (r, m, pages) ← c.mono.allocate q.given q.size q.align
  return ⟨m, pages ++ c.mapped, if r.ptr = 0 then c.live else ⟨r.ptr, q.size, q.align⟩ :: c.live⟩

/-- The system gives pages only at an address that is a multiple of their granularity, where nothing else is mapped, and that do not reach the end
of the address space. (The pages may be of the granularity or of the size that is asked for.) -/
def Pool.Fair (c : Pool) (q : Request) : Prop :=
  ∀ size : U64, size = c.mono.blockSize ∨ size = q.size → q.given.page ≠ 0 →
    c.mono.blockSize.toNat ∣ q.given.page.toNat ∧ q.given.page.toNat + size.toNat < 2 ^ 64 ∧
    ∀ r ∈ c.mapped, ∀ x : Nat, ¬ ((r.1.toNat ≤ x ∧ x < r.1.toNat + r.2.toNat) ∧ (q.given.page.toNat ≤ x ∧ x < q.given.page.toNat + size.toNat))

/-- What a client can have after any number of requests for blocks of less than 2^62 bytes. The first memory of the array is zero. -/
inductive Pool.Reached (granularity : U64) : Pool → Prop
  | made (table : U64) : table ≠ 0 → Reached granularity ⟨Mono.make table ⟨0, 0, 0, 0⟩ granularity, [], []⟩
  | step {c c' : Pool} {q : Request} : Reached granularity c → c.Fair q → q.size.toNat < 2 ^ 62 → q.align.toNat ≤ 2 ^ 62 → c.step q = .ok c' →
    Reached granularity c'

end Tm.Alloc
