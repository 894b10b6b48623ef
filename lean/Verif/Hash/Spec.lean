import Verif.Hash.Model
/-!
# What a hash map is for

`Contents` is the abstract finite map. A client performs operations and sees their results; `Explains` says which results the abstract
map allows.
-/
namespace Tm.Hash

variable {K V : Type} [DecidableEq K]

/-- The abstract map. -/
abbrev Contents (K V : Type) := K → Option V

def Contents.empty : Contents K V := fun _ => none

/-- The map with the value at `k` replaced (or removed). -/
def Contents.set (f : Contents K V) (k : K) (o : Option V) : Contents K V := fun x => if x = k then o else f x

/-- Every entry of `f` is one of `g`. -/
def Contents.Sub (f g : Contents K V) : Prop := ∀ k v, f k = some v → g k = some v

/-- `n` keys have a value. -/
def Contents.HasSize (f : Contents K V) (n : Nat) : Prop := ∃ l : List K, l.Nodup ∧ (∀ k, k ∈ l ↔ (f k).isSome = true) ∧ l.length = n

inductive Op (K V : Type) where
  | insert (k : K) (v : V)
  | find (k : K)
  | remove (k : K)
  /-- read the key at an index with `get`, then `remove_index`, if the map is not empty -/
  | removeAt (index : Nat)

/-- What the client sees. -/
inductive Seen (K V : Type) where
  | inserted (ok : Bool)
  | found (value : Option V)
  | removed (ok : Bool)
  | removedAt (key : Option K)
deriving DecidableEq

/-- `Explains tomb f op seen g`: a finite map `f` answers the operation this way and becomes `g`. The tombstone cannot be
inserted; a failed insertion of another key may lose entries (C22 says when it does not). -/
inductive Explains (tomb : K) (f : Contents K V) : Op K V → Seen K V → Contents K V → Prop
  | insert {k : K} {v : V} : k ≠ tomb → Explains tomb f (.insert k v) (.inserted true) (f.set k (some v))
  | insertTomb {v : V} : Explains tomb f (.insert tomb v) (.inserted false) f
  | insertFailed {k : K} {v : V} {g : Contents K V} : k ≠ tomb → g.Sub f → Explains tomb f (.insert k v) (.inserted false) g
  | find {k : K} : Explains tomb f (.find k) (.found (f k)) f
  | remove {k : K} : Explains tomb f (.remove k) (.removed (f k).isSome) (f.set k none)
  | removeAt {i : Nat} {k : K} : (f k).isSome = true → Explains tomb f (.removeAt i) (.removedAt (some k)) (f.set k none)
  | removeAtNone {i : Nat} : Explains tomb f (.removeAt i) (.removedAt none) f

/-- A whole history. -/
inductive Explained (tomb : K) : Contents K V → List (Op K V) → List (Seen K V) → Contents K V → Prop
  | nil {f : Contents K V} : Explained tomb f [] [] f
  | cons {f g h : Contents K V} {op : Op K V} {s : Seen K V} {ops : List (Op K V)} {ss : List (Seen K V)} :
      Explains tomb f op s g → Explained tomb g ops ss h → Explained tomb f (op :: ops) (s :: ss) h

/-- The operation does not look up or remove the tombstone. -/
def Op.Proper (tomb : K) : Op K V → Prop
  | .find k => k ≠ tomb
  | .remove k => k ≠ tomb
  | _ => True

/-- An insertion of an ordinary key failed. -/
def FailedInsert (tomb : K) : Op K V × Seen K V → Prop
  | (.insert k _, .inserted false) => k ≠ tomb
  | _ => False

/-! ## Running the code -/

/-- The map and the number of calls of `malloc` so far. -/
structure Client (K V : Type) where
  map : Map K V
  calls : Nat
deriving DecidableEq

/-- Reading the value found by `find`. -/
def readFound : Option (Option V) → C (Option V)
  | none => .ok none
  | some none => .error .invalid
  | some (some v) => .ok (some v)

def Client.step (ks : Keys K) (mem : Nat → Bool) (fuel : Nat) (c : Client K V) : Op K V → C (Seen K V × Client K V)
  | .insert k v => do
    let r ← Tm.Hash.insert ks mem fuel c.map c.calls k v
    return (.inserted r.ok, ⟨r.map, r.calls⟩)
  | .find k => do
    let r ← c.map.find ks k
    let v ← readFound r
    return (.found v, c)
  | .remove k => do
    let r ← c.map.remove ks k
    return (.removed r.1, ⟨r.2, c.calls⟩)
  | .removeAt i =>
    if c.map.count = 0 then .ok (.removedAt none, c)
    else do
      let e ← c.map.get ks i
      let r ← c.map.removeIndex ks i
      return (.removedAt (if r.1 then e.map Prod.fst else none), ⟨r.2, c.calls⟩)

def Client.run (ks : Keys K) (mem : Nat → Bool) (fuel : Nat) (c : Client K V) : List (Op K V) → C (List (Seen K V) × Client K V)
  | [] => .ok ([], c)
  | op :: ops => do
    let a ← c.step ks mem fuel op
    let b ← a.2.run ks mem fuel ops
    return (a.1 :: b.1, b.2)

/-- A client with a new map. -/
def Client.fresh (ks : Keys K) (mem : Nat → Bool) : Client K V := ⟨(Map.create ks mem 0).1, (Map.create (V := V) ks mem 0).2⟩

/-- The client can see the entry at an index with `get`. -/
def Shows (ks : Keys K) (m : Map K V) (i : Nat) (k : K) (v : V) : Prop := m.get ks i = .ok (some (k, some v))

/-! ## FNV-1a -/

/-- 64-bit FNV-1a: http://www.isthe.com/chongo/tech/comp/fnv -/
def fnv1a (offset : Nat) (bytes : List Byte) : Nat := bytes.foldl (fun h b => (h ^^^ b.toNat) * 1099511628211 % 2 ^ 64) offset

def fnvOffset : Nat := 14695981039346656037

end Tm.Hash
