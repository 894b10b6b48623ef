import Verif.Vec.Model

/-!
# A vector as a list

What a vector should do, in terms of lists. An element that was moved from has no value that can be relied on: `none`.
-/

namespace Tm.Vec

open Tm

variable {α : Type}

/-- The vector has these elements: `size()` is their number, and `operator[]` gives each of them. -/
def Holds (v : Vec α) (l : List (Option α)) : Prop := v.size = l.length ∧ ∀ i x, l[i]? = some x → v.at i = .ok x

/-- The operations that change one vector. -/
inductive Op (α : Type)
  | pushBack (s : Src α)
  | pushBackMove (s : Src α)
  | insert (pos : Nat) (s : Src α)
  | insertMove (pos : Nat) (s : Src α)
  | insertN (pos n : Nat) (s : Src α)
  | insertRange (pos : Nat) (xs : List (Option α))
  | emplace (pos : Nat) (x : Option α)
  | emplaceBack (x : Option α)
  | popBack
  | erase (first last : Nat)
  | clear
  | resize (count : Nat) (s : Src α)
  | reserve (count : Nat)
  | assignN (n : Nat) (s : Src α)
  | assignRange (r : Range α)

/-- The operation is carried out. The result says whether it succeeded. -/
def exec (c : Cfg) (h : Heap) (v : Vec α) : Op α → C (Heap × Vec α × Bool)
  | .pushBack s => pushBack c h v s
  | .pushBackMove s => pushBackMove c h v s
  | .insert pos s => insertOne c h v pos s
  | .insertMove pos s => insertMove c h v pos s
  | .insertN pos n s => insertN c h v pos n s
  | .insertRange pos xs => insertRange c h v pos (.ext xs)
  | .emplace pos x => emplace c h v pos (.ext x)
  | .emplaceBack x => emplace c h v v.sz (.ext x)
  | .popBack => do
    let v ← popBack c v
    .ok (h, v, true)
  | .erase first last => do
    let v ← erase c v first last
    .ok (h, v, true)
  | .clear => do
    let v ← clear c v
    .ok (h, v, true)
  | .resize count s => resize c h v count s
  | .reserve count => reserve c h v count
  | .assignN n s => assignN c h v n s
  | .assignRange r => assignRange c h v r

/-- The value of an argument. -/
def val (l : List (Option α)) : Src α → Option α
  | .ext x => x
  | .own i => (l[i]?).join

/-- The elements after the argument was moved from. -/
def gone (triv : Bool) (l : List (Option α)) : Src α → List (Option α)
  | .ext _ => l
  | .own i => if triv then l else l.set i none

/-- The list with `xs` inserted at a position. -/
def inserted (l : List (Option α)) (pos : Nat) (xs : List (Option α)) : List (Option α) := l.take pos ++ xs ++ l.drop pos

/-- The elements of a range. -/
def elements (l : List (Option α)) : Range α → List (Option α)
  | .ext xs => xs
  | .null => []
  | .own first last => (l.take last).drop first

/-- What the operation should do. -/
def apply (triv : Bool) (l : List (Option α)) : Op α → List (Option α)
  | .pushBack s => l ++ [val l s]
  | .pushBackMove s => gone triv l s ++ [val l s]
  | .insert pos s => inserted l pos [val l s]
  | .insertMove pos s => inserted (gone triv l s) pos [val l s]
  | .insertN pos n s => inserted l pos (List.replicate n (val l s))
  | .insertRange pos xs => inserted l pos xs
  | .emplace pos x => inserted l pos [x]
  | .emplaceBack x => l ++ [x]
  | .popBack => l.dropLast
  | .erase first last => l.take first ++ l.drop last
  | .clear => []
  | .resize count s => l.take count ++ List.replicate (count - l.length) (val l s)
  | .reserve _ => l
  | .assignN n s => List.replicate n (val l s)
  | .assignRange r => elements l r

/-- What is left when there is no memory: the elements stay, but an assignment drops them, and an argument that should have been moved
is moved from. -/
def failed (triv : Bool) (l : List (Option α)) : Op α → List (Option α)
  | .pushBackMove s => gone triv l s
  | .insertMove _ s => gone triv l s
  | .assignN _ _ => []
  | .assignRange _ => []
  | _ => l

/-- The number of elements the operation needs room for. -/
def demand (triv : Bool) (l : List (Option α)) : Op α → Nat
  | .reserve count => count
  | op => (apply triv l op).length

/-- The argument is a value, or an element that exists. -/
def Src.Exists (l : List (Option α)) : Src α → Prop
  | .ext _ => True
  | .own i => i < l.length

/-- The arguments make sense for a vector with these elements, and at most `M` elements are asked for. A number of copies to insert or to assign
is positive. -/
def Sensible (M : Nat) (l : List (Option α)) : Op α → Prop
  | .pushBack s => s.Exists l ∧ l.length + 1 ≤ M
  | .pushBackMove s => s.Exists l ∧ l.length + 1 ≤ M
  | .insert pos s => pos ≤ l.length ∧ s.Exists l ∧ l.length + 1 ≤ M
  | .insertMove pos s => pos ≤ l.length ∧ s.Exists l ∧ l.length + 1 ≤ M
  | .insertN pos n s => pos ≤ l.length ∧ 1 ≤ n ∧ s.Exists l ∧ l.length + n ≤ M
  | .insertRange pos xs => pos ≤ l.length ∧ l.length + xs.length ≤ M
  | .emplace pos _ => pos ≤ l.length ∧ l.length + 1 ≤ M
  | .emplaceBack _ => l.length + 1 ≤ M
  | .popBack => l ≠ []
  | .erase first last => first ≤ last ∧ last ≤ l.length
  | .clear => True
  | .resize count s => s.Exists l ∧ count ≤ M
  | .reserve count => count ≤ M
  | .assignN n s => 1 ≤ n ∧ s.Exists l ∧ n ≤ M
  | .assignRange (.ext xs) => xs.length ≤ M
  | .assignRange .null => True
  | .assignRange (.own first last) => first ≤ last ∧ last ≤ l.length

/-- `sizeof(T)` is positive, the small buffer exists, and twice as many bytes as `M` elements have can be addressed. -/
def Addressable (c : Cfg) (M : Nat) : Prop := 0 < c.esz ∧ c.n < 2 ^ 63 ∧ c.esz * (2 * M) < 2 ^ 63

/-- Block numbers are not used twice. -/
def Heap.Ok (h : Heap) : Prop := h.live.Nodup ∧ ∀ id ∈ h.live, id < h.next

/-- `v` is a vector after any number of operations, each of which made sense when it was called, and `l` are the elements it should have. The
heap was `h0` before the vector was made, and is `h` now. -/
inductive Reached (c : Cfg) (M : Nat) (h0 : Heap) : Heap → Vec α → List (Option α) → Prop
  | make {v : Vec α} : make c = .ok v → Reached c M h0 h0 v []
  | step {h v l op h' v' ok} : Reached c M h0 h v l → Sensible M l op → exec c h v op = .ok (h', v', ok) →
      Reached c M h0 h' v' (if ok then apply c.triv l op else failed c.triv l op)

/-- Values are added at the end, one by one. Stops if there is no memory. -/
def pushAll (c : Cfg) (h : Heap) (v : Vec α) : List (Option α) → C (Heap × Vec α × Bool)
  | [] => .ok (h, v, true)
  | x :: xs => do
    let (h, v, ok) ← pushBack c h v (.ext x)
    if ok then pushAll c h v xs else .ok (h, v, false)

/-- Both vectors are destroyed, and then the heap has exactly these blocks. -/
def BothReleased (c : Cfg) (h : Heap) (v w : Vec α) (live : List Nat) : Prop :=
  ∃ h1 v1 h2 w2, destroy c h v = .ok (h1, v1) ∧ destroy c h1 w = .ok (h2, w2) ∧ h2.live.Perm live

/-- The operation keeps the elements if there is no memory: it neither assigns nor moves from an element of the vector. -/
def Op.Keeps : Op α → Prop
  | .pushBackMove (.own _) => False
  | .insertMove _ (.own _) => False
  | .assignN _ _ => False
  | .assignRange _ => False
  | _ => True

/-- The operation is `reserve`. -/
def Op.IsReserve : Op α → Prop
  | .reserve _ => True
  | _ => False

end Tm.Vec
