import Verif.Poly.Model

/-!
# Model of tm_polygon.h (clipping)

`float` is a parameter as in `Model.lean`. The two polygons are different objects. `flags` is its three bits. A loop that may not end
gets a number of iterations, and exceeding it is the outcome `diverge`. `tmpo_index` and `tmpo_uint16` have 16 bits.
-/

namespace Tm.Poly

variable {F : Type} (A : Arith F)

/-- `ClipVertex`, lines 181-189, and the bits of `flags`, lines 191-197. (`nextPoly` is not used.) -/
structure CV (F : Type) where
  pos : V F
  next : BitVec 16
  prev : BitVec 16
  intersect : Bool
  exit : Bool
  processed : Bool
  neighbor : BitVec 16
  alpha : F
  deriving DecidableEq, Repr

/-- `ClipVertices`, lines 201-206. `data` is all of the memory that `data` points to. -/
structure Clip (F : Type) where
  data : List (CV F)
  originalSize : Nat
  size : Nat
  capacity : Nat
  deriving DecidableEq, Repr

/-- Changing an element of an array. -/
def change {α : Type} (l : List α) (i : Nat) (f : α → α) : C (List α) := do
  let x ← rd l i
  wr l i (f x)

/-- The loop of `clipPolyTransformData`, lines 441-447: `n` iterations from `i` on. -/
def transformLoop (vertices : List (V F)) : Nat → Nat → BitVec 16 → List (CV F) → C (List (CV F))
  | 0, _, _, mem => .ok mem
  | n + 1, i, prev, mem => do
    let v ← rd vertices i
    let mem ← wr mem i ⟨v, BitVec.ofNat 16 (i + 1), prev, false, false, false, 0, A.lit 0⟩
    transformLoop vertices n (i + 1) (BitVec.ofNat 16 i) mem

/-- `clipPolyTransformData`, lines 428-452. (`TM_MEMSET` sets the members that are not assigned to zero.) -/
def transform (vertices : List (V F)) (count : Nat) (mem : List (CV F)) (maxClipVertices : Nat) : C (Clip F) := do
  assert (decide (count ≤ maxClipVertices))
  let mem ← transformLoop A vertices count 0 (BitVec.ofNat 16 count - 1) mem
  if count = 0 then .ok ⟨mem, count, count, maxClipVertices⟩
  else do
    let mem ← change mem (count - 1) fun v => { v with next := 0 }
    .ok ⟨mem, count, count, maxClipVertices⟩

/-- `clipPolyCreateVertex`, lines 455-469, and `clipPolyCreateIntersection`, lines 493-500. -/
def createIntersection (vs : Clip F) (at' : Nat) (pos : V F) (neighbor : Nat) (alpha : F) : C (Clip F) := do
  assert (decide (vs.size + 1 ≤ vs.capacity))
  let ref ← rd vs.data at'
  let data ← wr vs.data vs.size ⟨pos, ref.next, BitVec.ofNat 16 at', true, false, false, BitVec.ofNat 16 neighbor, alpha⟩
  let data ← change data at' fun v => { v with next := BitVec.ofNat 16 vs.size }
  let data ← change data ref.next.toNat fun v => { v with prev := BitVec.ofNat 16 vs.size }
  .ok { vs with data := data, size := vs.size + 1 }

/-- `clipPolyLineIntersectionFactor`, lines 470-483: the number stored at `t` if there is a hit. -/
def intersectionFactor (a aDir b bDir : V F) : Option F :=
  let cross := A.sub (A.mul aDir.x bDir.y) (A.mul aDir.y bDir.x)
  if A.lt cross (A.lit (1 / 1000000)) || A.lt (A.lit (1 / 1000000)) cross then
    let relx := A.sub a.x b.x
    let rely := A.sub a.y b.y
    some (A.div (A.sub (A.mul bDir.x rely) (A.mul bDir.y relx)) cross)
  else none

/-- `clipPolyFindIntersectionIndex`, lines 485-492. -/
def findIndex (data : List (CV F)) (alpha : F) : Nat → Nat → C Nat
  | 0, _ => .error .diverge
  | fuel + 1, at' => do
    let ref ← rd data at'
    if ref.intersect && A.lt alpha ref.alpha then findIndex data alpha fuel ref.prev.toNat else .ok at'

/-- Moving of a degenerate vertex, lines 533-535 (same text at 540-542, 547-549, 554-556). -/
def push (data : List (CV F)) (i : Nat) (dir : V F) : C (List (CV F)) :=
  change data i fun v =>
    { v with pos := ⟨A.sub v.pos.x (A.mul dir.y (A.lit (1 / 10000))), A.add v.pos.y (A.mul dir.x (A.lit (1 / 10000)))⟩ }

/-- `a - b`. -/
def V.minus (a b : V F) : V F := ⟨A.sub a.x b.x, A.sub a.y b.y⟩

/-- Storing of an intersection, lines 560-568. -/
def store (a b : Clip F) (i j : Nat) (aPrev aDir : V F) (aAlpha bAlpha : F) : C (Clip F × Clip F) := do
  let aVertex ← rd a.data i
  let bVertex ← rd b.data j
  let intersection : V F := ⟨A.add aPrev.x (A.mul aAlpha aDir.x), A.add aPrev.y (A.mul aAlpha aDir.y)⟩
  let aIndex ← findIndex A a.data aAlpha (a.data.length + 1) aVertex.prev.toNat
  let bIndex ← findIndex A b.data bAlpha (b.data.length + 1) bVertex.prev.toNat
  let aNeighbor := b.size
  let bNeighbor := a.size
  let a ← createIntersection a aIndex intersection aNeighbor aAlpha
  let b ← createIntersection b bIndex intersection bNeighbor bAlpha
  .ok (a, b)

/-- What the two factors lead to, lines 528-568: whether the loop goes on with the same `j` (`continue`), and the polygons. -/
def found (a b : Clip F) (i ip j jp : Nat) (aPrev aDir bDir : V F) (aAlpha bAlpha : F) : C (Bool × Clip F × Clip F) :=
  if A.le aAlpha (A.lit (1 / 100000)) then do
    let data ← push A a.data ip bDir
    .ok (true, { a with data := data }, b)
  else if A.le (A.lit (99999 / 100000)) aAlpha then do
    let data ← push A a.data i bDir
    .ok (true, { a with data := data }, b)
  else if A.le bAlpha (A.lit (1 / 100000)) then do
    let data ← push A b.data jp aDir
    .ok (true, a, { b with data := data })
  else if A.le (A.lit (99999 / 100000)) bAlpha then do
    let data ← push A b.data j aDir
    .ok (true, a, { b with data := data })
  else do
    let r ← store A a b i j aPrev aDir aAlpha bAlpha
    .ok (false, r.1, r.2)

/-- A factor is in the interval from 0 to 1. -/
def inUnit (x : F) : Bool := A.le (A.lit 0) x && A.le x (A.lit 1)

/-- One pair of sides, lines 509-569. -/
def pair (a b : Clip F) (i ip j jp : Nat) : C (Bool × Clip F × Clip F) := do
  let aVertex ← rd a.data i
  let aPrev ← rd a.data ip
  let bVertex ← rd b.data j
  let bPrev ← rd b.data jp
  let aDir := aVertex.pos.minus A aPrev.pos
  let bDir := bVertex.pos.minus A bPrev.pos
  match intersectionFactor A aPrev.pos aDir bPrev.pos bDir, intersectionFactor A bPrev.pos bDir aPrev.pos aDir with
  | some aAlpha, some bAlpha =>
    if inUnit A aAlpha && inUnit A bAlpha then found A a b i ip j jp aPrev.pos aDir bDir aAlpha bAlpha else .ok (false, a, b)
  | _, _ => .ok (false, a, b)

/-- The two loops, lines 507-573. `ip` is `aPrevIndex`, `jp` is `bPrevIndex`. -/
def findLoop : Nat → Clip F → Clip F → Nat → Nat → Nat → Nat → C (Clip F × Clip F)
  | 0, _, _, _, _, _, _ => .error .diverge
  | fuel + 1, a, b, i, ip, j, jp =>
    if i < a.originalSize then
      if j < b.originalSize then do
        let r ← pair A a b i ip j jp
        if r.1 then findLoop fuel r.2.1 r.2.2 i ip j jp else findLoop fuel r.2.1 r.2.2 i ip (j + 1) j
      else findLoop fuel a b (i + 1) i 0 jp
    else .ok (a, b)

/-- `clipPolyFindIntersections`, lines 502-574, with a number of iterations of both loops together. -/
def findIntersections (fuel : Nat) (a b : Clip F) : C (Clip F × Clip F) :=
  findLoop A fuel a b 0 (a.originalSize - 1) 0 (b.originalSize - 1)

/-- The condition for a side to cross the ray, line 585, and the test of lines 587-591. -/
def crosses (p cur prev : V F) : Bool :=
  (A.le p.y prev.y && A.lt cur.y p.y || A.lt prev.y p.y && A.le p.y cur.y) &&
    (let alpha := A.div (A.sub prev.y p.y) (A.sub prev.y cur.y)
     A.lt p.x (A.add prev.x (A.mul alpha (A.sub cur.x prev.x))))

/-- The loop of `clipPolyPointInsidePoly`, lines 580-593: `n` iterations from `i` on; whether `cn` is odd. -/
def insideLoop (data : List (CV F)) (p : V F) : Nat → Nat → Nat → Bool → C Bool
  | 0, _, _, odd => .ok odd
  | n + 1, i, prevIndex, odd => do
    let cur ← rd data i
    let prev ← rd data prevIndex
    insideLoop data p n (i + 1) i (odd != crosses A p cur.pos prev.pos)

/-- `clipPolyPointInsidePoly`, lines 576-597. -/
def pointInside (poly : Clip F) (p : V F) : C Bool := insideLoop A poly.data p poly.originalSize 0 (poly.originalSize - 1) false

/-- Marking one vertex, lines 608-610. -/
def markOne (data : List (CV F)) (i : Nat) (entry : CV F) (inside : Bool) : C (List (CV F)) :=
  if entry.intersect && inside then change data i fun v => { v with exit := true } else .ok data

/-- The loop of `clipPolyMarkEntryExitPointsSingle`, lines 606-615. -/
def markLoop : Nat → List (CV F) → Nat → Bool → C (List (CV F))
  | 0, _, _, _ => .error .diverge
  | fuel + 1, data, i, inside => do
    let entry ← rd data i
    let data ← markOne data i entry inside
    if entry.next.toNat ≠ 0 then markLoop fuel data entry.next.toNat (inside != entry.intersect) else .ok data

/-- `clipPolyMarkEntryExitPointsSingle`, lines 598-617. `backward` is `dir != CFD_FORWARD`. -/
def markSingle (current other : Clip F) (backward : Bool) : C (Clip F) :=
  if 0 < current.size then do
    let first ← rd current.data 0
    let inside ← pointInside A other first.pos
    let data ← markLoop (current.data.length + 1) current.data first.next.toNat (inside != backward)
    .ok { current with data := data }
  else .ok current

/-- `clipPolyMarkEntryExitPoints`, lines 619-626. -/
def mark (a b : Clip F) (aBackward bBackward : Bool) : C (Clip F × Clip F) := do
  let a ← markSingle A a b aBackward
  let b ← markSingle A b a bBackward
  .ok (a, b)

/-- `ClipPolygonEntry`, lines 208-211. The pointer is an index into the array of vertices. -/
structure Entry where
  vertices : Nat
  size : Nat
  deriving DecidableEq, Repr

/-- The variables of `clipPolyEmitClippedPolygons`: the polygon that is followed is `cur`, the other one is `other`. `swapped` is whether
`cur` is the second argument. -/
structure Emit (F : Type) where
  cur : List (CV F)
  other : List (CV F)
  swapped : Bool
  i : Nat
  put : Nat
  vertices : List (V F)
  deriving DecidableEq, Repr

/-- One of the two inner loops, lines 674-685 and 687-698. `back` is whether it goes along `prev`. -/
def walk (back : Bool) (size : Nat) : Nat → Emit F → C (Emit F)
  | 0, _ => .error .diverge
  | fuel + 1, s => do
    let from' ← rd s.cur s.i
    let i := if back then from'.prev.toNat else from'.next.toNat
    let current ← rd s.cur i
    let cur ← wr s.cur i { current with processed := true }
    assert (decide (s.put + 1 ≤ size))
    let vertices ← wr s.vertices s.put current.pos
    let s := { s with cur := cur, i := i, put := s.put + 1, vertices := vertices }
    if current.intersect then .ok s else walk back size fuel s

/-- Going over to the other polygon, lines 701-707. -/
def jump (s : Emit F) : C (Emit F) := do
  let current ← rd s.cur s.i
  let i := current.neighbor.toNat
  let entry ← rd s.other i
  let other ← wr s.other i { entry with processed := true }
  assert entry.intersect
  .ok { s with cur := other, other := s.cur, swapped := !s.swapped, i := i }

/-- The loop of one polygon, lines 672-709. -/
def trace (size start : Nat) (startSwapped : Bool) : Nat → Emit F → C (Emit F)
  | 0, _ => .error .diverge
  | fuel + 1, s => do
    let current ← rd s.cur s.i
    let s ← walk current.exit size (s.cur.length + 1) s
    let s ← jump s
    if s.i ≠ start ∨ s.swapped ≠ startSwapped then trace size start startSwapped fuel s else .ok s

/-- The polygons that were emitted and what is left of the memory for them; `count` is `polyCount`, `current` is `currentPoly`. -/
structure Polys where
  entries : List Entry
  count : Nat
  current : Nat
  deriving DecidableEq, Repr

/-- Storing the size of the last polygon, lines 659-661 and 751-753. -/
def close (p : Polys) (put : Nat) : C Polys :=
  if p.current < p.count then do
    let entries ← change p.entries p.current fun e => { e with size := put - e.vertices }
    .ok { p with entries := entries }
  else .ok p

/-- The begin of a new polygon, lines 662-669 (same text at 718-725 and 734-741). -/
def openPoly (p : Polys) (maxPolygons put : Nat) : C Polys := do
  assert (decide (p.count + 1 ≤ maxPolygons))
  let entries ← change p.entries p.count fun e => { e with vertices := put }
  .ok ⟨entries, p.count + 1, p.count⟩

/-- The outer loop, lines 652-713: the state at its end, and whether there was an intersection. `limit` is a number of iterations for the
loop of one polygon. -/
def emitLoop (size maxPolygons limit : Nat) : Nat → Emit F → Polys → Bool → C (Emit F × Polys × Bool)
  | 0, _, _, _ => .error .diverge
  | fuel + 1, s, p, has =>
    if s.i ≠ 0 then do
      let current ← rd s.cur s.i
      if current.intersect && !current.processed then do
        let cur ← wr s.cur s.i { current with processed := true }
        let p ← close p s.put
        let p ← openPoly p maxPolygons s.put
        let s ← trace size s.i s.swapped limit { s with cur := cur }
        let current ← rd s.cur s.i
        emitLoop size maxPolygons limit fuel { s with i := current.next.toNat } p true
      else emitLoop size maxPolygons limit fuel { s with i := current.next.toNat } p has
    else .ok (s, p, has)

/-- Copying of a whole polygon, lines 726-732 and 742-748. -/
def copyLoop (data : List (CV F)) : Nat → Nat → List (V F) → C (List (V F))
  | 0, _, vertices => .ok vertices
  | n + 1, j, vertices => do
    let v ← rd data j
    let vertices ← wr vertices j v.pos
    copyLoop data n (j + 1) vertices

/-- Emitting one of the polygons as a whole, lines 718-732 and 734-748. -/
def emitWhole (data : List (CV F)) (originalSize size maxPolygons : Nat) (p : Polys) (put : Nat) (vertices : List (V F)) :
    C (Polys × Nat × List (V F)) := do
  let p ← openPoly p maxPolygons put
  let n := if size > originalSize then originalSize else size
  let vertices ← copyLoop data n 0 vertices
  .ok (p, n, vertices)

/-- The case without intersections, lines 715-750. `a` and `b` have the data after the loop. -/
def emitInside (a b : Clip F) (size maxPolygons : Nat) (p : Polys) (put : Nat) (vertices : List (V F)) :
    C (Polys × Nat × List (V F)) := do
  let a0 ← rd a.data 0
  let aInB ← pointInside A b a0.pos
  if aInB then emitWhole a.data a.originalSize size maxPolygons p put vertices
  else if b.size = 0 then .ok (p, put, vertices)
  else do
    let b0 ← rd b.data 0
    let bInA ← pointInside A a b0.pos
    if bInA then emitWhole b.data b.originalSize size maxPolygons p put vertices else .ok (p, put, vertices)

/-- What comes after the loop, lines 715-750: nothing if there was an intersection. -/
def emitRest (has : Bool) (a b : Clip F) (size maxPolygons : Nat) (p : Polys) (put : Nat) (vertices : List (V F)) :
    C (Polys × Nat × List (V F)) :=
  if has then .ok (p, put, vertices) else emitInside A a b size maxPolygons p put vertices

/-- What is emitted: the entries, the vertices, and the two numbers of the result. -/
structure Emitted (F : Type) where
  entries : List Entry
  vertices : List (V F)
  polygons : Nat
  used : BitVec 16
  deriving DecidableEq, Repr

/-- `clipPolyEmitClippedPolygons`, lines 628-757. The pointers are not null. `limit` is a number of iterations for the loop of one
polygon. -/
def emitClipped (limit : Nat) (a b : Clip F) (polygons : List Entry) (maxPolygons : Nat) (vertices : List (V F)) (maxCount : Nat) :
    C (Emitted F) :=
  if a.size < 1 then .ok ⟨polygons, vertices, 0, 0⟩
  else do
    let first ← rd a.data 0
    let r ← emitLoop maxCount maxPolygons limit (a.data.length + 1) ⟨a.data, b.data, false, first.next.toNat, 0, vertices⟩ ⟨polygons, 0, 1⟩ false
    let q ← emitRest A r.2.2 { a with data := r.1.cur } { b with data := r.1.other } maxCount maxPolygons r.2.1 r.1.put r.1.vertices
    let p ← close q.1 q.2.1
    .ok ⟨p.entries, q.2.2, p.count, BitVec.ofNat 16 q.2.1⟩

/-- `clipPolyEmitClippedPolygon`, lines 759-764: the number that is returned, and the vertices. -/
def emitOne (limit : Nat) (a b : Clip F) (vertices : List (V F)) (maxCount : Nat) : C (Nat × List (V F)) := do
  let e ← emitClipped A limit a b [⟨0, 0⟩] 1 vertices maxCount
  let entry ← rd e.entries 0
  .ok (entry.size, e.vertices)

end Tm.Poly
