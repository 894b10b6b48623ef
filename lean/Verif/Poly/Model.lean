import Verif.Basic

/-!
# Model of tm_polygon.h (triangulation)

`float` and its operations are a parameter (`Arith`): nothing is assumed about them here, so that what is proved without assumptions
holds for every rounding, for infinities and for NaN. Every operation is carried out as written, without excess precision.
`tmpo_index` and `tmpo_uint16` are `unsigned short` with 16 bits, `tm_size_t` variables are unbounded. `TMPO_CLOCKWISE_TRIANGLES` is 1
(the default). An array is the list of the elements of its object.
-/

namespace Tm.Poly

/-- The operations of `float`. -/
structure Arith (F : Type) where
  /-- a literal -/
  lit : Rat → F
  add : F → F → F
  sub : F → F → F
  mul : F → F → F
  div : F → F → F
  neg : F → F
  /-- `a <= b`, which is also `b >= a` -/
  le : F → F → Bool
  /-- `a < b`, which is also `b > a` -/
  lt : F → F → Bool

/-- `tmpo_vector`, lines 139-142. -/
structure V (F : Type) where
  x : F
  y : F
  deriving DecidableEq, Repr

variable {F : Type} (A : Arith F)

/-- The loop of `isPolygonClockwise`, lines 282-284: `n` iterations from `i` on. -/
def sumLoop (vertices : List (V F)) : Nat → Nat → Nat → F → C F
  | 0, _, _, sum => .ok sum
  | n + 1, last, i, sum => do
    let l ← rd vertices last
    let v ← rd vertices i
    sumLoop vertices n i (i + 1) (A.add sum (A.sub (A.mul l.x v.y) (A.mul l.y v.x)))

/-- `isPolygonClockwise`, lines 279-286. (For no vertices `last` is not looked at.) -/
def isPolygonClockwise (vertices : List (V F)) (count : Nat) : C Bool := do
  let sum ← sumLoop A vertices count (count - 1) 0 (A.lit 0)
  .ok (A.le (A.lit 0) sum)

/-- `isTriangleClockwise`, lines 288-296. -/
def isTriangleClockwise (a b c : V F) : Bool :=
  let bx := A.sub b.x a.x
  let bY := A.sub b.y a.y
  let cx := A.sub c.x a.x
  let cy := A.sub c.y a.y
  let cross := A.sub (A.mul bx cy) (A.mul bY cx)
  A.le (A.lit 0) cross

/-- `pointInsideTriangle`, lines 297-317. -/
def pointInsideTriangle (a b c v : V F) : Bool :=
  let bx := A.sub b.x a.x
  let bY := A.sub b.y a.y
  let cx := A.sub c.x a.x
  let cy := A.sub c.y a.y
  let vx := A.sub v.x a.x
  let vy := A.sub v.y a.y
  let bc := A.add (A.mul bx cx) (A.mul bY cy)
  let vc := A.add (A.mul vx cx) (A.mul vy cy)
  let vb := A.add (A.mul vx bx) (A.mul vy bY)
  let cc := A.add (A.mul cx cx) (A.mul cy cy)
  let bb := A.add (A.mul bx bx) (A.mul bY bY)
  let invDenom := A.div (A.lit 1) (A.sub (A.mul bb cc) (A.mul bc bc))
  let r := A.mul (A.sub (A.mul cc vb) (A.mul bc vc)) invDenom
  let s := A.mul (A.sub (A.mul bb vc) (A.mul bc vb)) invDenom
  A.le (A.lit 0) r && A.le (A.lit 0) s && A.le (A.add r s) (A.lit 1)

/-- The loop of `isTriangleEar`, lines 330-337: `n` iterations from `i` on. -/
def earLoop (vertices : List (V F)) (a b c : Nat) (va vb vc : V F) : Nat → Nat → C Bool
  | 0, _ => .ok true
  | n + 1, i =>
    if i = a ∨ i = b ∨ i = c then earLoop vertices a b c va vb vc n (i + 1)
    else do
      let v ← rd vertices i
      if pointInsideTriangle A va vb vc v then .ok false else earLoop vertices a b c va vb vc n (i + 1)

/-- `isTriangleEar`, lines 318-340. -/
def isTriangleEar (a b c : Nat) (vertices : List (V F)) (count : Nat) (cw : Bool) : C Bool := do
  assert (decide (a < count))
  assert (decide (b < count))
  assert (decide (c < count))
  let va ← rd vertices a
  let vb ← rd vertices b
  let vc ← rd vertices c
  if isTriangleClockwise A va vb vc != cw then .ok false
  else earLoop A vertices a b c va vb vc count 0

/-- The loop that fills the query list, lines 360-362: `n` iterations from `i` on. -/
def fillQuery : Nat → Nat → List (BitVec 16) → C (List (BitVec 16))
  | 0, _, query => .ok query
  | n + 1, i, query => do
    let query ← wr query i (BitVec.ofNat 16 i)
    fillQuery n (i + 1) query

/-- The variables of the loop, lines 359-367. `indices` is `indicesCount`; `out` points behind that many elements. -/
structure Tri where
  query : List (BitVec 16)
  out : List (BitVec 16)
  indices : Nat
  size : Nat
  a : Nat
  b : Nat
  c : Nat
  current : Nat
  iterations : Nat
  deriving DecidableEq, Repr

/-- `TM_MEMMOVE(queryList + b, queryList + b + 1, (size - b) * sizeof(tmpo_index))`, line 387. (A wrap-around of the size is out of
bounds.) -/
def moveDown (query : List (BitVec 16)) (b size : Nat) : C (List (BitVec 16)) :=
  if b ≤ size ∧ size + 1 ≤ query.length then .ok (query.take b ++ (query.drop (b + 1)).take (size - b) ++ query.drop size)
  else .error .oob

/-- Writing of a triangle, lines 374-383. -/
def emit (clockwise : Bool) (begin : BitVec 16) (qa qb qc : BitVec 16) (out : List (BitVec 16)) (indices : Nat) : C (List (BitVec 16)) := do
  let out ← wr out indices (qa + begin)
  let out ← wr out (indices + 1) ((if clockwise then qb else qc) + begin)
  wr out (indices + 2) ((if clockwise then qc else qb) + begin)

/-- The next triple after a triangle was cut off, lines 388-404. `size` is the new one. -/
def afterCut (size a : Nat) : Nat × Nat × Nat :=
  let current := if a ≥ size then a - size else a
  if current ≥ 2 then (current - 2, current - 1, current)
  else (size - (2 - current), if current ≥ 1 then current - 1 else size - (1 - current), current)

/-- The next triple after one that is no ear, lines 406-415. -/
def afterMiss (size b current : Nat) : Nat × Nat × Nat :=
  if current + 1 ≥ size then (size - 2, size - 1, 0) else (b, current, current + 1)

/-- Cutting off a triangle, lines 370-404. -/
def cut (clockwise : Bool) (begin : BitVec 16) (maxIndices : Nat) (s : Tri) (qa qb qc : BitVec 16) : C Tri := do
  assert (decide (s.indices + 3 ≤ maxIndices))
  let out ← emit clockwise begin qa qb qc s.out s.indices
  let query ← moveDown s.query s.b (s.size - 1)
  let t := afterCut (s.size - 1) s.a
  .ok ⟨query, out, s.indices + 3, s.size - 1, t.1, t.2.1, t.2.2, t.2.2, 0⟩

/-- Going on to the next triple, lines 406-415. -/
def miss (s : Tri) : Tri :=
  let t := afterMiss s.size s.b s.current
  { s with a := t.1, b := t.2.1, c := t.2.2, current := t.2.2 }

/-- The loop, lines 368-421, at most `fuel` times. -/
def triLoop (vertices : List (V F)) (count : Nat) (clockwise : Bool) (begin : BitVec 16) (maxIndices : Nat) : Nat → Tri → C Tri
  | 0, _ => .error .diverge
  | fuel + 1, s =>
    if s.size > 2 then do
      let qa ← rd s.query s.a
      let qb ← rd s.query s.b
      let qc ← rd s.query s.c
      let ear ← isTriangleEar A qa.toNat qb.toNat qc.toNat vertices count clockwise
      if ear then do
        let s ← cut clockwise begin maxIndices s qa qb qc
        triLoop vertices count clockwise begin maxIndices fuel s
      else if s.iterations > 2 * s.size then .ok (miss s)
      else triLoop vertices count clockwise begin maxIndices fuel { miss s with iterations := s.iterations + 1 }
    else .ok s

/-- `triangulatePolygonEarClipping`, lines 342-424: the number of indices, the query list and the output. The pointers are not null.
The number of iterations is limited by more than there can be. -/
def triangulate (vertices : List (V F)) (count : Nat) (clockwise : Bool) (query : List (BitVec 16)) (queryCount : Nat)
    (begin : BitVec 16) (out : List (BitVec 16)) (maxIndices : Nat) : C (Nat × List (BitVec 16) × List (BitVec 16)) := do
  assert (decide (count ≤ queryCount))
  assert (decide (maxIndices ≠ 0))
  if count < 3 then .ok (0, query, out)
  else do
    let size := if count < queryCount then count else queryCount
    let query ← fillQuery size 0 query
    let s ← triLoop A vertices count clockwise begin maxIndices (count * (2 * count + 4) + 1) ⟨query, out, 0, size, 0, 1, 2, 2, 0⟩
    .ok (s.indices, s.query, s.out)

end Tm.Poly
