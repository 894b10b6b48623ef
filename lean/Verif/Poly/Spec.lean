import Mathlib.Data.List.Rotate
import Mathlib.Tactic.Ring
import Mathlib.Tactic.Linarith
import Verif.Poly.Model

/-!
# What triangulating a polygon means

A polygon is the list of its corners, in order; lists that are rotations of each other are the same polygon.
-/

namespace Tm.Poly.Spec

/-- Cutting triangles off a polygon, one after the other: a triangle consists of three corners in a row, and the one in the middle is gone
afterwards. `Cuts p ts q`: cutting the triangles `ts` off the polygon `p` leaves `q`. -/
inductive Cuts {α : Type} : List α → List (α × α × α) → List α → Prop
  | none {p q : List α} : p ~r q → Cuts p [] q
  | cut {p q : List α} {a b c : α} {r : List α} {ts : List (α × α × α)} :
      p ~r (a :: b :: c :: r) → Cuts (a :: c :: r) ts q → Cuts p ((a, b, c) :: ts) q

/-- The sides of a polygon, from a corner to the next one. -/
def sides {α : Type} (p : List α) : List (α × α) := p.zip (p.rotate 1)

/-- The sides of a triangle. -/
def triSides {α : Type} (t : α × α × α) : List (α × α) := [(t.1, t.2.1), (t.2.1, t.2.2), (t.2.2, t.1)]

variable {R : Type} [CommRing R]

/-- Twice the signed area of the triangle of two points and the origin. -/
def cross0 (p q : V R) : R := p.x * q.y - p.y * q.x

/-- Twice the signed area of a polygon, by the shoelace formula. -/
def area2 (p : List (V R)) : R := ((sides p).map fun e => cross0 e.1 e.2).sum

/-- Twice the signed area of a triangle. It is positive if the corners are in clockwise order and y goes down. -/
def cross (a b c : V R) : R := (b.x - a.x) * (c.y - a.y) - (b.y - a.y) * (c.x - a.x)

/-- A point is in a triangle, border included: it is an average of the corners. -/
def InTriangle (a b c v : V ℚ) : Prop :=
  ∃ r s t : ℚ, 0 ≤ r ∧ 0 ≤ s ∧ 0 ≤ t ∧ r + s + t = 1 ∧ v.x = r * a.x + s * b.x + t * c.x ∧ v.y = r * a.y + s * b.y + t * c.y

/-- The points are the corners of a strictly convex polygon: any three of them are in clockwise order, or any three are in
anticlockwise order. -/
def Convex (clockwise : Bool) (v : List (V ℚ)) : Prop :=
  ∀ (i j k : Nat) (p q r : V ℚ), i < j → j < k → v[i]? = some p → v[j]? = some q → v[k]? = some r →
    if clockwise then 0 < cross p q r else cross p q r < 0

/-- The triangles in a list of indices, three for each one; indices start at `begin`. -/
def triangles (begin : BitVec 16) : List (BitVec 16) → List (Nat × Nat × Nat)
  | a :: b :: c :: rest => ((a - begin).toNat, (b - begin).toNat, (c - begin).toNat) :: triangles begin rest
  | _ => []

/-- The arrays of a call are large enough: the query list has an element for each vertex, the output three for each of `count - 2`
triangles (the documentation asks for three for each vertex). Both may be larger than what is used. -/
structure Enough (count available : Nat) (query : List (BitVec 16)) (queryCount : Nat) (out : List (BitVec 16)) (maxIndices : Nat) : Prop where
  vertices : count ≤ available
  elements : count ≤ queryCount
  queryMem : queryCount ≤ query.length
  indices : 3 * (count - 2) ≤ maxIndices
  outSome : maxIndices ≠ 0
  outMem : maxIndices ≤ out.length

end Tm.Poly.Spec
