import Mathlib.Data.List.Chain
import Verif.Poly.ClipModel
import Verif.Poly.Exact
import Verif.Poly.Spec

/-!
# Specification of clipping

Two polygons are prepared for clipping: the points where their sides cross are inserted into both of them.
-/

namespace Tm.Poly.Spec

variable {F : Type}

/-- `y` follows `x` in the polygon: `next` of `x` is `y`, and `prev` of `y` is `x`. -/
def Link (data : List (CV F)) (x y : Nat) : Prop :=
  (∃ v, data[x]? = some v ∧ v.next.toNat = y) ∧ ∃ v, data[y]? = some v ∧ v.prev.toNat = x

/-- A polygon goes through these vertices, from vertex 0 on, and then to vertex 0 again. -/
def Ring (data : List (CV F)) (ring : List Nat) : Prop := ring.head? = some 0 ∧ (ring ++ [0]).IsChain (Link data)

/-- A crossing on a polygon: the corner at the end of the side it is on, the point, and how far it is along the side. -/
structure Crossing (F : Type) where
  side : Nat
  pos : V F
  alpha : F
  deriving DecidableEq, Repr

/-- A way around a polygon with `n` corners and with crossings: it goes through every vertex once; it goes through the corners in their
order; each crossing comes between the corners of its side; and crossings on the same side come in their order. -/
structure Tour (A : Arith F) (data : List (CV F)) (n : Nat) (cs : List (Crossing F)) (ring : List Nat) : Prop where
  closed : Ring data ring
  all : ring.Perm (List.range (n + cs.length))
  corners : (ring.filter fun x => decide (x < n)) = List.range n
  place : ∀ pre k post c, ring = pre ++ (n + k) :: post → cs[k]? = some c →
    (pre.filter fun x => decide (x < n)).length = if c.side = 0 then n else c.side
  sorted : ∀ pre k l post c d, ring = pre ++ (n + k) :: (n + l) :: post → cs[k]? = some c → cs[l]? = some d → A.lt d.alpha c.alpha = false

/-- A polygon with corners `ps` and crossings `cs`: the vertices are the corners and then the crossings, each of which has as neighbor
the crossing with the same number of the other polygon, which has `m` corners. -/
structure Prepared (A : Arith F) (m : Nat) (ps : List (V F)) (cs : List (Crossing F)) (vs : Clip F) : Prop where
  original : vs.originalSize = ps.length
  size : vs.size = ps.length + cs.length
  corner : ∀ (i : Nat) p, ps[i]? = some p →
    ∃ v : CV F, vs.data[i]? = some v ∧ v.pos = p ∧ v.intersect = false ∧ v.exit = false ∧ v.processed = false
  crossing : ∀ (k : Nat) c, cs[k]? = some c →
    ∃ v : CV F, vs.data[ps.length + k]? = some v ∧ v.pos = c.pos ∧ v.alpha = c.alpha ∧ v.neighbor.toNat = m + k ∧ v.intersect = true ∧
      v.exit = false ∧ v.processed = false
  tour : ∃ ring, Tour A vs.data ps.length cs ring

/-- A point where two polygons cross: the corners at the ends of the sides, the point, and how far it is along both sides. -/
structure Meeting (F : Type) where
  i : Nat
  j : Nat
  pos : V F
  aAlpha : F
  bAlpha : F
  deriving DecidableEq, Repr

/-- The crossing on the first polygon. -/
def Meeting.onA (c : Meeting F) : Crossing F := ⟨c.i, c.pos, c.aAlpha⟩

/-- The crossing on the second polygon. -/
def Meeting.onB (c : Meeting F) : Crossing F := ⟨c.j, c.pos, c.bAlpha⟩

/-- Two sides, from `p` to `q` and from `r` to `s`, have a common point, which is `x` along the first and `y` along the second (0 is the
begin of a side, 1 is its end). -/
structure Common (p q r s : V ℚ) (x y : ℚ) : Prop where
  x0 : 0 ≤ x
  x1 : x ≤ 1
  y0 : 0 ≤ y
  y1 : y ≤ 1
  ex : p.x + x * (q.x - p.x) = r.x + y * (s.x - r.x)
  ey : p.y + x * (q.y - p.y) = r.y + y * (s.y - r.y)

/-- The side of a polygon that ends at corner `i` goes from `p` to `q`. -/
def Side {α : Type} (ps : List α) (i : Nat) (p q : α) : Prop :=
  ps[i]? = some q ∧ ps[if i = 0 then ps.length - 1 else i - 1]? = some p

/-- The crossing is a common point of two sides of the polygons. -/
def Meets (ps qs : List (V ℚ)) (c : Meeting X) : Prop :=
  ∃ p q r s x y, Side ps c.i p q ∧ Side qs c.j r s ∧ Common p q r s x y ∧
    c.pos = ⟨.fin (p.x + x * (q.x - p.x)), .fin (p.y + x * (q.y - p.y))⟩ ∧ c.aAlpha = .fin x ∧ c.bAlpha = .fin y

/-- The product of the directions of two sides. It is zero if the sides are parallel. -/
def turn (p q r s : V ℚ) : ℚ := (q.x - p.x) * (s.y - r.y) - (q.y - p.y) * (s.x - r.x)

/-- Sides that have a common point are not parallel, and the point is not close to a corner. (The product of the directions of the two
sides must not be a certain number, see `C197_not_all`.) -/
def General (ps qs : List (V ℚ)) : Prop :=
  ∀ i j p q r s x y, Side ps i p q → Side qs j r s → Common p q r s x y →
    turn p q r s ≠ 0 ∧ turn p q r s ≠ 1 / 1000000 ∧ turn p q r s ≠ -1 / 1000000 ∧
    1 / 100000 < x ∧ x < 99999 / 100000 ∧ 1 / 100000 < y ∧ y < 99999 / 100000

/-- Part of a way around a polygon with `n` corners contains an odd number of crossings. -/
def oddCrossings (n : Nat) (l : List Nat) : Bool := decide ((l.filter fun x => decide (n ≤ x)).length % 2 = 1)

/-- A side crosses the ray from a point to the right: it is at the height of the point (of its ends the one with the greater `y`
counts as such, the other one does not), and its point at this height is to the right. -/
def OnRay (v p q : V ℚ) : Prop :=
  (q.y < v.y ∧ v.y ≤ p.y ∨ p.y < v.y ∧ v.y ≤ q.y) ∧
  ∃ t, 0 ≤ t ∧ t ≤ 1 ∧ p.y + t * (q.y - p.y) = v.y ∧ v.x < p.x + t * (q.x - p.x)

/-- Whether a point is inside of a polygon, by the even-odd rule: the ray to the right crosses an odd number of sides. -/
def Inside (ps : List (V ℚ)) (v : V ℚ) (inside : Bool) : Prop :=
  ∃ hit : List Nat, hit.Nodup ∧ (∀ i, i ∈ hit ↔ ∃ p q, Side ps i p q ∧ OnRay v p q) ∧ inside = decide (hit.length % 2 = 1)

/-- `vs'` is `vs` with marks: crossings alternate between exits and entries, and the first one after vertex 0 is an exit if `inside`. -/
structure Marked (n : Nat) (ring : List Nat) (inside : Bool) (vs vs' : Clip F) : Prop where
  originalSize : vs'.originalSize = vs.originalSize
  size : vs'.size = vs.size
  capacity : vs'.capacity = vs.capacity
  length : vs'.data.length = vs.data.length
  marks : ∀ pre x post v, ring = pre ++ x :: post → vs.data[x]? = some v →
    vs'.data[x]? = some { v with exit := decide (n ≤ x) && (inside != oddCrossings n pre) }

/-- A vertex of an emitted polygon: a corner of the first polygon, a corner of the second one, or a crossing. -/
inductive Pt
  | a (i : Nat)
  | b (j : Nat)
  | x (k : Nat)
  deriving DecidableEq, Repr

/-- A vertex of one of the two polygons (`second` is which one), which has `n` corners. -/
def pt (second : Bool) (n y : Nat) : Pt := if y < n then (if second then .b y else .a y) else .x (y - n)

/-- The point of a vertex of an emitted polygon. -/
def At (ps qs : List (V F)) (cs : List (Meeting F)) : Pt → V F → Prop
  | .a i, v => ps[i]? = some v
  | .b j, v => qs[j]? = some v
  | .x k, v => ∃ c, cs[k]? = some c ∧ c.pos = v

/-- The way around a polygon goes from `x` to `y`, and this piece of it is inside: `inside` is whether vertex 0 is inside, and each
crossing changes it. -/
def InsidePiece (n : Nat) (ring : List Nat) (inside : Bool) (x y : Nat) : Prop :=
  (x, y) ∈ sides ring ∧ ∃ pre post, ring = pre ++ x :: post ∧ (inside != oddCrossings n (pre ++ [x])) = true

/-- Polygons that consist of the inside pieces of two polygons with `n` and `m` corners and with `N` crossings: no vertex comes twice,
each crossing is one of the vertices, and the pieces are the sides of the polygons (in one of the two directions). -/
structure Pieces (n m N : Nat) (ra rb : List Nat) (ia ib : Bool) (polys : List (List Pt)) : Prop where
  nodup : polys.flatten.Nodup
  nonempty : ∀ poly ∈ polys, poly ≠ []
  crossing : ∀ k, .x k ∈ polys.flatten ↔ k < N
  piece : ∀ u v, (∃ poly ∈ polys, (u, v) ∈ sides poly ∨ (v, u) ∈ sides poly) ↔
    (∃ x y, InsidePiece n ra ia x y ∧ (u = pt false n x ∧ v = pt false n y ∨ u = pt false n y ∧ v = pt false n x)) ∨
    ∃ x y, InsidePiece m rb ib x y ∧ (u = pt true m x ∧ v = pt true m y ∨ u = pt true m y ∧ v = pt true m x)

/-- These polygons were emitted: their number, for each one where its vertices begin and how many there are, and the points of the
vertices. The number of all vertices is a number with 16 bits. -/
structure Output (ps qs : List (V F)) (cs : List (Meeting F)) (polys : List (List Pt)) (e : Emitted F) : Prop where
  polygons : e.polygons = polys.length
  used : e.used.toNat = polys.flatten.length % 65536
  entry : ∀ i poly, polys[i]? = some poly → e.entries[i]? = some (⟨(polys.take i).flatten.length, poly.length⟩ : Entry)
  vertex : ∀ (i : Nat) p, polys.flatten[i]? = some p → ∃ v, e.vertices[i]? = some v ∧ At ps qs cs p v

/-- The point on the way from `v` to `w`: `t` is 0 at the begin and 1 at the end. -/
def between (v w : V ℚ) (t : ℚ) : V ℚ := ⟨v.x + t * (w.x - v.x), v.y + t * (w.y - v.y)⟩

/-- Pieces of the way around a polygon (`second` is which one, it has `n` corners) are inside of the other polygon `other` or outside, as
`InsidePiece` says: so are all points between their ends. (This is about pieces of nonzero length.) -/
def Separated (ps qs : List (V ℚ)) (cs : List (Meeting X)) (second : Bool) (n : Nat) (ring : List Nat) (inside : Bool) (other : List (V ℚ)) :
    Prop :=
  ∀ x y v w t, (x, y) ∈ sides ring → At (ps.map fin) (qs.map fin) cs (pt second n x) (fin v) →
    At (ps.map fin) (qs.map fin) cs (pt second n y) (fin w) → v ≠ w → 0 < t → t < 1 →
    (Inside other (between v w t) true ↔ InsidePiece n ring inside x y) ∧ (Inside other (between v w t) false ↔ ¬ InsidePiece n ring inside x y)

/-- There is memory for `n` vertices, which can be numbered. -/
structure Memory (vs : Clip F) (n : Nat) : Prop where
  enough : n ≤ vs.capacity
  exists' : vs.capacity ≤ vs.data.length
  numbered : vs.capacity ≤ 65536

end Tm.Poly.Spec
