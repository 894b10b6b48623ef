import Verif.Pack.Spec

/-! # What the MaxRects functions are for -/

namespace Tm.Pack

open Tm

/-- Every cell of `q` is in `r`: `q` is a part of `r`. -/
def Within (q r : Rect) : Prop := r.left ≤ q.left ∧ q.left + q.width ≤ r.left + r.width ∧ r.top ≤ q.top ∧ q.top + q.height ≤ r.top + r.height

instance (q r : Rect) : Decidable (Within q r) := by unfold Within; infer_instance

/-- `q` is a place for a rectangle of this size: it has the size, perhaps turned, lies in the bin and shares no cell with those placed before. -/
def Place (W H : Int) (used : List Rect) (flip : Bool) (width height : Int) (q : Rect) : Prop :=
  ((q.width = width ∧ q.height = height) ∨ (flip = true ∧ q.width = height ∧ q.height = width)) ∧ Inside W H q ∧ ∀ r ∈ used, Apart q r

/-- Packs of this size that insertions and clears lead to. -/
inductive MReached (W H : Int) : Pack → Prop
  | create {dyn freeCap usedCap p} : create dyn W H freeCap usedCap = .ok p → MReached W H p
  | insert {p w h fit flip p' res} : MReached W H p → 1 ≤ w → 1 ≤ h → mInsertChoice p w h fit flip = .ok (p', res) → MReached W H p'
  | clear {p} : MReached W H p → MReached W H (clear p)

/-- The same if none of the inserted rectangles has exactly the size of one of the free rectangles there are at the time. -/
inductive NoExact (W H : Int) : Pack → Prop
  | create {dyn freeCap usedCap p} : create dyn W H freeCap usedCap = .ok p → NoExact W H p
  | insert {p w h fit flip p' res} : NoExact W H p → 1 ≤ w → 1 ≤ h → (∀ r ∈ p.free.live, ¬ ExactIn flip w h r) →
      mInsertChoice p w h fit flip = .ok (p', res) → NoExact W H p'
  | clear {p} : NoExact W H p → NoExact W H (clear p)

/-- The side by which two rectangles touch: the length of the part of `[a, a + n)` that lies in `[b, b + m)`. -/
def shared (a n b m : Int) : Int := max 0 (min (a + n) (b + m) - max a b)

/-- How much of the outline of a rectangle touches `c`. -/
def touching (r c : Rect) : Int :=
  (if c.left = r.left + r.width ∨ c.left + c.width = r.left then shared c.top c.height r.top r.height else 0) +
  (if c.top = r.top + r.height ∨ c.top + c.height = r.top then shared c.left c.width r.left r.width else 0)

/-- How much of the outline of a rectangle touches the sides of the bin, each direction counted once, and the rectangles placed before. -/
def touchingAll (W H : Int) (used : List Rect) (r : Rect) : Int :=
  (if r.left = 0 ∨ r.left + r.width = W then r.height else 0) + (if r.top = 0 ∨ r.top + r.height = H then r.width else 0) +
  (used.map (touching r)).sum

/-- What a rule ranks places by: first the one number, and among equal ones the other; less is better. `w` and `h` are the size of the rectangle
as it is placed, and `c` is the free rectangle. -/
def rank (W H : Int) (used : List Rect) (fit : MFit) (w h : Int) (c : Rect) : Int × Int :=
  match fit with
  | .shortSide => (min (c.width - w) (c.height - h), max (c.width - w) (c.height - h))
  | .longSide => (max (c.width - w) (c.height - h), min (c.width - w) (c.height - h))
  | .area => (c.width * c.height - w * h, min (c.width - w) (c.height - h))
  | .bottomLeft => (c.top + h, c.left)
  | .contact => (- touchingAll W H used ⟨c.left, c.top, w, h⟩, 0)

/-- Not worse. -/
def NotWorse (a b : Int × Int) : Prop := a.1 < b.1 ∨ (a.1 = b.1 ∧ a.2 ≤ b.2)

instance (a b : Int × Int) : Decidable (NotWorse a b) := by unfold NotWorse; infer_instance

/-- `res` is the best place for a rectangle of this size: it is at the corner of a free rectangle, and no other free rectangle and no other way
to put the rectangle into one is better. -/
def MBestPlace (W H : Int) (used : List Rect) (fit : MFit) (flip : Bool) (free : List Rect) (w h : Int) (res : Placed) : Prop :=
  ∃ f ∈ free, res.rect.left = f.left ∧ res.rect.top = f.top ∧ res.rect.width ≤ f.width ∧ res.rect.height ≤ f.height ∧
    ∀ r ∈ free, (FitsIn w h r → NotWorse (rank W H used fit res.rect.width res.rect.height f) (rank W H used fit w h r)) ∧
      (flip = true → FitsIn h w r → NotWorse (rank W H used fit res.rect.width res.rect.height f) (rank W H used fit h w r))

/-- `res` is the best place for `d`, and none of the other rectangles has a better one. -/
def MBestOf (W H : Int) (used : List Rect) (fit : MFit) (flip : Bool) (free : List Rect) (ds : List Dim) (res : Placed) : Prop :=
  ∀ e ∈ ds, MBestPlace W H used fit flip free e.width e.height res

/-- Insertion of rectangles one by one until there is room for none of the remaining. `Good p ds d res` says more about the rectangle that is
taken. The results carry the user data. -/
inductive Sequence (fit : MFit) (flip : Bool) (Good : Pack → List Dim → Dim → Placed → Prop) :
    Pack → List Dim → Pack → List (Placed × Nat) → List Dim → Prop
  | stop {p ds} : (∀ d ∈ ds, mInsertChoice p d.width d.height fit flip = .ok (p, notPlaced)) → Sequence fit flip Good p ds p [] ds
  | step {p ds d rest p1 res p' rs left} : ds.Perm (d :: rest) → Good p ds d res → mInsertChoice p d.width d.height fit flip = .ok (p1, res) →
      res.placed = true → Sequence fit flip Good p1 rest p' rs left → Sequence fit flip Good p ds p' ((res, d.user) :: rs) left

/-- The numbers a rule computes with are representable: for the area rule both areas, for the contact rule three times the half of the
outline. -/
def Representable (W H : Int) (fit : MFit) (w h : Int) : Prop :=
  match fit with
  | .area => W * H ≤ 2147483647 ∧ w * h ≤ 2147483647
  | .contact => 3 * (W + H) ≤ 2147483647
  | _ => True

/-- One insertion after the other. -/
def mInserts (fit : MFit) (flip : Bool) : Pack → List (Int × Int) → C Pack
  | p, [] => .ok p
  | p, (w, h) :: ds => do
    let x ← mInsertChoice p w h fit flip
    mInserts fit flip x.1 ds

end Tm.Pack
