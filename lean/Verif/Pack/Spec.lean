import Verif.Pack.Model

/-!
# Rectangles in a bin

What the theorems about packing speak of: cells of the plane, and sizes.
-/

namespace Tm.Pack

open Tm

/-- The unit cell with this corner lies in the rectangle. -/
def Covers (r : Rect) (x y : Int) : Prop := r.left ≤ x ∧ x < r.left + r.width ∧ r.top ≤ y ∧ y < r.top + r.height

instance (r : Rect) (x y : Int) : Decidable (Covers r x y) := by unfold Covers; infer_instance

/-- The rectangle lies in the bin of this size. -/
def Inside (width height : Int) (r : Rect) : Prop :=
  0 ≤ r.left ∧ 0 ≤ r.top ∧ r.left + r.width ≤ width ∧ r.top + r.height ≤ height

instance (w h : Int) (r : Rect) : Decidable (Inside w h r) := by unfold Inside; infer_instance

/-- The rectangles have no cell in common. -/
def Apart (r s : Rect) : Prop := ∀ x y, ¬ (Covers r x y ∧ Covers s x y)

/-- The area. -/
def area (r : Rect) : Int := r.width * r.height

/-- The sum of the areas. -/
def areas (l : List Rect) : Int := (l.map area).sum

/-- How many of the rectangles cover a cell. -/
def covering (l : List Rect) (x y : Int) : Nat := l.countP fun r => decide (Covers r x y)

/-- A rectangle of this size fits into `r`. -/
def FitsIn (width height : Int) (r : Rect) : Prop := width ≤ r.width ∧ height ≤ r.height

instance (w h : Int) (r : Rect) : Decidable (FitsIn w h r) := by unfold FitsIn; infer_instance

/-- There is room for a rectangle of this size in `r`, which may be turned if `flip`. -/
def RoomIn (flip : Bool) (width height : Int) (r : Rect) : Prop := FitsIn width height r ∨ (flip = true ∧ FitsIn height width r)

/-- What is left over when a rectangle is put into `r`: the area, or the shorter or the longer of the leftover sides. -/
def leftover (fit : Fit) (width height : Int) (r : Rect) : Int :=
  match fit with
  | .area => r.width * r.height - width * height
  | .shortSide => min (r.width - width) (r.height - height)
  | .longSide => max (r.width - width) (r.height - height)

/-- What is left over when a rectangle is put into `r`, turned only if it does not fit as it is. -/
def leftoverEither (fit : Fit) (width height : Int) (r : Rect) : Int :=
  if FitsIn width height r then leftover fit width height r else leftover fit height width r

/-- The rectangle, turned if `flip`, has exactly the size of `r`. -/
def ExactIn (flip : Bool) (width height : Int) (r : Rect) : Prop :=
  (width = r.width ∧ height = r.height) ∨ (flip = true ∧ height = r.width ∧ width = r.height)

/-- The size of a placed rectangle is the size that was asked for. -/
def Sized (flip : Bool) (width height : Int) (res : Placed) : Prop :=
  if res.flipped then flip = true ∧ res.rect.width = height ∧ res.rect.height = width
  else res.rect.width = width ∧ res.rect.height = height

/-- `res` is the best place for `d` in `free`, and no other of `dims` has a better one: it is at the corner of a free rectangle in which
there is room, and either fills it completely, or none of `dims` fills any free rectangle completely and the least is left over. -/
def BestPlace (fit : Fit) (flip : Bool) (free : List Rect) (dims : List Dim) (d : Dim) (res : Placed) : Prop :=
  ∃ f ∈ free, res.rect.left = f.left ∧ res.rect.top = f.top ∧ res.rect.width ≤ f.width ∧ res.rect.height ≤ f.height ∧
    (ExactIn flip d.width d.height f ∨
      (∀ d' ∈ dims, ∀ r ∈ free, ¬ ExactIn flip d'.width d'.height r ∧
        (RoomIn flip d'.width d'.height r → leftoverEither fit d.width d.height f ≤ leftoverEither fit d'.width d'.height r)))

/-- What is left below `r` when it is put into the corner of `f`. If the cut is `horizontal` it is as wide as `f`, and else as wide as `r`. -/
def below (horizontal : Bool) (f r : Rect) : Rect :=
  ⟨f.left, f.top + r.height, if horizontal then f.width else r.width, f.height - r.height⟩

/-- What is left beside `r`. If the cut is `horizontal` it is as high as `r`, and else as high as `f`. -/
def beside (horizontal : Bool) (f r : Rect) : Rect :=
  ⟨f.left + r.width, f.top, f.width - r.width, if horizontal then r.height else f.height⟩

/-- The area of the smaller of both. -/
def smaller (horizontal : Bool) (f r : Rect) : Int := min (area (below horizontal f r)) (area (beside horizontal f r))

/-- The rule for the direction of the cut: by the leftover sides, by the sides of the free rectangle, or so that the smaller of both parts is as
small or as large as it can be. -/
def Rule (s : Split) (f r : Rect) (horizontal : Bool) : Prop :=
  match s with
  | .shorterLeftover => horizontal = true ↔ f.width - r.width ≤ f.height - r.height
  | .longerLeftover => horizontal = true ↔ f.height - r.height < f.width - r.width
  | .minArea => smaller horizontal f r ≤ smaller (!horizontal) f r
  | .maxArea => smaller (!horizontal) f r ≤ smaller horizontal f r
  | .shorterAxis => horizontal = true ↔ f.width ≤ f.height
  | .longerAxis => horizontal = true ↔ f.height < f.width

/-- Both rectangles together are a rectangle. -/
def Joinable (a b : Rect) : Prop := ∃ m : Rect, ∀ x y, Covers m x y ↔ Covers a x y ∨ Covers b x y

/-- Uses of a pack with the guillotine functions. -/
inductive Op
  | insert (width height : Int) (fit : Fit) (split : Split) (flip : Bool)
  | batch (dims : List Dim) (fit : Fit) (split : Split) (flip merge : Bool)
  | merge
  | clear

/-- The number of rectangles that are to be inserted. -/
def Op.size : Op → Nat
  | .insert .. => 1
  | .batch dims .. => dims.length
  | _ => 0

/-- The sizes are positive. -/
def Op.Positive : Op → Prop
  | .insert w h .. => 1 ≤ w ∧ 1 ≤ h
  | .batch dims .. => ∀ d ∈ dims, 1 ≤ d.width ∧ 1 ≤ d.height
  | _ => True

/-- One use. -/
def step (p : Pack) : Op → C Pack
  | .insert w h fit split flip => do
    let (p, _) ← insertChoice p w h fit split flip
    .ok p
  | .batch dims fit split flip m => do
    let (p, _) ← insertBatch fit split flip m dims.length p dims
    .ok p
  | .merge => merge p
  | .clear => .ok (clear p)

/-- Merging several times. -/
def merges (p : Pack) : Nat → C Pack
  | 0 => .ok p
  | n + 1 => do
    let p ← merge p
    merges p n

/-- Any number of uses, one after the other. -/
def run (p : Pack) : List Op → C Pack
  | [] => .ok p
  | op :: ops => do
    let p ← step p op
    run p ops

/-- Insertion of rectangles one by one, always the one of the remaining that has the best place, until there is room for none of them;
`m`: after each the free rectangles are merged. The results carry the user data. The rectangles `left` are left over. -/
inductive Greedy (fit : Fit) (split : Split) (flip m : Bool) : Pack → List Dim → Pack → List (Placed × Nat) → List Dim → Prop
  | stop {p ds} : (∀ d ∈ ds, ∀ r ∈ p.free.live, ¬ RoomIn flip d.width d.height r) → Greedy fit split flip m p ds p [] ds
  | step {p ds d rest p1 p2 res p' rs left} : ds.Perm (d :: rest) → insertChoice p d.width d.height fit split flip = .ok (p1, res) →
      res.placed = true → BestPlace fit flip p.free.live ds d res → (if m then merge p1 = .ok p2 else p2 = p1) →
      Greedy fit split flip m p2 rest p' rs left → Greedy fit split flip m p ds p' ((res, d.user) :: rs) left

/-- Memory for `n` rectangles: memory that grows, or the sizes that the library recommends. -/
def Memory (dyn : Bool) (freeCap usedCap n : Nat) : Prop := dyn = true ∨ (2 * n ≤ freeCap ∧ 1 ≤ freeCap ∧ n ≤ usedCap)

/-- `p` is a pack of this size after any number of uses, with memory for `more` rectangles. -/
def Reached (width height : Int) (more : Nat) (p : Pack) : Prop :=
  1 ≤ width ∧ 1 ≤ height ∧ width * height ≤ 2147483647 ∧
  ∃ dyn freeCap usedCap p0 ops, Memory dyn freeCap usedCap ((ops.map Op.size).sum + more) ∧ (∀ op ∈ ops, op.Positive) ∧
    create dyn width height freeCap usedCap = .ok p0 ∧ run p0 ops = .ok p

end Tm.Pack
