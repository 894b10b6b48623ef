import Verif.Poly.Model

/-!
# Model of tm_bezier.h

`float` arithmetic is a parameter, as in `Poly/Model.lean`. A loop gets a number of iterations; exceeding it is the outcome `diverge`.
-/

namespace Tm.Bez
open Poly (Arith V)

variable {F : Type} (A : Arith F)

/-- `BezierForwardDifferencerData`, lines 76-82. -/
structure Data (F : Type) where
  h : F
  x : F
  y : F
  dx : F
  dy : F
  ddx : F
  ddy : F
  dddx : F
  dddy : F
  deriving DecidableEq, Repr

/-- `computeBezierForwardDifferencer`, lines 104-150, one coordinate: position, first, second and third difference. The code does the
same for x and for y. -/
def coordinate (h p0 p1 p2 p3 : F) : F × F × F × F :=
  let p0_3 := A.mul p0 (A.lit 3)
  let p1_3 := A.mul p1 (A.lit 3)
  let p2_3 := A.mul p2 (A.lit 3)
  let a := A.add (A.add (A.add (A.neg p0) p1_3) (A.neg p2_3)) p3
  let b := A.add (A.add p0_3 (A.mul (A.lit (-6)) p1)) p2_3
  let c := A.add (A.neg p0_3) p1_3
  let h2 := A.mul h h
  let h3 := A.mul h2 h
  let h3_6 := A.mul h3 (A.lit 6)
  let h2_2 := A.mul h2 (A.lit 2)
  let d := A.add (A.add (A.mul a h3) (A.mul b h2)) (A.mul c h)
  let ddd := A.mul a h3_6
  let dd := A.add ddd (A.mul b h2_2)
  (p0, d, dd, ddd)

/-- `computeBezierForwardDifferencer`, lines 104-150. -/
def compute (steps : Int) (x0 y0 x1 y1 x2 y2 x3 y3 : F) : Data F :=
  let h := A.div (A.lit 1) (A.lit steps)
  let x := coordinate A h x0 x1 x2 x3
  let y := coordinate A h y0 y1 y2 y3
  ⟨h, x.1, y.1, x.2.1, y.2.1, x.2.2.1, y.2.2.1, x.2.2.2, y.2.2.2⟩

/-- The variables of the loops: `current`, the position, first and second differences. -/
structure Walk (F : Type) where
  current : F
  px : F
  py : F
  dx : F
  dy : F
  ddx : F
  ddy : F
  deriving DecidableEq, Repr

/-- The initialisation, lines 162-169 and 210-217. -/
def first (data : Data F) : Walk F :=
  ⟨A.lit 0, A.add data.x data.dx, A.add data.y data.dy, data.dx, data.dy, data.ddx, data.ddy⟩

/-- The step of the loops, lines 187-193 and 233-239. -/
def advance (data : Data F) (w : Walk F) : Walk F :=
  let dx := A.add w.dx w.ddx
  let dy := A.add w.dy w.ddy
  ⟨A.add w.current data.h, A.add w.px dx, A.add w.py dy, dx, dy, A.add w.ddx data.dddx, A.add w.ddy data.dddy⟩

/-- The loop of `evaluateBezierForwardDifferencer`, lines 173-194. -/
def evaluateLoop (data : Data F) (t : F) : Nat → Walk F → C (V F)
  | 0, _ => .error .diverge
  | fuel + 1, w =>
    if A.le t w.current then
      let lastx := A.sub w.px w.dx
      let lasty := A.sub w.py w.dy
      let diff := A.div (A.sub w.current t) data.h
      .ok ⟨A.add lastx (A.mul (A.sub w.px lastx) diff), A.add lasty (A.mul (A.sub w.py lasty) diff)⟩
    else if A.le (A.lit 1) w.current then .ok ⟨w.px, w.py⟩
    else evaluateLoop data t fuel (advance A data w)

/-- `evaluateBezierForwardDifferencer`, lines 151-197. -/
def evaluate (fuel : Nat) (data : Data F) (t : F) : C (V F) := do
  assert (A.lt (A.lit 0) data.h)
  evaluateLoop A data t fuel (first A data)

/-- The loop of `evaluateBezierForwardDifferencerFromX`, lines 221-242. -/
def fromXLoop (data : Data F) (x : F) : Nat → Walk F → C F
  | 0, _ => .error .diverge
  | fuel + 1, w =>
    if A.le x w.px then
      let lastx := A.sub w.px w.dx
      let lasty := A.sub w.py w.dy
      let diff := A.div (A.sub x lastx) (A.sub w.px lastx)
      .ok (A.add lasty (A.mul (A.sub w.py lasty) diff))
    else if A.le (A.lit 1) w.current then .ok (A.sub w.py w.dy)
    else fromXLoop data x fuel (advance A data w)

/-- `evaluateBezierForwardDifferencerFromX`, lines 198-243. -/
def fromX (fuel : Nat) (data : Data F) (x : F) : C F := do
  assert (A.lt (A.lit 0) data.h)
  fromXLoop A data x fuel (first A data)

end Tm.Bez
