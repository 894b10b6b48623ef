import Verif.Basic

/-!
# Model of tm_bin_packing.h

`tmbp_int` is the default `int32_t`. Every arithmetic result passes through `i32`, which is undefined behaviour when the result is
not representable. Functions that are the same up to the score they use are one definition with the score as a parameter.
-/

namespace Tm.Pack

open Tm

/-- The result of an operation on `tmbp_int`: lines 273-277. -/
def i32 (x : Int) : C Int := if -2147483648 ≤ x ∧ x ≤ 2147483647 then .ok x else .error .overflow

/-- `TMBP_INT_MAX` and `TMBP_INVALID_SCORE`, lines 275 and 286. -/
def intMax : Int := 2147483647

/-- `TMBP_INT_MIN`, line 277. -/
def intMin : Int := -2147483648

/-- `tmbp_rect`, line 268. -/
structure Rect where
  left : Int
  top : Int
  width : Int
  height : Int
deriving DecidableEq, Repr

/-- `tmbp_rect_array`, lines 309-313. `live` are the first `size` entries; `stale` are the entries after them that were written before
and are still in the memory. `block` tells apart the blocks of memory that the array had: it counts the reallocations. -/
structure Arr where
  live : List Rect
  stale : List Rect
  cap : Nat
  block : Nat
deriving DecidableEq, Repr

/-- `*tmbp_push(array, allocator) = x`, lines 556-572. `dyn`: there is a `reallocateFunc`. It is assumed to succeed. -/
def push (dyn : Bool) (a : Arr) (x : Rect) : C Arr :=
  if a.cap ≤ a.live.length then
    if dyn then .ok ⟨a.live ++ [x], [], (a.cap + 1) * 3 / 2, a.block + 1⟩ else .error .assertion
  else .ok { a with live := a.live ++ [x], stale := a.stale.drop 1 }

/-- `tmbp_unstable_erase`, lines 581-594. -/
def erase (a : Arr) (i : Nat) : C Arr := do
  assert (a.live.length ≤ a.cap)
  assert (i < a.live.length)
  match a.live.getLast? with
  | none => .error .assertion
  | some last => .ok { a with live := a.live.dropLast.set i last, stale := last :: a.stale }

/-- `array->data[i]`, also for entries behind the end of the array. An entry that was never written is indeterminate. -/
def entry (a : Arr) (i : Nat) : C Rect :=
  match (a.live ++ a.stale)[i]? with
  | some r => .ok r
  | none => .error .invalid

/-- `BinPack`, lines 315-324. `dyn`: there is a `reallocateFunc`. -/
structure Pack where
  width : Int
  height : Int
  usedArea : Int
  free : Arr
  used : Arr
  dyn : Bool
deriving DecidableEq, Repr

/-- `binPackInit`, lines 679-694, for arrays with memory for `freeCap` and `usedCap` entries. With `dyn` this is `binPackCreateEx`,
lines 605-623, if the allocations succeed; without, `binPackCreateStatic`, lines 660-678. -/
def create (dyn : Bool) (width height : Int) (freeCap usedCap : Nat) : C Pack := do
  let free ← push dyn ⟨[], [], freeCap, 0⟩ ⟨0, 0, width, height⟩
  .ok ⟨width, height, 0, free, ⟨[], [], usedCap, 0⟩, dyn⟩

/-- `binPackReset`, lines 636-650. -/
def reset (p : Pack) (width height : Int) : Pack :=
  { p with
    free := if p.free.cap ≠ 0 then { p.free with live := [⟨0, 0, width, height⟩], stale := (p.free.live ++ p.free.stale).drop 1 }
      else { p.free with live := [], stale := p.free.live ++ p.free.stale }
    used := { p.used with live := [], stale := p.used.live ++ p.used.stale }
    usedArea := 0 }

/-- `binPackClear`, line 651. -/
def clear (p : Pack) : Pack := reset p p.width p.height

/-- `tmbp_abs`, line 695. -/
def abs (v : Int) : C Int := if v < 0 then i32 (-v) else .ok v

/-- `guillotineScoreBestAreaFit`, lines 704-706. -/
def scoreArea (width height : Int) (r : Rect) : C Int := do
  let a ← i32 (r.width * r.height)
  let b ← i32 (width * height)
  i32 (a - b)

/-- The differences of the sides: lines 708-709, 714-715. -/
def leftovers (width height : Int) (r : Rect) : C (Int × Int) := do
  let a ← i32 (r.width - width)
  let horiz ← abs a
  let b ← i32 (r.height - height)
  let vert ← abs b
  .ok (horiz, vert)

/-- `guillotineScoreBestShortSideFit`, lines 707-712. -/
def scoreShort (width height : Int) (r : Rect) : C Int := do
  let (horiz, vert) ← leftovers width height r
  .ok (if horiz < vert then horiz else vert)

/-- `guillotineScoreBestLongSideFit`, lines 713-718. -/
def scoreLong (width height : Int) (r : Rect) : C Int := do
  let (horiz, vert) ← leftovers width height r
  .ok (if horiz < vert then vert else horiz)

/-- `GuillotineFreeRectChoiceHeuristic`, lines 327-331. -/
inductive Fit
  | area
  | shortSide
  | longSide
deriving DecidableEq, Repr

/-- The score of each heuristic. -/
def Fit.score : Fit → Int → Int → Rect → C Int
  | .area => scoreArea
  | .shortSide => scoreShort
  | .longSide => scoreLong

/-- `GuillotineSplitHeuristic`, lines 332-339. -/
inductive Split
  | shorterLeftover
  | longerLeftover
  | minArea
  | maxArea
  | shorterAxis
  | longerAxis
deriving DecidableEq, Repr

/-- `GuillotineHeuristicResult`, lines 347-351. -/
structure Choice where
  index : Nat
  score : Int
  flipped : Bool
deriving DecidableEq, Repr

/-- The loops of `guillotineBestAreaFit` (724-751), `guillotineBestShortSideFit` (758-785) and `guillotineBestLongSideFit` (792-819), and,
with `flip` false, of their `NoFlip` forms (852-867, 874-889, 896-911). -/
def bestFit (score : Int → Int → Rect → C Int) (flip : Bool) (width height : Int) : List Rect → Nat → Choice → C Choice
  | [], _, res => .ok res
  | c :: cs, i, res =>
    if width = c.width && height = c.height then .ok ⟨i, intMin, false⟩
    else if flip && (height = c.width && width = c.height) then .ok ⟨i, intMin, true⟩
    else if width ≤ c.width && height ≤ c.height then do
      let s ← score width height c
      bestFit score flip width height cs (i + 1) (if s < res.score then ⟨i, s, false⟩ else res)
    else if flip && (height ≤ c.width && width ≤ c.height) then do
      let s ← score height width c
      bestFit score flip width height cs (i + 1) (if s < res.score then ⟨i, s, true⟩ else res)
    else bestFit score flip width height cs (i + 1) res

/-- `guillotineChoice`, lines 822-846, and, with `flip` false, `guillotineChoiceNoFlip`, lines 914-938. -/
def choice (p : Pack) (width height : Int) (fit : Fit) (flip : Bool) : C Choice :=
  bestFit fit.score flip width height p.free.live 0 ⟨0, intMax, false⟩

/-- `binPackRectFromPosition`, lines 940-954. -/
def rectAt (p : Pack) (width height : Int) (index : Nat) (flipped : Bool) : C Rect := do
  let c ← entry p.free index
  .ok (if flipped then ⟨c.left, c.top, height, width⟩ else ⟨c.left, c.top, width, height⟩)

/-- Lines 962-992: whether the rest is split horizontally. `w` and `h` are the differences of lines 959-960. -/
def splitHorizontal (s : Split) (f r : Rect) (w h : Int) : C Bool :=
  match s with
  | .shorterLeftover => .ok (w ≤ h)
  | .longerLeftover => .ok (w > h)
  | .minArea => do
    let a ← i32 (r.width * h)
    let b ← i32 (w * r.height)
    .ok (a > b)
  | .maxArea => do
    let a ← i32 (r.width * h)
    let b ← i32 (w * r.height)
    .ok (a ≤ b)
  | .shorterAxis => .ok (f.width ≤ f.height)
  | .longerAxis => .ok (f.width > f.height)

/-- `guillotineSplitFreeRectByHeuristic`, lines 956-1015. -/
def splitFree (dyn : Bool) (a : Arr) (f r : Rect) (s : Split) : C Arr := do
  let w ← i32 (f.width - r.width)
  let h ← i32 (f.height - r.height)
  let horizontal ← splitHorizontal s f r w h
  let y ← i32 (f.top + r.height)
  let x ← i32 (f.left + r.width)
  let bottom : Rect := ⟨f.left, y, if horizontal then f.width else r.width, h⟩
  let right : Rect := ⟨x, f.top, w, if horizontal then r.height else f.height⟩
  let a ← if bottom.width > 0 && bottom.height > 0 then push dyn a bottom else .ok a
  if right.width > 0 && right.height > 0 then push dyn a right else .ok a

/-- `BinPackResult`, lines 341-345. -/
structure Placed where
  rect : Rect
  flipped : Bool
  placed : Bool
deriving DecidableEq, Repr

/-- What is returned when there is no room: line 1036. -/
def notPlaced : Placed := ⟨⟨0, 0, 0, 0⟩, false, false⟩

/-- Lines 1029-1030: the rectangle is noted. -/
def note (p : Pack) (r : Rect) : C Pack := do
  let used ← push p.dyn p.used r
  let area ← i32 (r.width * r.height)
  let total ← i32 (p.usedArea + area)
  .ok { p with used := used, usedArea := total }

/-- `guillotineInsert`, lines 1017-1032. -/
def insert (p : Pack) (width height : Int) (c : Choice) (s : Split) : C (Pack × Placed) := do
  assert (c.score ≠ intMax)
  let r ← rectAt p width height c.index c.flipped
  let f ← entry p.free c.index
  let free ← erase p.free c.index
  let free ← splitFree p.dyn free f r s
  let p ← note { p with free := free } r
  .ok (p, ⟨r, c.flipped, true⟩)

/-- `guillotineInsertChoice`, lines 1033-1047. -/
def insertChoice (p : Pack) (width height : Int) (fit : Fit) (s : Split) (flip : Bool) : C (Pack × Placed) := do
  let c ← choice p width height fit flip
  if c.score ≠ intMax then insert p width height c s else .ok (p, notPlaced)

/-- The inner loop of `guillotineMergeFreeRects`, lines 1105-1135. `freeRectsCount` is always the size of the array. -/
def mergeFrom : Nat → Arr → Nat → Nat → C Arr
  | 0, _, _, _ => .error .diverge
  | fuel + 1, arr, i, j =>
    if j < arr.live.length then do
      let a ← entry arr i
      let b ← entry arr j
      let join (m : Rect) : C Arr := do
        let arr ← erase { arr with live := arr.live.set i m } j
        mergeFrom fuel arr i j
      if a.left = b.left && a.width = b.width then do
        let bottom ← i32 (b.top + b.height)
        if a.top = bottom then do
          let top ← i32 (a.top - b.height)
          let height ← i32 (a.height + b.height)
          join { a with top := top, height := height }
        else do
          let bottom ← i32 (a.top + a.height)
          if bottom = b.top then do
            let height ← i32 (a.height + b.height)
            join { a with height := height }
          else mergeFrom fuel arr i (j + 1)
      else if a.top = b.top && a.height = b.height then do
        let right ← i32 (b.left + b.width)
        if a.left = right then do
          let left ← i32 (a.left - b.width)
          let width ← i32 (a.width + b.width)
          join { a with left := left, width := width }
        else do
          let right ← i32 (a.left + a.width)
          if right = b.left then do
            let width ← i32 (a.width + b.width)
            join { a with width := width }
          else mergeFrom fuel arr i (j + 1)
      else mergeFrom fuel arr i (j + 1)
    else .ok arr

/-- The outer loop, lines 1103-1136. -/
def mergeLoop : Nat → Arr → Nat → C Arr
  | 0, _, _ => .error .diverge
  | fuel + 1, arr, i =>
    if i < arr.live.length then do
      let arr ← mergeFrom (arr.live.length + 1) arr i (i + 1)
      mergeLoop fuel arr (i + 1)
    else .ok arr

/-- `guillotineMergeFreeRects`, lines 1098-1137. -/
def merge (p : Pack) : C Pack := do
  let free ← mergeLoop (p.free.live.length + 1) p.free 0
  .ok { p with free := free }

/-- `BinPackBatchDim`, lines 353-356. The user data is a number. -/
structure Dim where
  width : Int
  height : Int
  user : Nat
deriving DecidableEq, Repr

/-- Lines 1053-1072: the rectangle with the best score. The result is the choice and the index of the rectangle. -/
def bestDim (p : Pack) (fit : Fit) (flip : Bool) : List Dim → Nat → Choice × Nat → C (Choice × Nat)
  | [], _, best => .ok best
  | d :: ds, i, best => do
    let c ← choice p d.width d.height fit flip
    if c.score < best.1.score then
      if c.score = intMin then .ok (c, i) else bestDim p fit flip ds (i + 1) (c, i)
    else bestDim p fit flip ds (i + 1) best

/-- Lines 1089-1093: `dims[i]` and `dims[j]` change places. -/
def swap (ds : List Dim) (i j : Nat) : C (List Dim) := do
  let a ← rd ds i
  let b ← rd ds j
  .ok ((ds.set i b).set j a)

/-- `guillotineInsertBatch`, lines 1048-1096. The first argument is `dimsCount`. The result are the pack, `dims`, and the results with
the user data, in order. -/
def insertBatch (fit : Fit) (s : Split) (flip doMerge : Bool) : Nat → Pack → List Dim → C (Pack × List Dim × List (Placed × Nat))
  | 0, p, ds => .ok (p, ds, [])
  | n + 1, p, ds => do
    let (best, i) ← bestDim p fit flip (ds.take (n + 1)) 0 (⟨0, intMax, false⟩, 0)
    if best.score = intMax then .ok (p, ds, [])
    else do
      let d ← rd ds i
      let (p, r) ← insert p d.width d.height best s
      let p ← if doMerge then merge p else .ok p
      let ds ← if i ≠ n then swap ds i n else .ok ds
      let (p, ds, rs) ← insertBatch fit s flip doMerge n p ds
      .ok (p, ds, (r, d.user) :: rs)

/-! ### MaxRects -/

/-- `maxRectsCommonIntervalLength`, lines 1140-1145. -/
def commonLength (aStart aEnd bStart bEnd : Int) : C Int :=
  if aEnd < bStart || bEnd < aStart then .ok 0
  else i32 ((if aEnd < bEnd then aEnd else bEnd) - (if aStart < bStart then bStart else aStart))

/-- The loop of `maxRectsContactPointScore`, lines 1157-1166. -/
def contactLoop (left top right bottom : Int) : List Rect → Int → C Int
  | [], score => .ok score
  | c :: cs, score => do
    let cr ← i32 (c.left + c.width)
    let cb ← i32 (c.top + c.height)
    let score ← if c.left = right || cr = left then do
        let n ← commonLength c.top cb top bottom
        i32 (score + n)
      else .ok score
    let score ← if c.top = bottom || cb = top then do
        let n ← commonLength c.left cr left right
        i32 (score + n)
      else .ok score
    contactLoop left top right bottom cs score

/-- `maxRectsContactPointScore`, lines 1146-1167. -/
def contactScore (p : Pack) (left top right bottom : Int) : C Int := do
  let score ← if left = 0 || right = p.width then i32 (bottom - top) else .ok 0
  let score ← if top = 0 || bottom = p.height then do
      let n ← i32 (right - left)
      i32 (score + n)
    else .ok score
  contactLoop left top right bottom p.used.live score

/-- `MaxRectsFreeRectChoiceHeuristic`, lines 467-473. -/
inductive MFit
  | shortSide
  | longSide
  | area
  | bottomLeft
  | contact
deriving DecidableEq, Repr

/-- `MaxRectsHeuristicResult`, lines 475-479. -/
structure MChoice where
  index : Nat
  score0 : Int
  score1 : Int
  flipped : Bool
deriving DecidableEq, Repr

/-- The smaller first. -/
def minMax (x : Int × Int) : Int × Int := if x.1 < x.2 then (x.1, x.2) else (x.2, x.1)

/-- The scores of a rectangle of this size at a free rectangle, `scores[0]` and `scores[1]`: lines 1177-1180, 1217-1221, 1247-1250,
1286-1291 and 1325-1326. The second is not changed by the contact point rule. -/
def mScore (p : Pack) (fit : MFit) (width height : Int) (c : Rect) : C (Int × Int) :=
  match fit with
  | .shortSide => do
    let x ← leftovers width height c
    .ok (minMax x)
  | .longSide => do
    let x ← leftovers width height c
    .ok (minMax x)
  | .area => do
    let a ← i32 (c.width * c.height)
    let b ← i32 (width * height)
    let d ← i32 (a - b)
    let x ← leftovers width height c
    .ok (d, (minMax x).1)
  | .bottomLeft => do
    let y ← i32 (c.top + height)
    .ok (y, c.left)
  | .contact => do
    let r ← i32 (c.left + width)
    let b ← i32 (c.top + height)
    let n ← contactScore p c.left c.top r b
    let s ← i32 (-n)
    .ok (s, intMax)

/-- The comparison of the scores: lines 1182-1183, 1218, 1252-1253, 1293 and 1327. -/
def mBetter (fit : MFit) (s : Int × Int) (res : MChoice) : Bool :=
  match fit with
  | .longSide => s.2 < res.score1 || (s.2 = res.score1 && s.1 < res.score0)
  | .contact => s.1 < res.score0
  | _ => s.1 < res.score0 || (s.1 = res.score0 && s.2 < res.score1)

/-- One of the two blocks of the loops: the rectangle is tried as given, or flipped. -/
def mTry (p : Pack) (fit : MFit) (width height : Int) (flipped : Bool) (c : Rect) (i : Nat) (res : MChoice) : C MChoice :=
  if width ≤ c.width && height ≤ c.height then do
    let s ← mScore p fit width height c
    .ok (if mBetter fit s res then ⟨i, s.1, s.2, flipped⟩ else res)
  else .ok res

/-- The loops of `maxRectsBestShortSideFit` (1174-1205), `maxRectsBottomLeftRule` (1214-1235), `maxRectsBestLongSideFit` (1244-1275),
`maxRectsBestAreaFit` (1284-1313) and `maxRectsContactPointRule` (1322-1343) and, with `flip` false, of their `NoFlip` forms (1387-1403,
1412-1423, 1432-1448, 1457-1473, 1482-1493). For the area, the difference of the areas is computed first even if there is no room. -/
def mBest (p : Pack) (fit : MFit) (flip : Bool) (width height : Int) : List Rect → Nat → MChoice → C MChoice
  | [], _, res => .ok res
  | c :: cs, i, res => do
    if fit = .area then do
      let a ← i32 (c.width * c.height)
      let b ← i32 (width * height)
      let _ ← i32 (a - b)
    let res ← mTry p fit width height false c i res
    let res ← if flip then mTry p fit height width true c i res else .ok res
    mBest p fit flip width height cs (i + 1) res

/-- `maxRectsChoice`, lines 1347-1379, and, with `flip` false, `maxRectsChoiceNoFlip`, lines 1498-1529. -/
def mChoice (p : Pack) (width height : Int) (fit : MFit) (flip : Bool) : C MChoice :=
  mBest p fit flip width height p.free.live 0 ⟨0, intMax, intMax, false⟩

/-- `maxRectsHeuristicIsValidResult`, lines 529-531. -/
def MChoice.valid (c : MChoice) : Bool := c.score0 ≠ intMax || c.score1 ≠ intMax

/-- `*added = r` after `tmbp_push`, under a condition. -/
def pushIf (dyn c : Bool) (a : Arr) (r : C Rect) : C Arr :=
  if c then do
    let r ← r
    push dyn a r
  else .ok a

/-- `maxRectsSplitFreeNode`, lines 1531-1571. -/
def splitNode (dyn : Bool) (a : Arr) (f u : Rect) : C (Bool × Arr) := do
  let fr ← i32 (f.left + f.width)
  let fb ← i32 (f.top + f.height)
  let ur ← i32 (u.left + u.width)
  let ub ← i32 (u.top + u.height)
  if u.left ≥ fr || ur ≤ f.left || u.top ≥ fb || ub ≤ f.top then .ok (false, a)
  else do
    let a ← if u.left < fr && ur > f.left then do
        let a ← pushIf dyn (u.top > f.top && u.top < fb) a (do let h ← i32 (u.top - f.top); .ok { f with height := h })
        pushIf dyn (ub < fb) a (do let h ← i32 (fb - ub); .ok { f with top := ub, height := h })
      else .ok a
    let a ← if u.top < fb && ub > f.top then do
        let a ← pushIf dyn (u.left > f.left && u.left < fr) a (do let w ← i32 (u.left - f.left); .ok { f with width := w })
        pushIf dyn (ur < fr) a (do let w ← i32 (fr - ur); .ok { f with left := ur, width := w })
      else .ok a
    .ok (true, a)

/-- `maxRectsIsContainedIn`, lines 1573-1576. The sums are evaluated although the first comparisons may decide. -/
def containedIn (a b : Rect) : C Bool := do
  let ar ← i32 (a.left + a.width)
  let br ← i32 (b.left + b.width)
  let ab ← i32 (a.top + a.height)
  let bb ← i32 (b.top + b.height)
  .ok (a.left ≥ b.left && a.top ≥ b.top && ar ≤ br && ab ≤ bb)

/-- The inner loop of `maxRectsPruneFreeRects`, lines 1584-1598. The result says whether entry `i` was erased. -/
def pruneFrom : Nat → Arr → Nat → Nat → C (Bool × Arr)
  | 0, _, _, _ => .error .diverge
  | fuel + 1, arr, i, j =>
    if j < arr.live.length then do
      let a ← entry arr i
      let b ← entry arr j
      let ab ← containedIn a b
      if ab then do
        let arr ← erase arr i
        .ok (true, arr)
      else do
        let ba ← containedIn b a
        if ba then do
          let arr ← erase arr j
          pruneFrom fuel arr i j
        else pruneFrom fuel arr i (j + 1)
    else .ok (false, arr)

/-- The outer loop, lines 1582-1599. When entry `i` was erased, `--i` and `++i` cancel out. -/
def pruneLoop : Nat → Arr → Nat → C Arr
  | 0, _, _ => .error .diverge
  | fuel + 1, arr, i =>
    if i < arr.live.length then do
      let (erased, arr) ← pruneFrom (arr.live.length + 1) arr i (i + 1)
      pruneLoop fuel arr (if erased then i else i + 1)
    else .ok arr

/-- The loop of `maxRectsInsert`, lines 1612-1616. `freeRects` points into the block that the array had before the loop, and
`freeRectsCount` is its size before the loop; when the array has moved to another block, `freeRects[i]` is undefined. The first
argument is the number of iterations left. -/
def splitLoop (dyn : Bool) (u : Rect) (block : Nat) : Nat → Nat → Arr → C Arr
  | 0, _, a => .ok a
  | n + 1, i, a => do
    let f ← if a.block = block then entry a i else .error .invalid
    let (split, a) ← splitNode dyn a f u
    let a ← if split then erase a i else .ok a
    splitLoop dyn u block n (i + 1) a

/-- `maxRectsInsert`, lines 1602-1621. -/
def mInsert (p : Pack) (width height : Int) (c : MChoice) : C (Pack × Placed) := do
  assert c.valid
  let r ← rectAt p width height c.index c.flipped
  let free ← splitLoop p.dyn r p.free.block p.free.live.length 0 p.free
  let free ← pruneLoop (free.live.length + 1) free 0
  let p ← note { p with free := free } r
  .ok (p, ⟨r, c.flipped, true⟩)

/-- `maxRectsInsertChoice`, lines 1623-1638. -/
def mInsertChoice (p : Pack) (width height : Int) (fit : MFit) (flip : Bool) : C (Pack × Placed) := do
  let c ← mChoice p width height fit flip
  if c.valid then mInsert p width height c else .ok (p, notPlaced)

/-- Lines 1643-1658. -/
def mBestDim (p : Pack) (fit : MFit) (flip : Bool) : List Dim → Nat → MChoice × Nat → C (MChoice × Nat)
  | [], _, best => .ok best
  | d :: ds, i, best => do
    let c ← mChoice p d.width d.height fit flip
    if c.score0 < best.1.score0 || (c.score0 = best.1.score0 && c.score1 < best.1.score1) then mBestDim p fit flip ds (i + 1) (c, i)
    else mBestDim p fit flip ds (i + 1) best

/-- `maxRectsInsertBatch`, lines 1639-1677. -/
def mInsertBatch (fit : MFit) (flip : Bool) : Nat → Pack → List Dim → C (Pack × List Dim × List (Placed × Nat))
  | 0, p, ds => .ok (p, ds, [])
  | n + 1, p, ds => do
    let (best, i) ← mBestDim p fit flip (ds.take (n + 1)) 0 (⟨0, intMax, intMax, false⟩, 0)
    if !best.valid then .ok (p, ds, [])
    else do
      let d ← rd ds i
      let (p, r) ← mInsert p d.width d.height best
      let ds ← if i ≠ n then swap ds i n else .ok ds
      let (p, ds, rs) ← mInsertBatch fit flip n p ds
      .ok (p, ds, (r, d.user) :: rs)

end Tm.Pack
