import Verif.FrameBuffer.Model
/-!
# Model of `graphics/BaseGeometry.h`, `graphics/Canvas.h` and `graphics/Canvas.cpp`

Every drawing routine is modelled as the sequence of physical points it passes to `setIfVisible`
(no routine reads the frame buffer, so the sequence does not depend on it); `paint` then executes
`setIfVisible` for each of them on a `SimpleFrameBuffer`.  All `int` arithmetic is checked: overflow
is `ub`.  Text (`drawCharAt`, `drawStringAt`) is in `Verif.Canvas.Text`.
-/
namespace Verif.Canvas
open Verif.FrameBuffer

/-- BaseGeometry.h:36-40 `Point<int>`. -/
structure Pt where
  x : Int
  y : Int
deriving DecidableEq

/-- BaseGeometry.h:9-13 `Size<int>`. -/
structure Sz where
  width : Int
  height : Int
deriving DecidableEq

/-- BaseGeometry.h:65-69 `Rect<int>`. -/
structure Rect where
  topLeft : Pt
  size : Sz
deriving DecidableEq

/-- BaseGeometry.h:20-23 `Size::operator-`. -/
def Sz.sub (a b : Sz) : Res Sz := do
  let w ← chk (a.width - b.width)
  let h ← chk (a.height - b.height)
  .ok ⟨w, h⟩

/-- BaseGeometry.h:42-45 `Point::operator+`. -/
def Pt.add (p : Pt) (s : Sz) : Res Pt := do
  let x ← chk (p.x + s.width)
  let y ← chk (p.y + s.height)
  .ok ⟨x, y⟩

/-- BaseGeometry.h:91-94 `bottomLeft()`. -/
def Rect.bottomLeft (r : Rect) : Res Pt := do
  let a ← chk (r.topLeft.y + r.size.height)
  let y ← chk (a - 1)
  .ok ⟨r.topLeft.x, y⟩

/-- BaseGeometry.h:96-99 `topRight()`. -/
def Rect.topRight (r : Rect) : Res Pt := do
  let a ← chk (r.topLeft.x + r.size.width)
  let x ← chk (a - 1)
  .ok ⟨x, r.topLeft.y⟩

/-- BaseGeometry.h:101-104 `bottomRight()`. -/
def Rect.bottomRight (r : Rect) : Res Pt := do
  let s ← r.size.sub ⟨1, 1⟩
  r.topLeft.add s

/-- BaseGeometry.h:107-120 `Matrix2x2<int>`. -/
structure Mat where
  a : Int
  b : Int
  c : Int
  d : Int
deriving DecidableEq

/-- BaseGeometry.h:113-116 `operator*`. -/
def Mat.mul (m : Mat) (v : Pt) : Res Pt := do
  let p ← chk (m.a * v.x)
  let q ← chk (m.b * v.y)
  let x ← chk (p + q)
  let r ← chk (m.c * v.x)
  let s ← chk (m.d * v.y)
  let y ← chk (r + s)
  .ok ⟨x, y⟩

/-- Canvas.h:15. -/
inductive Rotation where
  | r0 | r90 | r180 | r270
deriving DecidableEq

/-- Canvas.h:92-94, without the frame buffer reference. -/
structure Canvas where
  size : Sz
  rotate : Rotation
deriving DecidableEq

/-- Canvas.h:22-27: the constructor. -/
def Canvas.new (g : Geom) : Canvas := ⟨⟨g.getWidth, g.getHeight⟩, .r0⟩

/-- Canvas.h:53 `setRotation`. -/
def Canvas.setRotation (c : Canvas) (r : Rotation) : Canvas := { c with rotate := r }

/-- Canvas.h:39-50 `getSize()`. -/
def Canvas.getSize (c : Canvas) : Sz :=
  match c.rotate with
  | .r90 => ⟨c.size.height, c.size.width⟩
  | .r270 => ⟨c.size.height, c.size.width⟩
  | _ => c.size

/-- Canvas.cpp:160-174 `transformCoords(Point)`. -/
def Canvas.transformPt (c : Canvas) (p : Pt) : Res Pt :=
  match c.rotate with
  | .r90 => do
    let a ← chk (c.size.width - 1)
    let x ← chk (a - p.y)
    .ok ⟨x, p.x⟩
  | .r180 => do
    let a ← chk (c.size.width - 1)
    let x ← chk (a - p.x)
    let b ← chk (c.size.height - 1)
    let y ← chk (b - p.y)
    .ok ⟨x, y⟩
  | .r270 => do
    let b ← chk (c.size.height - 1)
    let y ← chk (b - p.x)
    .ok ⟨p.y, y⟩
  | .r0 => .ok ⟨p.x, p.y⟩

/-- Canvas.cpp:176-189 `transformCoords(Rect)`. -/
def Canvas.transformRect (c : Canvas) (r : Rect) : Res Rect :=
  match c.rotate with
  | .r90 => do
    let p ← r.bottomLeft
    let q ← c.transformPt p
    .ok ⟨q, ⟨r.size.height, r.size.width⟩⟩
  | .r180 => do
    let p ← r.bottomRight
    let q ← c.transformPt p
    .ok ⟨q, r.size⟩
  | .r270 => do
    let p ← r.topRight
    let q ← c.transformPt p
    .ok ⟨q, ⟨r.size.height, r.size.width⟩⟩
  | .r0 => .ok r

/-- Canvas.cpp:191-204 `getTransformMatrix()`. -/
def Canvas.matrix (c : Canvas) : Mat :=
  match c.rotate with
  | .r90 => ⟨0, -1, 1, 0⟩
  | .r180 => ⟨-1, 0, 0, -1⟩
  | .r270 => ⟨0, 1, -1, 0⟩
  | .r0 => ⟨1, 0, 0, 1⟩

/-- Canvas.cpp:206-219 `getShifts()`. -/
def Canvas.shifts (c : Canvas) : Res Sz :=
  match c.rotate with
  | .r90 => do
    let w ← chk (c.size.width - 1)
    .ok ⟨w, 0⟩
  | .r180 => do
    let w ← chk (c.size.width - 1)
    let h ← chk (c.size.height - 1)
    .ok ⟨w, h⟩
  | .r270 => do
    let h ← chk (c.size.height - 1)
    .ok ⟨0, h⟩
  | .r0 => .ok ⟨0, 0⟩

/-- The condition of Canvas.h:86. -/
def Canvas.visible (c : Canvas) (p : Pt) : Bool :=
  decide (p.x ≥ 0) && decide (p.x < c.size.width) && decide (p.y ≥ 0) && decide (p.y < c.size.height)

/-- Canvas.h:84-90 `setIfVisible`. -/
def Canvas.setIfVisible (c : Canvas) (g : Geom) (fb : FB) (p : Pt) : Res FB :=
  if c.visible p then fb.drawPixel g p.x p.y else .ok fb

/-- `setIfVisible` for each point in turn. -/
def Canvas.paint (c : Canvas) (g : Geom) : FB → List Pt → Res FB
  | fb, [] => .ok fb
  | fb, p :: ps => do
    let fb' ← c.setIfVisible g fb p
    c.paint g fb' ps

/-- Canvas.h:57-60 `drawPixel`. -/
def Canvas.pixelPts (c : Canvas) (p : Pt) : Res (List Pt) := do
  let q ← c.transformPt p
  .ok [q]

/-- The loop of `drawHorizontalLine`, Canvas.cpp:82-88: `n` iterations. -/
def hLoop (p : Pt) : Nat → Res (List Pt)
  | 0 => .ok []
  | n + 1 => do
    let x ← chk (p.x + 1)
    let ps ← hLoop { p with x := x } n
    .ok (p :: ps)

/-- Canvas.cpp:82-88 `drawHorizontalLine`. -/
def hLine (p : Pt) (width : Int) : Res (List Pt) := hLoop p width.toNat

/-- The loop of `drawVerticalLine`, Canvas.cpp:90-96: `n` iterations. -/
def vLoop (p : Pt) : Nat → Res (List Pt)
  | 0 => .ok []
  | n + 1 => do
    let y ← chk (p.y + 1)
    let ps ← vLoop { p with y := y } n
    .ok (p :: ps)

/-- Canvas.cpp:90-96 `drawVerticalLine`. -/
def vLine (p : Pt) (height : Int) : Res (List Pt) := vLoop p height.toNat

/-- `std::abs(int)`: undefined for INT_MIN. -/
def iabs (v : Int) : Res Int := chk (if v < 0 then -v else v)

/-- The references `longCoord`/`shortCoord` (Canvas.cpp:56-57) seen as accessors. -/
def longOf (moveY : Bool) (p : Pt) : Int := if moveY then p.y else p.x
def shortOf (moveY : Bool) (p : Pt) : Int := if moveY then p.x else p.y
/-- The point with the given long and short coordinates. -/
def ptOf (moveY : Bool) (long short : Int) : Pt := if moveY then ⟨short, long⟩ else ⟨long, short⟩

/-- The loop Canvas.cpp:69-79: `n` iterations; `long`, `short` are the coordinates of `start`. -/
def bresLoop (moveY : Bool) (shortDiff longDiff sign : Int) (long short err : Int) : Nat → Res (List Pt)
  | 0 => .ok []
  | n + 1 => do
    let err ← chk (err - shortDiff)
    let (short', err') ← (if err < 0 then do
        let s ← chk (short + sign)
        let e ← chk (err + longDiff)
        .ok (s, e)
      else .ok (short, err) : Res (Int × Int))
    let long' ← chk (long + 1)
    let ps ← bresLoop moveY shortDiff longDiff sign long' short' err' n
    .ok (ptOf moveY long short :: ps)

/-- Canvas.cpp:31-80 `drawLine`. -/
def Canvas.linePts (c : Canvas) (start0 end0 : Pt) : Res (List Pt) := do
  let start ← c.transformPt start0
  let end_ ← c.transformPt end0
  let dx ← chk (end_.x - start.x)
  let diffX ← iabs dx
  let dy ← chk (end_.y - start.y)
  let diffY ← iabs dy
  if diffX = 0 then do
    let h ← chk (diffY + 1)
    vLine ⟨start.x, min start.y end_.y⟩ h
  else if diffY = 0 then do
    let w ← chk (diffX + 1)
    hLine ⟨min start.x end_.x, start.y⟩ w
  else do
    let moveY := decide (diffY > diffX)
    let shortDiff := if moveY then diffX else diffY
    let longDiff := if moveY then diffY else diffX
    let (s, e) := if longOf moveY start > longOf moveY end_ then (end_, start) else (start, end_)
    let err := longDiff.tdiv 2
    let sign : Int := if shortOf moveY s < shortOf moveY e then 1 else -1
    bresLoop moveY shortDiff longDiff sign (longOf moveY s) (shortOf moveY s) err
      (longOf moveY e - longOf moveY s + 1).toNat

/-- Canvas.cpp:98-105 `drawRectangle`. -/
def Canvas.rectPts (c : Canvas) (r0 : Rect) : Res (List Pt) := do
  let r ← c.transformRect r0
  let a ← hLine r.topLeft r.size.width
  let bl ← r.bottomLeft
  let b ← hLine bl r.size.width
  let d ← vLine r.topLeft r.size.height
  let tr ← r.topRight
  let e ← vLine tr r.size.height
  .ok (a ++ b ++ d ++ e)

/-- The loop Canvas.cpp:118-122: `n` iterations. -/
def fillLoop (p : Pt) (width : Int) : Nat → Res (List Pt)
  | 0 => .ok []
  | n + 1 => do
    let row ← hLine p width
    let y ← chk (p.y + 1)
    let ps ← fillLoop { p with y := y } width n
    .ok (row ++ ps)

/-- Canvas.cpp:107-123 `drawFilledRectangle`. -/
def Canvas.fillRectPts (c : Canvas) (r0 : Rect) : Res (List Pt) := do
  let r ← c.transformRect r0
  let br0 ← r.bottomRight
  let tl : Pt := ⟨max r.topLeft.x 0, max r.topLeft.y 0⟩
  let mx ← chk (c.size.width - 1)
  let my ← chk (c.size.height - 1)
  let br : Pt := ⟨min br0.x mx, min br0.y my⟩
  let w0 ← chk (br.x - tl.x)
  let width ← chk (w0 + 1)
  fillLoop tl width (br.y - tl.y + 1).toNat

/-- One round of the circle loop: the points of Canvas.cpp:135-143. -/
def circleRound (center : Pt) (xPos yPos : Int) (filled : Bool) : Res (List Pt) := do
  let nx ← chk (-xPos)
  let ny ← chk (-yPos)
  let p1 ← center.add ⟨nx, yPos⟩
  let p2 ← center.add ⟨xPos, yPos⟩
  let p3 ← center.add ⟨xPos, ny⟩
  let p4 ← center.add ⟨nx, ny⟩
  if filled then do
    let w0 ← chk (2 * nx)
    let w ← chk (w0 + 1)
    let a ← hLine p2 w
    let b ← hLine p3 w
    .ok ([p1, p2, p3, p4] ++ a ++ b)
  else .ok [p1, p2, p3, p4]

/-- The step Canvas.cpp:144-156: new `(xPos, yPos, err)`. -/
def circleStep (xPos yPos err : Int) : Res (Int × Int × Int) := do
  let (yPos, err, e2) ← (if err ≤ yPos then do
      let y ← chk (yPos + 1)
      let a ← chk (y * 2)
      let b ← chk (a + 1)
      let e ← chk (err + b)
      let nx ← chk (-xPos)
      .ok (y, e, if nx = y ∧ err ≤ xPos then 0 else err)
    else .ok (yPos, err, err) : Res (Int × Int × Int))
  if e2 > xPos then do
    let x ← chk (xPos + 1)
    let a ← chk (x * 2)
    let b ← chk (a + 1)
    let e ← chk (err + b)
    .ok (x, yPos, e)
  else .ok (xPos, yPos, err)

/-- The do-while loop Canvas.cpp:133-157. -/
def circleLoop (center : Pt) (filled : Bool) (xPos yPos err : Int) : Nat → Res (List Pt)
  | 0 => .hang
  | fuel + 1 => do
    let ps ← circleRound center xPos yPos filled
    let (x, y, e) ← circleStep xPos yPos err
    if x ≤ 0 then do
      let qs ← circleLoop center filled x y e fuel
      .ok (ps ++ qs)
    else .ok ps

/-- Canvas.cpp:125-158 `drawCircle`.  Every second round at least moves `xPos` (proved), so the fuel
suffices. -/
def Canvas.circlePts (c : Canvas) (center0 : Pt) (radius : Int) (filled : Bool) : Res (List Pt) := do
  let center ← c.transformPt center0
  let x ← chk (-radius)
  let t ← chk (2 * radius)
  let err ← chk (2 - t)
  circleLoop center filled x 0 err (2 * radius.natAbs + 4)

/-! ## The drawing calls on a frame buffer -/

/-- Canvas.h:57-60. -/
def Canvas.drawPixel (c : Canvas) (g : Geom) (fb : FB) (p : Pt) : Res FB := do
  c.paint g fb (← c.pixelPts p)
/-- Canvas.cpp:31-80. -/
def Canvas.drawLine (c : Canvas) (g : Geom) (fb : FB) (a b : Pt) : Res FB := do
  c.paint g fb (← c.linePts a b)
/-- Canvas.cpp:98-105. -/
def Canvas.drawRectangle (c : Canvas) (g : Geom) (fb : FB) (r : Rect) : Res FB := do
  c.paint g fb (← c.rectPts r)
/-- Canvas.cpp:107-123. -/
def Canvas.drawFilledRectangle (c : Canvas) (g : Geom) (fb : FB) (r : Rect) : Res FB := do
  c.paint g fb (← c.fillRectPts r)
/-- Canvas.cpp:125-158. -/
def Canvas.drawCircle (c : Canvas) (g : Geom) (fb : FB) (p : Pt) (radius : Int) (filled : Bool) : Res FB := do
  c.paint g fb (← c.circlePts p radius filled)

end Verif.Canvas
