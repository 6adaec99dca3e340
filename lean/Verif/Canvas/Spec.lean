import Verif.Canvas.Model
import Verif.FrameBuffer.Props
/-!
# What drawing means

The canvas shows a logical screen of `getSize()` pixels.  `phys` says which physical pixel shows a
logical one, for a frame buffer of `W × H` physical pixels; `Paints` says that exactly the logical
pixels of a set got the current colour.
-/
namespace Verif.Canvas
open Verif.FrameBuffer

/-- The physical pixel showing logical pixel `p`: the logical screen turned clockwise by the angle. -/
def phys (r : Rotation) (W H : Int) (p : Pt) : Pt :=
  match r with
  | .r0 => p
  | .r90 => ⟨W - 1 - p.y, p.x⟩
  | .r180 => ⟨W - 1 - p.x, H - 1 - p.y⟩
  | .r270 => ⟨p.y, H - 1 - p.x⟩

/-- The logical pixel shown by physical pixel `q`. -/
def unphys (r : Rotation) (W H : Int) (q : Pt) : Pt :=
  match r with
  | .r0 => q
  | .r90 => ⟨q.y, W - 1 - q.x⟩
  | .r180 => ⟨W - 1 - q.x, H - 1 - q.y⟩
  | .r270 => ⟨H - 1 - q.y, q.x⟩

/-- The value of logical pixel `p`. -/
def readPixel (c : Canvas) (g : Geom) (fb : FB) (p : Pt) : Option Nat :=
  pixel fb.img g.depth (pixelNo g (phys c.rotate g.getWidth g.getHeight p).x
    (phys c.rotate g.getWidth g.getHeight p).y)

/-- `p` is on the logical screen. -/
structure OnScreen (c : Canvas) (p : Pt) : Prop where
  x0 : 0 ≤ p.x
  x1 : p.x < c.getSize.width
  y0 : 0 ≤ p.y
  y1 : p.y < c.getSize.height

/-- Going from `fb` to `fb'`, exactly the on-screen logical pixels in `S` got the current colour;
all other pixels are unchanged, as are the colour and the size of the image. -/
structure Paints (c : Canvas) (g : Geom) (fb fb' : FB) (S : Pt → Prop) : Prop where
  inside : ∀ p, OnScreen c p → S p → readPixel c g fb' p = some (storedValue g.depth fb.sel)
  outside : ∀ p, OnScreen c p → ¬ S p → readPixel c g fb' p = readPixel c g fb p
  sel : fb'.sel = fb.sel
  len : fb'.img.length = fb.img.length

/-- A frame buffer with a canvas on it, in any rotation. The sizes are below 2^28. -/
structure Ready (c : Canvas) (g : Geom) (fb : FB) : Prop where
  compiles : g.Compiles
  depth : g.depth ≠ 2
  img : (fb.img.length : Int) = g.bufSize
  size : c.size = ⟨g.getWidth, g.getHeight⟩
  wlo : 0 ≤ g.getWidth
  hlo : 0 ≤ g.getHeight
  whi : g.getWidth ≤ 2 ^ 28
  hhi : g.getHeight ≤ 2 ^ 28

/-- A value of screen scale: at most 2^28 in magnitude. -/
abbrev Small (v : Int) : Prop := -268435456 ≤ v ∧ v ≤ 268435456

/-- A point of screen scale. -/
abbrev SmallPt (p : Pt) : Prop := Small p.x ∧ Small p.y

/-- A rectangle of screen scale. -/
abbrev SmallRect (r : Rect) : Prop := SmallPt r.topLeft ∧ Small r.size.width ∧ Small r.size.height

/-- The pixels of a rectangle. -/
def inRect (r : Rect) (p : Pt) : Prop :=
  r.topLeft.x ≤ p.x ∧ p.x < r.topLeft.x + r.size.width ∧ r.topLeft.y ≤ p.y ∧ p.y < r.topLeft.y + r.size.height

/-- The border of a rectangle: its pixels which have a neighbour (left, right, up or down) outside. -/
def onBorder (r : Rect) (p : Pt) : Prop :=
  inRect r p ∧ (¬ inRect r ⟨p.x - 1, p.y⟩ ∨ ¬ inRect r ⟨p.x + 1, p.y⟩ ∨ ¬ inRect r ⟨p.x, p.y - 1⟩ ∨
    ¬ inRect r ⟨p.x, p.y + 1⟩)

/-- `S` is a digital line from `a` to `b` over the coordinate `u`: exactly one point for each value of
`u` between the ends, both ends included, at most half a pixel (in the other coordinate `v`) off the
ideal line, and moving by at most one in `v` from one value of `u` to the next. -/
structure LineOver (u v : Pt → Int) (a b : Pt) (S : Pt → Prop) : Prop where
  first : S a
  last : S b
  range : ∀ p, S p → min (u a) (u b) ≤ u p ∧ u p ≤ max (u a) (u b)
  each : ∀ t, min (u a) (u b) ≤ t → t ≤ max (u a) (u b) → ∃ p, S p ∧ u p = t
  unique : ∀ p q, S p → S q → u p = u q → v p = v q
  close : ∀ p, S p → 2 * |(v p - v a) * (u b - u a) - (u p - u a) * (v b - v a)| ≤ |u b - u a|
  connected : ∀ p q, S p → S q → u q = u p + 1 → |v q - v p| ≤ 1

/-- `S` is a digital line from `a` to `b`: over the coordinate in which the ends are further apart
(over both coordinates on a tie). -/
def LineLike (a b : Pt) (S : Pt → Prop) : Prop :=
  (|b.y - a.y| ≤ |b.x - a.x| → LineOver Pt.x Pt.y a b S) ∧
  (|b.x - a.x| ≤ |b.y - a.y| → LineOver Pt.y Pt.x a b S)

/-- How far a pixel at distances `X`, `Y` from the centre is from a circle of radius `r`, measured as
the difference of the squares. -/
def offset (r X Y : Int) : Int := X * X + Y * Y - r * r

/-- A pixel at horizontal distance `X` and vertical distance `Y` from the centre is on the digital
circle of radius `r`: of the pixels of its row (if `X ≥ Y`) or column (if `Y ≥ X`) it is the nearest
to the ideal circle.  Where both pixels of a sharp corner on the diagonal would qualify, the corner
is left out. -/
def OnCircle (r X Y : Int) : Prop :=
  0 ≤ X ∧ 0 ≤ Y ∧ -max X Y ≤ offset r X Y ∧ offset r X Y < max X Y ∧ ¬ (X = Y ∧ offset r X Y = X - 1)

/-- A pixel in the digital disc of radius `r`. -/
def InDisc (r X Y : Int) : Prop :=
  offset r X Y < max X Y ∧ ¬ (1 ≤ X ∧ X = Y ∧ offset r X Y = X - 1)

end Verif.Canvas
