import Verif.Canvas.Model
/-!
# Model of `graphics/BaseGeometry.h` for every element type that promotes to `int`

The templates are instantiated with `int` (canvas) and with `uint8_t`/`int8_t` (font tables).  `T` is
described by its width and signedness; a value of type `T` is an integer in its range.  Arithmetic on
`T` is done in (32-bit) `int`, `T(…)` converts modulo 2^bits.

`Size::operator+`, `*`, `/` and `Rect::topRight` use brace initialisation without a conversion, which
is ill-formed (narrowing) for types smaller than `int`; they are modelled for `int` only.
-/
namespace Verif.Geometry
open Verif.FrameBuffer (chk InInt)

/-- An integer type. -/
structure IntTy where
  bits : Nat
  signed : Bool
deriving DecidableEq

def int8 : IntTy := ⟨8, true⟩
def uint8 : IntTy := ⟨8, false⟩
def int16 : IntTy := ⟨16, true⟩
def uint16 : IntTy := ⟨16, false⟩
def int32 : IntTy := ⟨32, true⟩

/-- The value is in the range of the type. -/
def IntTy.Holds (t : IntTy) (v : Int) : Prop :=
  if t.signed then -(2 ^ (t.bits - 1)) ≤ v ∧ v < 2 ^ (t.bits - 1) else 0 ≤ v ∧ v < 2 ^ t.bits

/-- Conversion of an `int` to the type: modulo 2^bits (C++20; implementation-defined with this meaning in
gcc before). -/
def IntTy.conv (t : IntTy) (v : Int) : Int :=
  if t.signed then Int.bmod v (2 ^ t.bits) else v % 2 ^ t.bits

/-- BaseGeometry.h:9-34. -/
structure Size where
  width : Int
  height : Int
deriving DecidableEq

/-- BaseGeometry.h:36-63. -/
structure Point where
  x : Int
  y : Int
deriving DecidableEq

/-- BaseGeometry.h:65-69. -/
structure Rect where
  topLeft : Point
  size : Size
deriving DecidableEq

/-- BaseGeometry.h:15-18 `Size<int>::operator+`. -/
def Size.add (a b : Size) : Res Size := do
  let w ← chk (a.width + b.width)
  let h ← chk (a.height + b.height)
  .ok ⟨w, h⟩

/-- BaseGeometry.h:20-23 `Size::operator-`. -/
def Size.sub (t : IntTy) (a b : Size) : Res Size := do
  let w ← chk (a.width - b.width)
  let h ← chk (a.height - b.height)
  .ok ⟨t.conv w, t.conv h⟩

/-- BaseGeometry.h:25-28 `Size<int>::operator*`. -/
def Size.mul (a : Size) (k : Int) : Res Size := do
  let w ← chk (a.width * k)
  let h ← chk (a.height * k)
  .ok ⟨w, h⟩

/-- C++ `int` division: undefined for a zero divisor and when the quotient does not fit. -/
def idiv (a b : Int) : Res Int := if b = 0 then .ub else chk (a.tdiv b)

/-- BaseGeometry.h:30-33 `Size<int>::operator/`. -/
def Size.div (a : Size) (k : Int) : Res Size := do
  let w ← idiv a.width k
  let h ← idiv a.height k
  .ok ⟨w, h⟩

/-- BaseGeometry.h:42-45 `Point::operator+`. -/
def Point.add (t : IntTy) (p : Point) (s : Size) : Res Point := do
  let x ← chk (p.x + s.width)
  let y ← chk (p.y + s.height)
  .ok ⟨t.conv x, t.conv y⟩

/-- BaseGeometry.h:47-52 `Point::operator+=`: the point afterwards.  The coordinates are assigned one after
the other. -/
def Point.addAssign (t : IntTy) (p : Point) (s : Size) : Res Point := do
  let x ← chk (p.x + s.width)
  let p := { p with x := t.conv x }
  let y ← chk (p.y + s.height)
  .ok { p with y := t.conv y }

/-- BaseGeometry.h:54-57 `operator==`. -/
def Point.eq (p q : Point) : Bool := p.x == q.x && p.y == q.y
/-- BaseGeometry.h:59-62 `operator!=`. -/
def Point.ne (p q : Point) : Bool := p.x != q.x || p.y != q.y

/-- BaseGeometry.h:76-78: conversion of a rectangle to element type `t`. -/
def Rect.convert (t : IntTy) (r : Rect) : Rect :=
  ⟨⟨t.conv r.topLeft.x, t.conv r.topLeft.y⟩, ⟨t.conv r.size.width, t.conv r.size.height⟩⟩

/-- BaseGeometry.h:80-83 `Rect::operator+`. -/
def Rect.add (t : IntTy) (r : Rect) (s : Size) : Res Rect := do
  let p ← r.topLeft.add t s
  .ok ⟨p, r.size⟩

/-- BaseGeometry.h:85-89 `Rect::operator+=`: the rectangle afterwards. -/
def Rect.addAssign (t : IntTy) (r : Rect) (s : Size) : Res Rect := do
  let p ← r.topLeft.addAssign t s
  .ok { r with topLeft := p }

/-- BaseGeometry.h:91-94 `bottomLeft()`. -/
def Rect.bottomLeft (t : IntTy) (r : Rect) : Res Point := do
  let a ← chk (r.topLeft.y + r.size.height)
  let y ← chk (a - 1)
  .ok ⟨r.topLeft.x, t.conv y⟩

/-- BaseGeometry.h:96-99 `Rect<int>::topRight()`. -/
def Rect.topRight (r : Rect) : Res Point := do
  let a ← chk (r.topLeft.x + r.size.width)
  let x ← chk (a - 1)
  .ok ⟨x, r.topLeft.y⟩

/-- BaseGeometry.h:101-104 `bottomRight()`. -/
def Rect.bottomRight (t : IntTy) (r : Rect) : Res Point := do
  let s ← r.size.sub t ⟨1, 1⟩
  r.topLeft.add t s

/-- BaseGeometry.h:107-120. -/
structure Matrix where
  a : Int
  b : Int
  c : Int
  d : Int
deriving DecidableEq

/-- BaseGeometry.h:113-116 `operator*`. -/
def Matrix.mul (t : IntTy) (m : Matrix) (v : Point) : Res Point := do
  let p ← chk (m.a * v.x)
  let q ← chk (m.b * v.y)
  let x ← chk (p + q)
  let r ← chk (m.c * v.x)
  let s ← chk (m.d * v.y)
  let y ← chk (r + s)
  .ok ⟨t.conv x, t.conv y⟩

end Verif.Geometry
