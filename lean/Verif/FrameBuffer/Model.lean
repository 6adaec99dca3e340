import Verif.Basic
/-!
# Model of `graphics/SimpleFrameBuffer.h`

`int` is 32-bit.  Every `int` computation on run-time values goes through `chk`, so overflow is
`ub`.  Division and remainder are the truncating C++ ones.
-/
namespace Verif.FrameBuffer

/-- The value fits a 32-bit `int`. -/
abbrev InInt (v : Int) : Prop := -2147483648 ≤ v ∧ v ≤ 2147483647

/-- Signed arithmetic result: undefined when it does not fit. -/
def chk (v : Int) : Res Int := if InInt v then .ok v else .ub

/-- SimpleFrameBuffer.h:5: the template arguments (`colorDepth` also is `bitsPerPixel`, line 90). -/
structure Geom where
  width : Int
  height : Int
  depth : Nat
deriving DecidableEq

/-- SimpleFrameBuffer.h:91. -/
def Geom.effW (g : Geom) : Int := (g.width * g.depth).tdiv 8 * 8

/-- SimpleFrameBuffer.h:92, before the conversion to `size_t`. -/
def Geom.bufSize (g : Geom) : Int := (g.effW * g.height * g.depth).tdiv 8

/-- The instantiation compiles: both `static_assert`s (lines 11-12) hold, no constant expression
overflows (`1 << 31` is INT_MIN), and the array size is not a huge converted negative number. -/
structure Geom.Compiles (g : Geom) : Prop where
  w_int : InInt g.width
  h_int : InInt g.height
  depth_ok : g.depth = 1 ∨ g.depth = 2 ∨ g.depth = 4 ∨ g.depth = 8 ∨ g.depth = 16 ∨ g.depth = 24 ∨ g.depth = 32
  align_int : InInt (g.width * (if g.depth = 32 then -2147483648 else 2 ^ (g.depth - 1)))
  align : (g.width * (if g.depth = 32 then -2147483648 else 2 ^ (g.depth - 1))).tmod 8 = 0
  row_int : InInt (g.width * g.depth)
  area_int : InInt (g.effW * g.height)
  bits_int : InInt (g.effW * g.height * g.depth)
  size_ok : 0 ≤ g.bufSize

/-- SimpleFrameBuffer.h:93-94: the members. -/
structure FB where
  img : List Byte
  sel : BitVec 32
deriving DecidableEq

/-- `buffer[k] = f(buffer[k])`; the `int` index converts to `size_t`, outside of the array the
access is undefined. -/
def upd (img : List Byte) (k : Int) (f : Byte → Byte) : Res (List Byte) :=
  if 0 ≤ k then
    match img[k.toNat]? with
    | some b => .ok (img.set k.toNat (f b))
    | none => .ub
  else .ub

/-- A shift count: negative counts and counts ≥ 32 are undefined for 32-bit operands. -/
def shiftCount (s : Int) : Res Nat := if 0 ≤ s ∧ s < 32 then .ok s.toNat else .ub

/-- SimpleFrameBuffer.h:39-88 `drawPixel(posX, posY, color)`. The bit operations happen in `int` or
`uint32_t` and are truncated to the byte on assignment; here they are done on the low byte (masks
and shifted colours) which is the same. -/
def drawPixelC (g : Geom) (img : List Byte) (posX posY : Int) (color : BitVec 32) : Res (List Byte) := do
  let row ← chk (posY * g.effW)
  let idx ← chk (row + posX)
  let bits ← chk (idx * g.depth)
  let off := bits.tdiv 8
  if g.depth = 1 then do
    let s ← shiftCount (posX.tmod 8)
    let mask : Byte := (0x80 : Byte) >>> s
    if color ≠ 0 then upd img off (fun b => b ||| mask)
    else upd img off (fun b => b &&& ~~~mask)
  else if g.depth = 2 then do
    let s ← shiftCount (posX.tmod 4 * 2)
    let mask : Byte := (0xC0 : Byte) >>> s
    let img1 ← upd img off (fun b => b &&& ~~~mask)
    let s2 ← shiftCount (2 - posX.tmod 4 * 2)
    upd img1 off (fun b => b ||| ((color &&& 3) <<< s2).truncate 8)
  else if g.depth = 4 then do
    let s ← shiftCount (posX.tmod 2 * 4)
    let mask : Byte := (0xF0 : Byte) >>> s
    let img1 ← upd img off (fun b => b &&& ~~~mask)
    let s2 ← shiftCount (4 - posX.tmod 2 * 4)
    upd img1 off (fun b => b ||| ((color &&& 15) <<< s2).truncate 8)
  else if g.depth = 8 then
    upd img off (fun _ => color.truncate 8)
  else if g.depth = 16 then do
    let img1 ← upd img off (fun _ => (color >>> 8).truncate 8)
    let o1 ← chk (off + 1)
    upd img1 o1 (fun _ => (color &&& 0xFF).truncate 8)
  else if g.depth = 24 then do
    let img1 ← upd img off (fun _ => (color >>> 16).truncate 8)
    let o1 ← chk (off + 1)
    let img2 ← upd img1 o1 (fun _ => ((color >>> 8) &&& 0xFF).truncate 8)
    let o2 ← chk (off + 2)
    upd img2 o2 (fun _ => (color &&& 0xFF).truncate 8)
  else if g.depth = 32 then do
    let img1 ← upd img off (fun _ => (color >>> 24).truncate 8)
    let o1 ← chk (off + 1)
    let img2 ← upd img1 o1 (fun _ => ((color >>> 16) &&& 0xFF).truncate 8)
    let o2 ← chk (off + 2)
    let img3 ← upd img2 o2 (fun _ => ((color >>> 8) &&& 0xFF).truncate 8)
    let o3 ← chk (off + 3)
    upd img3 o3 (fun _ => (color &&& 0xFF).truncate 8)
  else .ok img

/-- `(1 << colorDepth) - 1`, SimpleFrameBuffer.h:13 and 36; converted to `uint32_t`.  `1 << 32` is
undefined. -/
def colorMask (g : Geom) : Res (BitVec 32) :=
  if g.depth < 32 then .ok (BitVec.ofNat 32 (2 ^ g.depth - 1)) else .ub

/-- SimpleFrameBuffer.h:9-14: the constructor; the buffer keeps whatever the memory held. -/
def FB.new (g : Geom) (mem : List Byte) : Res FB := do
  let m ← colorMask g
  .ok ⟨mem, m⟩

/-- SimpleFrameBuffer.h:15-16. -/
def Geom.getWidth (g : Geom) : Int := g.effW
def Geom.getHeight (g : Geom) : Int := g.height

/-- SimpleFrameBuffer.h:29-32 `drawPixel(posX, posY)`. -/
def FB.drawPixel (g : Geom) (fb : FB) (posX posY : Int) : Res FB := do
  let img ← drawPixelC g fb.img posX posY fb.sel
  .ok { fb with img := img }

/-- SimpleFrameBuffer.h:34-37 `setColor`. -/
def FB.setColor (g : Geom) (fb : FB) (color : BitVec 32) : Res FB := do
  let m ← colorMask g
  .ok { fb with sel := color &&& m }

/-- The inner loop, SimpleFrameBuffer.h:23-26: `n` iterations from `y`. -/
def clearCol (g : Geom) (color : BitVec 32) (x : Int) : List Byte → Int → Nat → Res (List Byte)
  | img, _, 0 => .ok img
  | img, y, n + 1 => do
    let img' ← drawPixelC g img x y color
    clearCol g color x img' (y + 1) n

/-- The outer loop, SimpleFrameBuffer.h:21-27: `n` iterations from `x`. -/
def clearRows (g : Geom) (color : BitVec 32) : List Byte → Int → Nat → Res (List Byte)
  | img, _, 0 => .ok img
  | img, x, n + 1 => do
    let img' ← clearCol g color x img 0 g.height.toNat
    clearRows g color img' (x + 1) n

/-- SimpleFrameBuffer.h:19-28 `clear`. -/
def FB.clear (g : Geom) (fb : FB) (color : BitVec 32) : Res FB := do
  let img ← clearRows g color fb.img 0 g.effW.toNat
  .ok { fb with img := img }

end Verif.FrameBuffer
