import Verif.Canvas.Model
/-!
# Model of `graphics/EmbeddedFont.h`, `graphics/EmbeddedFont.cpp` and `graphics/GFXFontsAdapter.h`

A font is its bitmap array and its glyph table.  Whether plain `char` is signed is a parameter
(`signed`); characters are given by their byte.  Views into the bitmap are given by their start index
and size; forming a pointer outside the array (its one-past-the-end address excluded) and reading
outside an array are `ub`.
-/
namespace Verif.Font
open Verif.Canvas Verif.FrameBuffer

/-- GFXFontsAdapter.h:10-16 `GlyphDescriptor`. -/
structure Glyph where
  bitmapOffset : BitVec 16
  width : BitVec 8
  height : BitVec 8
  shift : BitVec 8
  offX : BitVec 8
  offY : BitVec 8
deriving DecidableEq, Repr

/-- The `int8_t` members `offset.width`, `offset.height` (GFXFontsAdapter.h:15) as integers. -/
def Glyph.ox (g : Glyph) : Int := g.offX.toInt
def Glyph.oy (g : Glyph) : Int := g.offY.toInt

/-- GFXFontsAdapter.h:19-26 `FontDescriptor`. -/
structure Font where
  bitmap : List Byte
  glyph : List Glyph
  first : BitVec 8
  last : BitVec 8

/-- EmbeddedFont.h:13-19 `CharacterBitmap`; `bitmap` is the view `[start, start + size)`. -/
structure CharBitmap where
  start : Nat
  size : Nat
  width : Nat
  height : Nat
  ox : Int
  oy : Int
  shift : Nat
deriving DecidableEq, Repr

/-- The value of a `char` after integral promotion. -/
def charVal (signed : Bool) (b : Byte) : Int := if signed then b.toInt else b.toNat

/-- EmbeddedFont.cpp:19-33, the rest of `getBitmap` once the index is computed.  `none`: it calls
`getBitmap(first)` (line 21).  `pos` is an `int`, compared with the `size_t` `glyph.size()` after
conversion: a negative `pos` is huge. -/
def lookupAt (f : Font) (pos : Int) : Res (Option CharBitmap) :=
  if pos < 0 ∨ pos ≥ f.glyph.length then .ok none
  else do
    let g ← Res.ofOption f.glyph[pos.toNat]?
    let begin_ := g.bitmapOffset.toNat
    if begin_ > f.bitmap.length then .ub
    else do
      let end_ ← (if pos.toNat + 1 ≠ f.glyph.length then .ok f.bitmap.length
        else do
          let n ← Res.ofOption f.glyph[pos.toNat + 1]?
          if n.bitmapOffset.toNat > f.bitmap.length then .ub else .ok n.bitmapOffset.toNat : Res Nat)
      -- the cast to `uint16_t`
      .ok (some ⟨begin_, (((end_ : Int) - begin_) % 65536).toNat, g.width.toNat, g.height.toNat, g.ox, g.oy,
        g.shift.toNat⟩)

/-- One activation of `getBitmap`, EmbeddedFont.cpp:7-33.  `none`: it calls `getBitmap(first)`
(lines 11 and 21). -/
def lookup (signed : Bool) (f : Font) (b : Byte) : Res (Option CharBitmap) :=
  let symbol := charVal signed b
  if symbol < f.first.toNat ∨ symbol > f.last.toNat then .ok none
  else lookupAt f (symbol - f.first.toNat - (if symbol > 0x7E then 33 else 0))

/-- EmbeddedFont.cpp:7-33 `getBitmap`, cut off after `n` nested activations. -/
def getBitmapN (signed : Bool) (f : Font) (b : Byte) : Nat → Res CharBitmap
  | 0 => .hang
  | n + 1 => do
    match ← lookup signed f b with
    | some r => .ok r
    | none => getBitmapN signed f f.first n

/-- EmbeddedFont.cpp:7-33 `getBitmap`.  The third activation would repeat the second, so that two
decide (proved in `Props`: `nesting_two_decides`); a recursion which goes on is `hang`. -/
def getBitmap (signed : Bool) (f : Font) (b : Byte) : Res CharBitmap := getBitmapN signed f b 2

/-- The loop EmbeddedFont.cpp:42-56 of `getTextBounds`; `i` is the index of the first remaining
character, `len` the length of the text.  State: left, width, maxBottom, minTop.  The sums are `int`
(checked); the others are of values between -255 and 255. -/
def boundsLoop (signed : Bool) (f : Font) (len : Nat) : Nat → List Byte → Int × Int × Int × Int →
    Res (Int × Int × Int × Int)
  | _, [], s => .ok s
  | i, b :: bs, (left, width, maxBottom, minTop) => do
    let g ← getBitmap signed f b
    let (left, width) ← (if i = 0 then .ok (-g.ox, (g.width : Int))
      else do
        let w ← chk (width + (if i < len - 1 then (g.shift : Int) else g.width))
        .ok (left, w) : Res (Int × Int))
    boundsLoop signed f len (i + 1) bs (left, width, max maxBottom (g.oy + g.height), min minTop g.oy)

/-- EmbeddedFont.cpp:35-61 `getTextBounds`. -/
def getTextBounds (signed : Bool) (f : Font) (text : List Byte) : Res Rect :=
  if text.length > 0 then do
    let (left, width, maxBottom, minTop) ← boundsLoop signed f text.length 0 text (0, 0, -255, 0)
    .ok ⟨⟨left, -minTop⟩, ⟨width, maxBottom - minTop⟩⟩
  else .ok ⟨⟨0, 0⟩, ⟨0, 0⟩⟩

end Verif.Font
