import Verif.Font.Model
/-!
# What a font means
-/
namespace Verif.Font

/-- Number of bytes of a `w × h` one-bit bitmap. -/
def bitmapBytes (w h : Nat) : Nat := (w * h + 7) / 8

/-- The repertoire of an 8-bit font: printable ASCII, then the printable upper half of Latin-1;
the codes 0x7F-0x9F have no glyph. -/
def inRepertoire (code : Nat) : Prop := (0x20 ≤ code ∧ code ≤ 0x7E) ∨ (0xA0 ≤ code ∧ code ≤ 0xFF)

/-- Number of repertoire codes below `code`. -/
def ordinal (code : Nat) : Nat := if code ≤ 0x7E then code - 0x20 else code - 0x20 - 33

/-- Pixel `(i, j)` of a glyph of width `w` whose bits start at byte `start`: bits are stored row by row,
the most significant bit of each byte first, without padding between rows. -/
def glyphBit (bitmap : List Byte) (start w i j : Nat) : Bool :=
  match bitmap[start + (i + j * w) / 8]? with
  | some b => b.getLsbD (7 - (i + j * w) % 8)
  | none => false

/-- The bytes of a glyph lie in the font's bitmap. -/
def GlyphInside (f : Font) (g : Glyph) : Prop :=
  g.bitmapOffset.toNat + bitmapBytes g.width.toNat g.height.toNat ≤ f.bitmap.length

/-- The `CharBitmap` fields which are copied from the glyph, and the start of its bits. -/
structure Shows (g : Glyph) (r : CharBitmap) : Prop where
  start : r.start = g.bitmapOffset.toNat
  width : r.width = g.width.toNat
  height : r.height = g.height.toNat
  ox : r.ox = g.offX.toInt
  oy : r.oy = g.offY.toInt
  shift : r.shift = g.shift.toNat

end Verif.Font
