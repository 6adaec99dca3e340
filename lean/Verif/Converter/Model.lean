import Verif.Font.Model
import Verif.Out.Model
/-!
# Model of the font converter: `gfx-font-converter/BitStream.h`, `EncodingConverter.cpp`, `main.cpp`

FreeType is represented by the bitmap glyphs it renders (`Rendered`), `iconv` by its answers; the
output files by the bytes written to them.  The command line is in `ConfigModel`, the rest of the
program in `MainModel`.
-/
namespace Verif.Converter
open Verif.Font Verif.Out

/-! ## BitStream -/

/-- BitStream.h:51-53; `out` are the bytes written to the stream so far. -/
structure BitStream where
  bitCount : Nat
  buffer : Byte
  out : List Byte
deriving DecidableEq, Repr

/-- BitStream.h:10. -/
def BitStream.new : BitStream := ⟨0, 0, []⟩

/-- BitStream.h:11-24 `operator<<(bool)`; a negative shift count is undefined. -/
def BitStream.putBit (s : BitStream) (bit : Bool) : Res BitStream :=
  if 7 < s.bitCount then .ub
  else
    let buffer := if bit then s.buffer ||| (1#8 <<< (7 - s.bitCount)) else s.buffer
    if s.bitCount + 1 = 8 then .ok ⟨0, 0, s.out ++ [buffer]⟩
    else .ok ⟨s.bitCount + 1, buffer, s.out⟩

/-- BitStream.h:26-39 `operator<<(uint8_t)`. -/
def BitStream.putByte (s : BitStream) (byte : Byte) : Res BitStream :=
  if s.bitCount = 0 then .ok { s with out := s.out ++ [byte] }
  else if 8 < s.bitCount then .ub
  else .ok ⟨s.bitCount, byte <<< (8 - s.bitCount), s.out ++ [s.buffer ||| (byte >>> s.bitCount)]⟩

/-- BitStream.h:41-49 `flush()`. -/
def BitStream.flush (s : BitStream) : BitStream :=
  if s.bitCount ≠ 0 then ⟨0, 0, s.out ++ [s.buffer]⟩ else s

/-! ## Rendered glyphs -/

/-- The members of FreeType's `FT_BitmapGlyphRec` used by the converter. -/
structure Rendered where
  rows : Nat
  width : Nat
  pitch : Int
  buffer : List Byte
  left : Int
  top : Int
  /-- `root.advance.x`, 16.16 fixed point -/
  advance : Int

/-- main.cpp:303-305: one pixel; the index is computed in `unsigned`. -/
def Rendered.read (r : Rendered) (x y : Nat) : Res Bool := do
  let b ← Res.ofOption r.buffer[((y * r.pitch + x / 8) % 2 ^ 32).toNat]?
  .ok (decide (b &&& (0x80#8 >>> (x % 8)) ≠ 0#8))

/-- The inner loop main.cpp:301-306, `n` pixels from `x` on. -/
def packRow (r : Rendered) (y : Nat) : Nat → Nat → BitStream → Res BitStream
  | _, 0, s => .ok s
  | x, n + 1, s => do
    let bit ← r.read x y
    let s' ← s.putBit bit
    packRow r y (x + 1) n s'

/-- The outer loop main.cpp:299-307, `n` rows from `y` on. -/
def packRows (r : Rendered) : Nat → Nat → BitStream → Res BitStream
  | _, 0, s => .ok s
  | y, n + 1, s => do
    let s' ← packRow r y 0 r.width s
    packRows r (y + 1) n s'

/-- main.cpp:185-189 `GlyphData`. -/
structure GlyphData where
  descriptor : Glyph
  bitmapData : List Byte
deriving DecidableEq

/-- main.cpp:299-314: the table entry made from a rendered glyph, and the state of the bit stream (which
is shared by all glyphs).  The bytes are moved out of the vector, which leaves it empty (lines 309-314). -/
def convertGlyph (r : Rendered) (s : BitStream) : Res (GlyphData × BitStream) := do
  let s1 ← packRows r 0 r.rows s
  let s2 := s1.flush
  .ok (⟨⟨BitVec.ofNat 16 s2.out.length, BitVec.ofNat 8 r.width, BitVec.ofNat 8 r.rows,
    BitVec.ofInt 8 (r.advance / 65536), BitVec.ofInt 8 r.left, BitVec.ofInt 8 (1 - r.top)⟩, s2.out⟩,
    { s2 with out := [] })

/-- The loop control main.cpp:292: the character codes from `i` on, at most `n` of them. -/
def codesFrom (last : Nat) : Nat → Nat → List Nat
  | _, 0 => []
  | i, n + 1 => if i ≤ last then i :: codesFrom last (if i = 0x7E then 0xA0 else i + 1) n else []

/-- The codes converted (main.cpp:292); `last` is '~' or 0xFF (FontConverterConfig.cpp:45-52), the loop
visits each code at most once. -/
def codes (first last : Nat) : List Nat := codesFrom last first 256

/-- The loop main.cpp:292-316 over the rendered glyphs, in the order of `codes`. -/
def convertAll : List Rendered → BitStream → Res (List GlyphData)
  | [], _ => .ok []
  | r :: rs, s => do
    let (d, s') ← convertGlyph r s
    let ds ← convertAll rs s'
    .ok (d :: ds)

/-! ## Binary output -/

/-- main.cpp:329-332: the bitmaps file (and the bytes listed in the header file, lines 224-230). -/
def bitmapsFile (table : List GlyphData) : List Byte := table.flatMap GlyphData.bitmapData

/-- main.cpp:343-355: the descriptors written to the glyphs file; `offset` is a `uint16_t`. -/
def binaryGlyphs (offset : BitVec 16) : List GlyphData → List Glyph
  | [] => []
  | d :: ds => { d.descriptor with bitmapOffset := offset } ::
      binaryGlyphs (offset + BitVec.ofNat 16 d.bitmapData.length) ds

/-- The bytes of a packed `GlyphDescriptor` (GFXFontsAdapter.h:9-17), little-endian host. -/
def glyphBytes (g : Glyph) : List Byte :=
  [g.bitmapOffset.setWidth 8, (g.bitmapOffset >>> 8).setWidth 8, g.width, g.height, g.shift, g.offX, g.offY]

/-- The glyphs file. -/
def glyphsFile (table : List GlyphData) : List Byte := (binaryGlyphs 0 table).flatMap glyphBytes

/-! ## Encoding converter -/

/-- The answers of `iconv`: the bytes put out, or -1 with errno EINVAL, or -1 with another errno. -/
inductive Answer where
  | done (out : List Byte)
  | incomplete
  | failed
deriving DecidableEq

/-- EncodingConverter.h:21-23. -/
structure Enc where
  buf : List Byte
  inSize : Nat
deriving DecidableEq

/-- EncodingConverter.h:22-23: initial values. -/
def Enc.new : Enc := ⟨[0, 0, 0, 0], 0⟩

/-- EncodingConverter.cpp:24-29: store the symbol (undefined outside of the buffer); the bytes handed to
`iconv` are the first `1 + inSize`. -/
def Enc.input (e : Enc) (symbol : Byte) : Res (Enc × List Byte) :=
  if e.inSize < e.buf.length then
    let e' := { e with buf := e.buf.set e.inSize symbol }
    .ok (e', e'.buf.take (1 + e.inSize))
  else .ub

/-- EncodingConverter.cpp:23-43 `convert`, given the conversion descriptor (its state `σ` and what it
answers). -/
def Enc.convert {σ : Type} (iconv : σ → List Byte → Answer × σ) (st : Enc × σ) (symbol : Byte) :
    Res (List Byte × Enc × σ) := do
  let (e, bytes) ← st.1.input symbol
  match iconv st.2 bytes with
  | (.done out, t) => .ok (out, e, t)
  | (.incomplete, t) => .ok ([], { e with inSize := (e.inSize + 1) % 3 }, t)
  | (.failed, t) => .ok ([], { e with inSize := 0 }, t)

/-- The `uint32_t` read from the zeroed output buffer after `out` was written to it (little-endian). -/
def rawResult (out : List Byte) : Nat := out.foldr (fun b acc => b.toNat + 256 * acc) 0

/-- EncodingConverter.cpp:45-68 `convertRaw`: 0 on failure. -/
def Enc.convertRaw {σ : Type} (iconv : σ → List Byte → Answer × σ) (st : Enc × σ) (symbol : Byte) :
    Res (Nat × Enc × σ) := do
  let (e, bytes) ← st.1.input symbol
  match iconv st.2 bytes with
  | (.done out, t) => .ok (rawResult out, e, t)
  | (.incomplete, t) => .ok (0, { e with inSize := (e.inSize + 1) % 3 }, t)
  | (.failed, t) => .ok (0, { e with inSize := 0 }, t)

/-- A history of calls. -/
def Enc.run {σ : Type} (iconv : σ → List Byte → Answer × σ) (st : Enc × σ) : List Byte → Res (List Nat × Enc × σ)
  | [] => .ok ([], st)
  | c :: cs => do
    let (v, e, t) ← Enc.convertRaw iconv st c
    let (vs, st') ← Enc.run iconv (e, t) cs
    .ok (v :: vs, st')

end Verif.Converter
