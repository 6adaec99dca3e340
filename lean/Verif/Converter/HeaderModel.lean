import Verif.Converter.Model
/-!
# Model of the header writer, `gfx-font-converter/main.cpp` lines 21-253

The output file is the list of characters written to it.  The strings `label code` are those returned by
`iconvHolder->convert` (line 157).
-/
namespace Verif.Converter
open Verif.Font Verif.Out

/-- ASCII string literals as byte lists. -/
macro:max "b!" s:str : term => do
  let xs := s.getString.toUTF8.toList.map fun c => Lean.Syntax.mkNumLit (toString c.toNat)
  `(([$(xs.toArray),*] : List Byte))

/-- The operands of `<<` used by the header writer. -/
inductive Item where
  /-- a string literal -/
  | lit (s : List Byte)
  /-- a `std::string` -/
  | str (s : List Byte)
  | chr (c : Byte)
  /-- a `uint8_t` -/
  | hex (b : Byte)
  /-- an `int` -/
  | int (n : Int)
  /-- `width` followed by an `int` -/
  | wint (w : Nat) (n : Int)

/-- One `<<`. -/
def putItem (junk : Nat → Byte) (o : BOut) : Item → Res BOut
  | .lit s => o.putCstr (s ++ [0])
  | .str s => o.putStr s
  | .chr c => o.addChar c
  | .hex b => o.putByte b
  | .int n => o.putInt junk n
  | .wint w n => (o.setWidth w).putInt junk n

/-- A chain of `<<`. -/
def putItems (junk : Nat → Byte) (o : BOut) : List Item → Res BOut
  | [] => .ok o
  | i :: is => do
    let o' ← putItem junk o i
    putItems junk o' is

/-- main.cpp:21-51 `BufferedStreamBase`: the line buffer of 1024 characters and the file. -/
structure Buffered where
  out : BOut
  file : List Byte

/-- main.cpp:24-28 and 48. -/
def Buffered.new (file : List Byte) : Buffered := ⟨BOut.new (List.replicate 1024 0), file⟩

/-- main.cpp:35-43 `flush()`. -/
def Buffered.flush (s : Buffered) : Buffered :=
  if s.out.text.isEmpty then s else ⟨s.out.clear, s.file ++ s.out.text⟩

/-- A chain of `<<` on `getBufferedOut()`. -/
def Buffered.put (junk : Nat → Byte) (s : Buffered) (is : List Item) : Res Buffered := do
  let o ← putItems junk s.out is
  .ok { s with out := o }

/-- main.cpp:53-110 `HexStringStream`. -/
structure HexStream where
  base : Buffered
  bytesInLine : Nat
  indent : Nat
  bytesWritten : Nat
  totalBytesWritten : Nat

/-- main.cpp:56-66: the constructor. -/
def HexStream.new (junk : Nat → Byte) (file name : List Byte) (bytesInLine indent : Nat) : Res HexStream := do
  let b ← (Buffered.new file).put junk [.lit b!"const uint8_t ", .str name, .lit b!"Bitmaps[] = {\n"]
  .ok ⟨b.flush, bytesInLine, indent, 0, 0⟩

/-- main.cpp:76-89: the separator before a byte. -/
def HexStream.separate (junk : Nat → Byte) (s : HexStream) : Res HexStream :=
  if s.bytesWritten ≠ 0 then do
    let b1 ← s.base.put junk [.chr 44]
    if s.bytesInLine = s.bytesWritten then do
      let b2 ← b1.put junk [.chr 10]
      .ok { s with base := b2.flush, bytesWritten := 0 }
    else do
      let b2 ← b1.put junk [.chr 32]
      .ok { s with base := b2 }
  else .ok s

/-- main.cpp:73-101 `operator<<(uint8_t)`; the `int` counter must not overflow. -/
def HexStream.put (junk : Nat → Byte) (s : HexStream) (byte : Byte) : Res HexStream := do
  let s1 ← s.separate junk
  let b1 ← (if s1.bytesWritten = 0 then s1.base.put junk (List.replicate s1.indent (.chr 32)) else .ok s1.base :
    Res Buffered)
  let b2 ← b1.put junk [.lit b!"0x", .hex byte]
  if s1.totalBytesWritten + 1 < 2147483648 then
    .ok { s1 with base := b2, bytesWritten := s1.bytesWritten + 1, totalBytesWritten := s1.totalBytesWritten + 1 }
  else .ub

/-- main.cpp:224-230: all bytes. -/
def HexStream.putAll (junk : Nat → Byte) (s : HexStream) : List Byte → Res HexStream
  | [] => .ok s
  | b :: bs => do
    let s' ← s.put junk b
    s'.putAll junk bs

/-- main.cpp:68-71 and 30-33: the destructors; returns the file. -/
def HexStream.close (junk : Nat → Byte) (s : HexStream) : Res (List Byte) := do
  let b ← s.base.put junk [.lit b!" };\n\n"]
  .ok b.flush.file

/-- main.cpp:112-183 `TextGlyphStream`. -/
structure GlyphStream where
  base : Buffered
  currentGlyph : Nat
  lastChar : Nat
  bitmapOffset : Nat

/-- main.cpp:115-123: the constructor. -/
def GlyphStream.new (file name encoding : List Byte) : GlyphStream :=
  ⟨Buffered.new (file ++ b!"const GFXglyph " ++ name ++ b!"Glyphs[] = {\n"), 0x20,
    if encoding = b!"ASCII" then 0x7E else 0xFF, 0⟩

/-- main.cpp:137-159: what is written for a glyph. -/
def GlyphStream.items (s : GlyphStream) (label : Nat → List Byte) (g : Glyph) : List Item :=
  [.lit b!"  { ", .wint 5 (Int.bmod s.bitmapOffset 4294967296), .lit b!", {", .wint 4 g.width.toNat, .lit b!",",
    .wint 4 g.height.toNat, .lit b!" },", .wint 4 g.shift.toNat, .lit b!", { ", .wint 4 g.offX.toInt, .lit b!",",
    .wint 5 g.offY.toInt, .lit b!" } }"] ++
  (if s.currentGlyph < s.lastChar then [.lit b!",   // 0x", .hex (BitVec.ofNat 8 s.currentGlyph)]
    else [.lit b!" }; // 0x", .hex (BitVec.ofNat 8 s.currentGlyph)]) ++
  (if 0x20 ≤ s.currentGlyph ∧ s.currentGlyph ≤ 0x7E then
      [.lit b!" '", .chr (BitVec.ofNat 8 s.currentGlyph), .lit b!"'"]
    else if s.currentGlyph > 0x7E then [.lit b!" '", .str (label s.currentGlyph), .lit b!"'"]
    else []) ++
  [.chr 10]

/-- main.cpp:132-174 `operator<<(const GlyphDescriptor&)`. -/
def GlyphStream.put (junk : Nat → Byte) (label : Nat → List Byte) (s : GlyphStream) (g : Glyph) :
    Res GlyphStream := do
  let b ← s.base.put junk (s.items label g)
  .ok ⟨b.flush, if s.currentGlyph < s.lastChar then (if s.currentGlyph = 0x7E then 0xA0 else s.currentGlyph + 1)
    else s.currentGlyph, s.lastChar, s.bitmapOffset + g.bitmapOffset.toNat⟩

/-- main.cpp:234-237: all glyphs. -/
def GlyphStream.putAll (junk : Nat → Byte) (label : Nat → List Byte) (s : GlyphStream) :
    List Glyph → Res GlyphStream
  | [] => .ok s
  | g :: gs => do
    let s' ← s.put junk label g
    s'.putAll junk label gs

/-- main.cpp:125-130: the destructor. -/
def GlyphStream.close (junk : Nat → Byte) (s : GlyphStream) : Res (List Byte) := do
  let b ← s.base.put junk [.lit b!"\n"]
  .ok b.flush.file

/-- main.cpp:209-253 `writeHeaderFile`; returns the contents of the file. -/
def writeHeaderFile (junk : Nat → Byte) (label : Nat → List Byte) (name encoding : List Byte)
    (table : List GlyphData) (first last : Nat) (height : Int) : Res (List Byte) := do
  let h0 ← HexStream.new junk [] name 12 2
  let h1 ← h0.putAll junk (bitmapsFile table)
  let f1 ← h1.close junk
  let g1 ← (GlyphStream.new f1 name encoding).putAll junk label (table.map GlyphData.descriptor)
  let f2 ← g1.close junk
  let o ← putItems junk (BOut.new (List.replicate 1024 0))
    [.lit b!"const GFXfont ", .str name, .lit b!" = {\n", .lit b!"  ", .str name, .lit b!"Bitmaps,\n",
      .lit b!"  ", .str name, .lit b!"Glyphs,\n",
      .lit b!"  0x", .hex (BitVec.ofNat 8 first), .lit b!", 0x", .hex (BitVec.ofNat 8 last), .lit b!", ",
      .int height, .lit b!" };\n"]
  .ok (f2 ++ o.text)

end Verif.Converter
