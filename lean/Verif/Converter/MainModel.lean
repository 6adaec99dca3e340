import Verif.Converter.ConfigModel
/-!
# Model of `main` of the font converter (main.cpp:255-373), `FreeTypeLibrary.cpp`, `FreeTypeFace.cpp`, `FreeTypeGlyph.cpp`

The outside world decides which paths are directories, which files can be opened and what they keep of what is written
to them, and what `iconv` and FreeType answer.  A FreeType error is an exception (FreeTypeLibrary.cpp:14-17, 27-30,
FreeTypeFace.cpp:11-15, 20-32, FreeTypeGlyph.cpp:7-10), which `main` turns into exit status 1.  Messages are in
Messages.lean; here, building them just needs the error string.
-/
namespace Verif.Converter.Main
open Verif Verif.Out Verif.Converter Verif.Converter.Config

/-- The answer to a request for a glyph (FreeTypeFace.cpp:18-37, FreeTypeGlyph.cpp:5-12). -/
inductive Glyph? where
  | bitmap (r : Rendered)
  /-- `FT_Load_Char` or `FT_Render_Glyph` fails -/
  | error
  /-- `FT_Get_Glyph` fails or the glyph is no bitmap -/
  | noBitmap

/-- The outside world. -/
structure World (σ : Type) where
  isDirectory : List Byte → Bool
  /-- `is_directory` throws (the path cannot be examined) -/
  directoryError : List Byte → Bool
  /-- `path(argv[0]).parent_path()` -/
  programDir : List Byte
  /-- the file can be opened for writing -/
  canOpen : List Byte → Bool
  /-- what a file contains after the given characters were written to it -/
  kept : List Byte → List Byte → List Byte
  /-- `iconv_open(to, from)` succeeds; arguments `from`, `to` -/
  iconvOpen : List Byte → List Byte → Bool
  /-- the conversion from an encoding to UCS-4LE -/
  iconv : List Byte → σ → List Byte → Answer × σ
  iconvState : σ
  /-- the answers of the conversion to UTF-8 (each code is converted once) -/
  label : List Byte → Nat → List Byte
  /-- `FT_Init_FreeType` succeeds -/
  ftInit : Bool
  /-- `FT_New_Face` succeeds for a file -/
  ftFace : List Byte → Bool
  /-- `FT_Set_Char_Size` succeeds for a file, a width in 1/64 points and a resolution -/
  ftSize : List Byte → Int → Int → Bool
  /-- the monochrome bitmap of a character, for a file, width and resolution -/
  render : List Byte → Int → Int → Nat → Glyph?
  /-- the height of the font in 1/64 pixels (FreeTypeFace.h:16) -/
  metricHeight : List Byte → Int → Int → Int
  /-- `FT_Error_String` knows the error codes; in the default configuration of FreeType it returns a null pointer -/
  errorStrings : Bool
  /-- contents of uninitialised memory -/
  junk : Nat → Byte

/-- How the program ends. -/
inductive Exit where
  | code (n : Nat)
  /-- `std::terminate` because of an exception outside of the `try` block -/
  | terminated
deriving DecidableEq

/-- The files written, with their contents. -/
abbrev Files := List (List Byte × List Byte)

/-- `std::filesystem::path::filename`: what follows the last slash. -/
def fileName (p : List Byte) : List Byte := (p.reverse.takeWhile (· != 0x2F)).reverse

/-- `replace_extension("")` for a path without slash: a dot at the beginning does not start an extension. -/
def dropExtension (f : List Byte) : List Byte :=
  if f = b!".." then f
  else
    let before := (f.reverse.dropWhile (· != 0x2E)).tail.reverse
    if 0x2E ∈ f ∧ before ≠ [] then before else f

/-- main.cpp:269-273. -/
def fontName (c : Config) : List Byte :=
  dropExtension (fileName c.fontFileName) ++ intDec c.fontSize ++ b!"pt" ++ (if c.lastChar > 127 then b!"8" else b!"7") ++
    b!"b"

/-- `dir / name` for a name without slash. -/
def join (dir name : List Byte) : List Byte :=
  if dir = [] then name else if dir.getLast? = some 0x2F then dir ++ name else dir ++ b!"/" ++ name

/-- main.cpp:274-275. -/
def outputDir {σ} (w : World σ) (c : Config) : List Byte :=
  if w.isDirectory c.outputDirectory then c.outputDirectory else w.programDir

/-- `config.getFontSize() << 6` (main.cpp:278): undefined for negative values and results above 32 bits (C++17); the
conversion of the result to `int` wraps. -/
def charWidth (size : Int) : Res Int :=
  if 0 ≤ size ∧ size * 64 < 4294967296 then .ok (Int.bmod (size * 64) 4294967296) else .ub

/-- An exception with `std::string(…) + FT_Error_String(errorCode)`, which is undefined for a null pointer. -/
def ftError {σ α} (w : World σ) (x : α) : Res α := if w.errorStrings then .ok x else .ub

/-- `int sizeMetricsHeight` from `metrics.height / 64.` (main.cpp:361, 211, FreeTypeFace.h:16): the fraction is dropped, the value
must be representable. -/
def headerHeight (h : Int) : Res Int :=
  if -2147483648 ≤ h.tdiv 64 ∧ h.tdiv 64 ≤ 2147483647 then .ok (h.tdiv 64) else .ub

/-- The loop main.cpp:292-316; `none` is an exception. -/
def convertLoop {σ} (w : World σ) (iconv : σ → List Byte → Answer × σ) (render : Nat → Glyph?) :
    List Nat → Enc × σ → BitStream → Res (Option (List GlyphData))
  | [], _, _ => .ok (some [])
  | i :: is, st, s => do
    let (v, st') ← Enc.convertRaw iconv st (BitVec.ofNat 8 i)
    match render v with
    | .error => ftError w none
    | .noBitmap => .ok none
    | .bitmap r => do
      let (d, s') ← convertGlyph r s
      let rest ← convertLoop w iconv render is st' s'
      .ok (rest.map (d :: ·))

/-- main.cpp:318-357: the binary files; written one after the other. -/
def writeBinary {σ} (w : World σ) (dir name : List Byte) (table : List GlyphData) : Exit × Files :=
  let p1 := join dir (name ++ b!"Bitmaps.bin")
  let p2 := join dir (name ++ b!"Glyphs.bin")
  if !w.canOpen p1 then (.code 1, [])
  else
    let f1 := (p1, w.kept p1 (bitmapsFile table))
    if !w.canOpen p2 then (.code 1, [f1])
    else (.code 0, [f1, (p2, w.kept p2 (glyphsFile table))])

/-- main.cpp:221-231: the first part of the header file. -/
def headerBitmaps (junk : Nat → Byte) (name : List Byte) (table : List GlyphData) : Res (List Byte) := do
  let h0 ← HexStream.new junk [] name 12 2
  let h1 ← h0.putAll junk (bitmapsFile table)
  h1.close junk

/-- main.cpp:358-362 and 209-253: the header file.  The constructor of `TextGlyphStream` throws if the conversion to
UTF-8 is not available (line 121); the bitmaps are written by then. -/
def writeHeader {σ} (w : World σ) (dir name : List Byte) (c : Config) (height : Int) (table : List GlyphData) :
    Res (Exit × Files) :=
  let p := join dir (name ++ b!".h")
  if !w.canOpen p then .ok (.code 1, [])
  else if !w.iconvOpen c.encoding b!"UTF-8" then do
    let f ← headerBitmaps w.junk name table
    .ok (.code 1, [(p, w.kept p f)])
  else do
    let f ← writeHeaderFile w.junk (w.label c.encoding) name c.encoding table c.firstChar c.lastChar height
    .ok (.code 0, [(p, w.kept p f)])

/-- main.cpp:255-373 `main` with the arguments `argv[1]`, … -/
def main {σ} (w : World σ) (args : List (List Byte)) : Res (Exit × Files) := do
  match ← Config.parse args with
  | none => .ok (.terminated, [])
  | some c =>
    if c.printHelp || c.fontFileName.isEmpty then .ok (.code 1, [])
    else if w.directoryError c.outputDirectory then .ok (.code 1, [])
    else do
      let width ← charWidth c.fontSize
      if !w.ftInit then ftError w (.code 1, [])
      else if !w.ftFace c.fontFileName then ftError w (.code 1, [])
      else if !w.ftSize c.fontFileName width c.dpi then ftError w (.code 1, [])
      else if !w.iconvOpen c.encoding b!"UCS-4LE" then .ok (.code 1, [])
      else do
        match ← convertLoop w (w.iconv c.encoding) (w.render c.fontFileName width c.dpi) (codes c.firstChar c.lastChar)
            (Enc.new, w.iconvState) BitStream.new with
        | none => .ok (.code 1, [])
        | some table =>
          match c.format with
          | .binary => .ok (writeBinary w (outputDir w c) (fontName c) table)
          | .header => do
            let height ← headerHeight (w.metricHeight c.fontFileName width c.dpi)
            writeHeader w (outputDir w c) (fontName c) c height table

end Verif.Converter.Main
