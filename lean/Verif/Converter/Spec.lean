import Verif.Converter.Model
import Verif.Font.Spec
/-!
# What the converter has to do
-/
namespace Verif.Converter
open Verif.Font

/-- The bits of a byte, most significant first. -/
def byteBits (b : Byte) : List Bool := (List.range 8).map b.getMsbD

/-- A write to a bit stream. -/
inductive Write where
  | bit (b : Bool)
  | byte (b : Byte)

/-- The bits written. -/
def Write.bits : Write → List Bool
  | .bit b => [b]
  | .byte b => byteBits b

/-- Perform writes. -/
def BitStream.writes (s : BitStream) : List Write → Res BitStream
  | [] => .ok s
  | .bit b :: ws => do let s' ← s.putBit b; s'.writes ws
  | .byte b :: ws => do let s' ← s.putByte b; s'.writes ws

/-- A well formed monochrome bitmap: each row has at least `⌈width / 8⌉` bytes, rows are `pitch` bytes apart
from the top, all are inside the buffer (which is smaller than 4 GiB). -/
structure Rendered.WF (r : Rendered) (pitch : Nat) : Prop where
  pitch_eq : r.pitch = pitch
  row : (r.width + 7) / 8 ≤ pitch
  inside : r.rows * pitch ≤ r.buffer.length
  size : r.buffer.length < 4294967296

/-- Pixel `(x, y)` of a monochrome bitmap with non-negative pitch is set. -/
def Rendered.isSet (r : Rendered) (x y : Nat) : Bool :=
  match r.buffer[y * r.pitch.toNat + x / 8]? with
  | some b => b.getLsbD (7 - x % 8)
  | none => false

/-- The metrics of the glyph are representable in a `GlyphDescriptor`. -/
structure Rendered.Fits (r : Rendered) : Prop where
  width : r.width < 256
  rows : r.rows < 256
  advance : 0 ≤ r.advance / 65536 ∧ r.advance / 65536 < 256
  left : -128 ≤ r.left ∧ r.left ≤ 127
  top : -128 ≤ 1 - r.top ∧ 1 - r.top ≤ 127

/-- Decode packed glyph descriptors (little-endian). -/
def readGlyphs : List Byte → Option (List Glyph)
  | [] => some []
  | o0 :: o1 :: w :: h :: s :: x :: y :: rest => do
    let gs ← readGlyphs rest
    some (⟨BitVec.ofNat 16 (o0.toNat + 256 * o1.toNat), w, h, s, x, y⟩ :: gs)
  | _ => none

end Verif.Converter
