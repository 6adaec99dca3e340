import Verif.Basic
/-!
# Specification of a packed big-endian image

The image is a sequence of bits, most significant bit of each byte first.  Pixel number `p` of depth
`d` occupies bits `p*d … p*d+d-1`, most significant colour bit first.
-/
namespace Verif.FrameBuffer

/-- Bit number `i` of an image. -/
def imgBit (img : List Byte) (i : Nat) : Option Bool := (img[i / 8]?).map (fun b => b.getMsbD (i % 8))

/-- The bit `k` (0 = most significant) of the pixel value stored for a colour. One-bit images store
whether the colour is non-zero. -/
def colorBit (d : Nat) (color : BitVec 32) (k : Nat) : Bool :=
  if d = 1 then decide (color ≠ 0) else color.getLsbD (d - 1 - k)

/-- The value of a pixel: its bits read as a binary number. -/
def pixel (img : List Byte) (d p : Nat) : Option Nat :=
  (List.range d).foldl (fun acc k => do
    let a ← acc
    let b ← imgBit img (p * d + k)
    some (2 * a + b.toNat)) (some 0)

/-- The value stored for a colour. -/
def storedValue (d : Nat) (color : BitVec 32) : Nat :=
  if d = 1 then (if color = 0 then 0 else 1) else color.toNat % 2 ^ d

end Verif.FrameBuffer
