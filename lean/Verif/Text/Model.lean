import Verif.Font.Model
import Verif.Canvas.Model
/-!
# Model of the text drawing of `graphics/Canvas.cpp`, `graphics/Canvas.h`

The bitmap pointer `ptr` of `drawCharAt` is an index into the font's bitmap array; dereferencing it
outside the array is `ub`.  The products `j * width` stay below 256 * 256.
-/
namespace Verif.Text
open Verif.Canvas Verif.FrameBuffer Verif.Font

/-- Canvas.cpp:17-20: the point painted for pixel `(i, j)` when its bit is set. -/
def glyphPoint (m : Mat) (shifts : Sz) (pos : Pt) (i j : Nat) : Res Pt := do
  let a ← pos.add ⟨i, j⟩
  let v ← m.mul a
  v.add shifts

/-- The inner loop Canvas.cpp:15-26 from pixel `i` on, `n` pixels; returns the points passed to
`setIfVisible` and the pointer. -/
def rowLoop (m : Mat) (shifts : Sz) (bitmap : List Byte) (pos : Pt) (w j : Nat) :
    Nat → Nat → Nat → Res (List Pt × Nat)
  | _, ptr, 0 => .ok ([], ptr)
  | i, ptr, n + 1 => do
    let byte ← Res.ofOption bitmap[ptr]?
    let here ← (if byte &&& (0x80#8 >>> ((i + j * w) % 8)) ≠ 0#8 then do
        let p ← glyphPoint m shifts pos i j
        .ok [p]
      else .ok [] : Res (List Pt))
    let ptr' := if (i + j * w) % 8 = 7 then ptr + 1 else ptr
    let (rest, ptr'') ← rowLoop m shifts bitmap pos w j (i + 1) ptr' n
    .ok (here ++ rest, ptr'')

/-- The outer loop Canvas.cpp:13-27 from row `j` on, `n` rows. -/
def glyphLoop (m : Mat) (shifts : Sz) (bitmap : List Byte) (pos : Pt) (w : Nat) :
    Nat → Nat → Nat → Res (List Pt)
  | _, _, 0 => .ok []
  | j, ptr, n + 1 => do
    let (row, ptr') ← rowLoop m shifts bitmap pos w j 0 ptr w
    let rest ← glyphLoop m shifts bitmap pos w (j + 1) ptr' n
    .ok (row ++ rest)

/-- Canvas.cpp:5-29 `drawCharAt`. -/
def drawCharAt (c : Canvas) (g : Geom) (fb : FB) (signed : Bool) (f : Font) (pos0 : Pt) (b : Byte) :
    Res (FB × Int) := do
  let shifts ← c.shifts
  let glyph ← getBitmap signed f b
  let y ← chk (pos0.y + glyph.oy)
  let x ← chk (pos0.x + glyph.ox)
  let ps ← glyphLoop c.matrix shifts f.bitmap ⟨x, y⟩ glyph.width 0 glyph.start glyph.height
  let fb' ← c.paint g fb ps
  .ok (fb', glyph.shift)

/-- Canvas.h:63-69 `drawStringAt`. -/
def drawStringAt (c : Canvas) (g : Geom) (signed : Bool) (f : Font) : FB → Pt → List Byte → Res FB
  | fb, _, [] => .ok fb
  | fb, pos, b :: bs => do
    let (fb', adv) ← drawCharAt c g fb signed f pos b
    let x ← chk (pos.x + adv)
    drawStringAt c g signed f fb' { pos with x := x } bs

end Verif.Text
