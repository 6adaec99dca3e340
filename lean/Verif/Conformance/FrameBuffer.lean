import Verif.Canvas.Model
/-!
# `tests/MonochromeFrameBufferTest.cpp` (line tests) against the model

Tests of the model, not proofs about it.  The byte lists are `tests/data/MonochromeFrameBufferTestLine*.pbm`, packed as
`PBMHelper::readPBM` packs them.  `tools/conform.sh` compares the four large images as well.
-/
namespace Verif.Conformance
open Verif Verif.FrameBuffer Verif.Canvas

/-- tests/data/MonochromeFrameBufferTestLine1.pbm -/
def golden1 : List Byte := [
  128, 0, 0, 0, 0, 1, 64, 0, 0, 0, 0, 2, 32, 0, 0, 0, 0, 4, 32, 0, 0, 0, 0, 4,
  16, 0, 0, 0, 0, 8, 8, 0, 0, 0, 0, 16, 4, 0, 0, 0, 0, 32, 2, 0, 0, 0, 0, 64,
  2, 0, 0, 0, 0, 64, 1, 0, 0, 0, 0, 128, 0, 128, 0, 0, 1, 0, 0, 64, 0, 0, 2, 0,
  0, 32, 0, 0, 4, 0, 0, 32, 0, 0, 4, 0, 0, 16, 0, 0, 8, 0, 0, 8, 0, 0, 16, 0,
  0, 4, 0, 0, 32, 0, 0, 2, 0, 0, 64, 0, 0, 2, 0, 0, 64, 0, 0, 1, 0, 0, 128, 0,
  0, 0, 128, 1, 0, 0, 0, 0, 64, 2, 0, 0, 0, 0, 32, 4, 0, 0, 0, 0, 32, 4, 0, 0,
  0, 0, 16, 8, 0, 0, 0, 0, 8, 16, 0, 0, 0, 0, 4, 32, 0, 0, 0, 0, 2, 64, 0, 0,
  0, 0, 2, 64, 0, 0, 0, 0, 1, 128, 0, 0, 0, 0, 1, 128, 0, 0, 0, 0, 2, 64, 0, 0,
  0, 0, 2, 64, 0, 0, 0, 0, 4, 32, 0, 0, 0, 0, 8, 16, 0, 0, 0, 0, 16, 8, 0, 0,
  0, 0, 32, 4, 0, 0, 0, 0, 32, 4, 0, 0, 0, 0, 64, 2, 0, 0, 0, 0, 128, 1, 0, 0,
  0, 1, 0, 0, 128, 0, 0, 2, 0, 0, 64, 0, 0, 2, 0, 0, 64, 0, 0, 4, 0, 0, 32, 0,
  0, 8, 0, 0, 16, 0, 0, 16, 0, 0, 8, 0, 0, 32, 0, 0, 4, 0, 0, 32, 0, 0, 4, 0,
  0, 64, 0, 0, 2, 0, 0, 128, 0, 0, 1, 0, 1, 0, 0, 0, 0, 128, 2, 0, 0, 0, 0, 64,
  2, 0, 0, 0, 0, 64, 4, 0, 0, 0, 0, 32, 8, 0, 0, 0, 0, 16, 16, 0, 0, 0, 0, 8,
  32, 0, 0, 0, 0, 4, 32, 0, 0, 0, 0, 4, 64, 0, 0, 0, 0, 2, 128, 0, 0, 0, 0, 1]

/-- tests/data/MonochromeFrameBufferTestLine2.pbm -/
def golden2 : List Byte := [
  0, 0, 0, 0, 0, 0, 0, 0, 0, 0, 0, 0, 0, 0, 0, 0, 0, 0, 0, 0, 0, 0, 0, 0,
  0, 0, 0, 0, 0, 0, 0, 0, 0, 0, 0, 0, 0, 0, 0, 0, 0, 0, 0, 0, 0, 0, 0, 0,
  0, 0, 0, 0, 0, 0, 0, 0, 0, 0, 0, 0, 0, 0, 0, 0, 0, 0, 0, 0, 0, 0, 0, 0,
  0, 0, 0, 0, 0, 0, 0, 0, 0, 0, 0, 0, 0, 0, 0, 0, 0, 0, 0, 0, 0, 0, 0, 0,
  0, 0, 0, 0, 0, 0, 0, 0, 0, 0, 0, 0, 0, 0, 0, 0, 0, 0, 0, 0, 0, 0, 0, 0,
  96, 0, 0, 0, 0, 6, 24, 0, 0, 0, 0, 24, 6, 0, 0, 0, 0, 96, 1, 128, 0, 0, 1, 128,
  0, 112, 0, 0, 14, 0, 0, 12, 0, 0, 48, 0, 0, 3, 0, 0, 192, 0, 0, 0, 192, 3, 0, 0,
  0, 0, 56, 28, 0, 0, 0, 0, 6, 96, 0, 0, 0, 0, 1, 128, 0, 0, 0, 0, 6, 96, 0, 0,
  0, 0, 56, 28, 0, 0, 0, 0, 192, 3, 0, 0, 0, 3, 0, 0, 192, 0, 0, 12, 0, 0, 48, 0,
  0, 112, 0, 0, 14, 0, 1, 128, 0, 0, 1, 128, 6, 0, 0, 0, 0, 96, 24, 0, 0, 0, 0, 24,
  96, 0, 0, 0, 0, 6, 0, 0, 0, 0, 0, 0, 0, 0, 0, 0, 0, 0, 0, 0, 0, 0, 0, 0,
  0, 0, 0, 0, 0, 0, 0, 0, 0, 0, 0, 0, 0, 0, 0, 0, 0, 0, 0, 0, 0, 0, 0, 0,
  0, 0, 0, 0, 0, 0, 0, 0, 0, 0, 0, 0, 0, 0, 0, 0, 0, 0, 0, 0, 0, 0, 0, 0,
  0, 0, 0, 0, 0, 0, 0, 0, 0, 0, 0, 0, 0, 0, 0, 0, 0, 0, 0, 0, 0, 0, 0, 0,
  0, 0, 0, 0, 0, 0, 0, 0, 0, 0, 0, 0, 0, 0, 0, 0, 0, 0, 0, 0, 0, 0, 0, 0]

/-- tests/data/MonochromeFrameBufferTestLine3.pbm -/
def golden3 : List Byte := [
  0, 0, 0, 0, 0, 0, 63, 255, 255, 255, 255, 252, 64, 0, 0, 0, 0, 2, 64, 0, 3, 0, 0, 2,
  64, 0, 4, 128, 0, 2, 64, 0, 8, 64, 0, 2, 64, 0, 16, 32, 0, 2, 64, 0, 32, 16, 0, 2,
  64, 0, 64, 8, 0, 2, 64, 0, 128, 4, 0, 2, 64, 1, 0, 2, 0, 2, 64, 2, 0, 1, 0, 2,
  64, 4, 0, 0, 128, 2, 64, 8, 0, 0, 64, 2, 64, 16, 0, 0, 32, 2, 64, 32, 0, 0, 16, 2,
  64, 64, 0, 0, 8, 2, 64, 128, 0, 0, 4, 2, 65, 0, 0, 0, 2, 2, 66, 0, 0, 0, 1, 2,
  68, 0, 0, 0, 0, 130, 72, 0, 0, 0, 0, 66, 80, 0, 0, 0, 0, 34, 80, 0, 0, 0, 0, 34,
  72, 0, 0, 0, 0, 66, 68, 0, 0, 0, 0, 130, 66, 0, 0, 0, 1, 2, 65, 0, 0, 0, 2, 2,
  64, 128, 0, 0, 4, 2, 64, 64, 0, 0, 8, 2, 64, 32, 0, 0, 16, 2, 64, 16, 0, 0, 32, 2,
  64, 8, 0, 0, 64, 2, 64, 4, 0, 0, 128, 2, 64, 2, 0, 1, 0, 2, 64, 1, 0, 2, 0, 2,
  64, 0, 128, 4, 0, 2, 64, 0, 64, 8, 0, 2, 64, 0, 32, 16, 0, 2, 64, 0, 16, 32, 0, 2,
  64, 0, 8, 64, 0, 2, 64, 0, 4, 128, 0, 2, 64, 0, 3, 0, 0, 2, 64, 0, 0, 0, 0, 2,
  64, 0, 0, 0, 0, 2, 64, 0, 0, 0, 0, 2, 63, 255, 255, 255, 255, 252, 0, 0, 0, 0, 0, 0,
  0, 0, 0, 0, 0, 0, 0, 0, 0, 0, 0, 0, 0, 0, 0, 0, 0, 0, 0, 0, 0, 0, 0, 0,
  0, 0, 0, 0, 0, 0, 0, 0, 0, 0, 0, 0, 0, 0, 0, 0, 0, 0, 0, 0, 0, 0, 0, 0,
  0, 0, 0, 0, 0, 0, 0, 0, 0, 0, 0, 0, 0, 0, 0, 0, 0, 0, 0, 0, 0, 0, 0, 0]

def g48 : Geom := ⟨48, 60, 1⟩

/-- `setRotation(r)` and lines on a cleared buffer (what `clear(false)` leaves is `clear_fills`). -/
def lines (r : Rotation) (ls : List (Pt × Pt)) : Res (List Byte) := do
  let fb ← FB.new g48 (List.replicate 360 0)
  let c := (Canvas.new g48).setRotation r
  let fb ← ls.foldlM (fun fb l => c.drawLine g48 fb l.1 l.2) fb
  .ok fb.img

-- MonochromeFrameBufferTest.cpp:88-92
example : lines .r0 [(⟨0,0⟩, ⟨47,59⟩), (⟨47,0⟩, ⟨0,59⟩)] = .ok golden1 := by decide +kernel
-- :95-101
example : lines .r0 [(⟨47,59⟩, ⟨0,0⟩), (⟨0,59⟩, ⟨47,0⟩)] = .ok golden1 := by decide +kernel
-- :102-106
example : lines .r180 [(⟨47,59⟩, ⟨0,0⟩), (⟨0,59⟩, ⟨47,0⟩)] = .ok golden1 := by decide +kernel
-- :107-111
example : lines .r90 [(⟨0,0⟩, ⟨59,47⟩), (⟨0,47⟩, ⟨59,0⟩)] = .ok golden1 := by decide +kernel
-- :112-116
example : lines .r270 [(⟨0,0⟩, ⟨59,47⟩), (⟨0,47⟩, ⟨59,0⟩)] = .ok golden1 := by decide +kernel
-- :125-135
example : lines .r0 [(⟨1,20⟩, ⟨46,40⟩), (⟨1,40⟩, ⟨46,20⟩)] = .ok golden2 := by decide +kernel
-- :138-144
example : lines .r0 [(⟨46,40⟩, ⟨1,20⟩), (⟨46,20⟩, ⟨1,40⟩)] = .ok golden2 := by decide +kernel
-- :145-149
example : lines .r180 [(⟨1,19⟩, ⟨46,39⟩), (⟨1,39⟩, ⟨46,19⟩)] = .ok golden2 := by decide +kernel
-- :150-154
example : lines .r90 [(⟨20,1⟩, ⟨40,46⟩), (⟨40,1⟩, ⟨20,46⟩)] = .ok golden2 := by decide +kernel
-- :155-159
example : lines .r270 [(⟨19,1⟩, ⟨39,46⟩), (⟨39,1⟩, ⟨19,46⟩)] = .ok golden2 := by decide +kernel
-- :166-179
example : lines .r0 [(⟨22,3⟩, ⟨3,22⟩), (⟨23,3⟩, ⟨42,22⟩), (⟨3,23⟩, ⟨22,42⟩), (⟨23,42⟩, ⟨42,23⟩),
    (⟨2,1⟩, ⟨45,1⟩), (⟨45,46⟩, ⟨2,46⟩), (⟨1,2⟩, ⟨1,45⟩), (⟨46,45⟩, ⟨46,2⟩)] = .ok golden3 := by decide +kernel

end Verif.Conformance
