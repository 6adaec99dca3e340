import Verif.Text.Model
import Verif.Font.FreeSansData
open Verif Verif.FrameBuffer Verif.Canvas Verif.Font Verif.Text

/-- text part: points only -/
def textPts (c : Canvas) (f : Font) : Pt → List Byte → Res (List Pt)
  | _, [] => .ok []
  | pos, b :: bs => do
    let shifts ← c.shifts
    let glyph ← getBitmap true f b
    let y ← chk (pos.y + glyph.oy)
    let x ← chk (pos.x + glyph.ox)
    let ps ← glyphLoop c.matrix shifts f.bitmap ⟨x, y⟩ glyph.width 0 glyph.start glyph.height
    let x ← chk (pos.x + glyph.shift)
    let rest ← textPts c f { pos with x := x } bs
    .ok (ps ++ rest)

def hello : List Byte := "Hello World!".toUTF8.toList.map (fun b => BitVec.ofNat 8 b.toNat)

def portrait (c : Canvas) : Res (List Pt) := do
  let s := c.getSize
  let w := s.width
  let a1 ← c.rectPts ⟨⟨0,0⟩, s⟩
  let a2 ← c.rectPts ⟨⟨10,10⟩, ⟨s.width-20, s.height-20⟩⟩
  let a3 ← c.rectPts ⟨⟨20,20⟩, ⟨s.width-40, s.height-40⟩⟩
  let a4 ← c.circlePts ⟨w/2, w/2⟩ ((w-60)/2) false
  let a5 ← c.circlePts ⟨w/2, w/2⟩ ((w-60)/2-55) true
  let p1 : Pt := ⟨w/2, 30⟩
  let p2 : Pt := ⟨45, (w-60)-24⟩
  let p3 : Pt := ⟨w-45, (w-60)-24⟩
  let a6 ← c.linePts p1 p2
  let a7 ← c.linePts p2 p3
  let a8 ← c.linePts p3 p1
  let a9 ← c.rectPts ⟨⟨30, w-20⟩, ⟨w-60, 80⟩⟩
  let a10 ← c.fillRectPts ⟨⟨50, w⟩, ⟨w-100, 40⟩⟩
  let a11 ← textPts c freeSans ⟨60, w+100⟩ hello
  .ok (a1++a2++a3++a4++a5++a6++a7++a8++a9++a10++a11)

def landscape (c : Canvas) : Res (List Pt) := do
  let s := c.getSize
  let w := s.width
  let h := s.height
  let a1 ← c.rectPts ⟨⟨0,0⟩, s⟩
  let a2 ← c.rectPts ⟨⟨10,10⟩, ⟨s.width-20, s.height-20⟩⟩
  let a3 ← c.rectPts ⟨⟨20,20⟩, ⟨s.width-40, s.height-40⟩⟩
  let a4 ← c.circlePts ⟨h/2, h/2⟩ ((h-60)/2) false
  let a5 ← c.circlePts ⟨h/2, h/2⟩ ((h-60)/2-55) true
  let p1 : Pt := ⟨h/2, 30⟩
  let p2 : Pt := ⟨45, (h-60)-24⟩
  let p3 : Pt := ⟨h-45, (h-60)-24⟩
  let a6 ← c.linePts p1 p2
  let a7 ← c.linePts p2 p3
  let a8 ← c.linePts p3 p1
  let a9 ← c.rectPts ⟨⟨h-20, 30⟩, ⟨w-h-10, 80⟩⟩
  let a10 ← c.fillRectPts ⟨⟨h, 50⟩, ⟨w-h-50, 40⟩⟩
  let a12 ← c.linePts ⟨h, 160⟩ ⟨h+100, 160⟩
  let a11 ← textPts c freeSans ⟨h, 160⟩ hello
  .ok (a1++a2++a3++a4++a5++a6++a7++a8++a9++a10++a12++a11)

def line1 (c : Canvas) : Res (List Pt) := do
  let a ← c.linePts ⟨0,0⟩ ⟨47,59⟩
  let b ← c.linePts ⟨47,0⟩ ⟨0,59⟩
  .ok (a++b)
def line2 (c : Canvas) : Res (List Pt) := do
  let a ← c.linePts ⟨1,20⟩ ⟨46,40⟩
  let b ← c.linePts ⟨1,40⟩ ⟨46,20⟩
  .ok (a++b)
def line3 (c : Canvas) : Res (List Pt) := do
  let st : Int := 19; let sh : Int := 3
  let a1 ← c.linePts ⟨st+sh, sh⟩ ⟨sh, st+sh⟩
  let a2 ← c.linePts ⟨st+sh+1, sh⟩ ⟨2*st+sh+1, st+sh⟩
  let a3 ← c.linePts ⟨sh, st+sh+1⟩ ⟨st+sh, 2*st+sh+1⟩
  let a4 ← c.linePts ⟨st+sh+1, 2*st+sh+1⟩ ⟨2*st+sh+1, st+sh+1⟩
  let a5 ← c.linePts ⟨2,1⟩ ⟨45,1⟩
  let a6 ← c.linePts ⟨45,46⟩ ⟨2,46⟩
  let a7 ← c.linePts ⟨1,2⟩ ⟨1,45⟩
  let a8 ← c.linePts ⟨46,45⟩ ⟨46,2⟩
  .ok (a1++a2++a3++a4++a5++a6++a7++a8)

def check (name : String) (g : Geom) (c : Canvas) (pts : Res (List Pt)) : IO Unit := do
  let txt ← IO.FS.readFile s!"/repo/tests/data/{name}.pbm"
  let bits := ((txt.splitOn "\n").drop 2).foldl (fun (a : Array Bool) l =>
    l.foldl (fun a ch => if ch == '0' then a.push false else if ch == '1' then a.push true else a) a) #[]
  let n := (g.width * g.height).toNat
  match pts with
  | .ok ps =>
    let mut img := Array.replicate n false
    for p in ps do
      if c.visible p then img := img.set! (p.x + p.y * g.width).toNat true
    let mut d := 0
    for i in [0:n] do if img[i]! != bits[i]! then d := d + 1
    IO.println s!"{name}: {bits.size} golden bits, {ps.length} points, {(img.filter id).size} set, {d} differences"
  | _ => IO.println s!"{name}: not ok"

def main : IO Unit := do
  let g : Geom := ⟨48, 60, 1⟩
  let c := Canvas.new g
  check "MonochromeFrameBufferTestLine1" g c (line1 c)
  check "MonochromeFrameBufferTestLine2" g c (line2 c)
  check "MonochromeFrameBufferTestLine3" g c (line3 c)
  let g : Geom := ⟨280, 480, 1⟩
  let c := Canvas.new g
  check "MonochromeFrameBufferTest0" g c (portrait c)
  check "MonochromeFrameBufferTest180" g c (portrait (c.setRotation .r180))
  check "MonochromeFrameBufferTest90" g c (landscape (c.setRotation .r90))
  check "MonochromeFrameBufferTest270" g c (landscape (c.setRotation .r270))
