import Verif.Text.Picture
import Verif.Text.Writes
import Verif.Storage.Tasks
/-!
# Tasks which draw on one frame buffer (C134)

Neither the frame buffer nor the canvas has a lock.  Here the drawing calls are written once more as programs of single
accesses to the bytes of `buffer` and to `selectedColor`, in the order of the source text; several tasks, each with a
canvas of its own on the same frame buffer, perform them in any interleaving.  The programs of accesses are those of C129;
the word besides the bytes (there `free_head_`) is `selectedColor` here.

Simplification: accesses are performed one after the other (sequential consistency), which is what C++ guarantees for
programs without data races; the theorem includes that there are none.
-/
namespace Verif.Text
open Verif.Canvas Verif.FrameBuffer Verif.Font
open Verif.Storage (Acc interleave put)

/-! ## The code, access by access -/

/-- An assignment to a byte of `buffer`; the value depends on the colour.  `|=` and `&=` read the byte first. -/
inductive Assign where
  | update (k : Nat) (f : BitVec 32 → Byte → Byte)
  | plain (k : Nat) (f : BitVec 32 → Byte)

/-- The `int` index converts to `size_t`; negative ones are far outside. -/
def index (k : Int) : Res Nat := if 0 ≤ k then .ok k.toNat else .ub

/-- The assignments of `drawPixel(posX, posY, color)`, SimpleFrameBuffer.h:39-88. -/
def assigns (g : Geom) (posX posY : Int) : Res (List Assign) := do
  let row ← chk (posY * g.effW)
  let idx ← chk (row + posX)
  let bits ← chk (idx * g.depth)
  let off := bits.tdiv 8
  if g.depth = 1 then do
    let s ← shiftCount (posX.tmod 8)
    let mask : Byte := (0x80 : Byte) >>> s
    let k ← index off
    .ok [.update k fun color b => if color ≠ 0 then b ||| mask else b &&& ~~~mask]
  else if g.depth = 2 then do
    let s ← shiftCount (posX.tmod 4 * 2)
    let mask : Byte := (0xC0 : Byte) >>> s
    let k ← index off
    let s2 ← shiftCount (2 - posX.tmod 4 * 2)
    .ok [.update k fun _ b => b &&& ~~~mask, .update k fun color b => b ||| ((color &&& 3) <<< s2).truncate 8]
  else if g.depth = 4 then do
    let s ← shiftCount (posX.tmod 2 * 4)
    let mask : Byte := (0xF0 : Byte) >>> s
    let k ← index off
    let s2 ← shiftCount (4 - posX.tmod 2 * 4)
    .ok [.update k fun _ b => b &&& ~~~mask, .update k fun color b => b ||| ((color &&& 15) <<< s2).truncate 8]
  else if g.depth = 8 then do
    let k ← index off
    .ok [.plain k fun color => color.truncate 8]
  else if g.depth = 16 then do
    let k ← index off
    let o1 ← chk (off + 1)
    let k1 ← index o1
    .ok [.plain k fun color => (color >>> 8).truncate 8, .plain k1 fun color => (color &&& 0xFF).truncate 8]
  else if g.depth = 24 then do
    let k ← index off
    let o1 ← chk (off + 1)
    let k1 ← index o1
    let o2 ← chk (off + 2)
    let k2 ← index o2
    .ok [.plain k fun color => (color >>> 16).truncate 8, .plain k1 fun color => ((color >>> 8) &&& 0xFF).truncate 8,
      .plain k2 fun color => (color &&& 0xFF).truncate 8]
  else if g.depth = 32 then do
    let k ← index off
    let o1 ← chk (off + 1)
    let k1 ← index o1
    let o2 ← chk (off + 2)
    let k2 ← index o2
    let o3 ← chk (off + 3)
    let k3 ← index o3
    .ok [.plain k fun color => (color >>> 24).truncate 8, .plain k1 fun color => ((color >>> 16) &&& 0xFF).truncate 8,
      .plain k2 fun color => ((color >>> 8) &&& 0xFF).truncate 8, .plain k3 fun color => (color &&& 0xFF).truncate 8]
  else .ok []

/-- The accesses of an assignment. -/
def Assign.code (color : BitVec 32) : Assign → Acc Unit
  | .update k f => .read k fun b => .write k (f color b) (.ret ())
  | .plain k f => .write k (f color) (.ret ())

/-- One assignment after the other. -/
def assignsA (color : BitVec 32) : List Assign → Acc Unit
  | [] => .ret ()
  | a :: as => (a.code color).bind fun _ => assignsA color as

/-- `drawPixel(posX, posY)`, SimpleFrameBuffer.h:29-32: `selectedColor` is read and passed by value. -/
def pixelA (g : Geom) (p : Pt) : Res (Acc Unit) := do
  let as ← assigns g p.x p.y
  .ok (.head fun sel => assignsA (BitVec.ofNat 32 sel) as)

/-- `setIfVisible` (Canvas.h:84-90) for each point in turn. -/
def paintA (c : Canvas) (g : Geom) : List Pt → Res (Acc Unit)
  | [] => .ok (.ret ())
  | p :: ps =>
    if c.visible p then do
      let a ← pixelA g p
      let rest ← paintA c g ps
      .ok (a.bind fun _ => rest)
    else paintA c g ps

/-- What a task does with its canvas; everything but clearing, which concerns the whole screen. -/
inductive Job where
  | color (c : BitVec 32)
  | rotate (r : Rotation)
  | shape (s : Shape)
  | text (f : Font) (pos : Pt) (bytes : List Byte)

/-- The commands of C83. -/
def Job.cmd : Job → Cmd
  | .color c => .color c
  | .rotate r => .rotate r
  | .shape s => .shape s
  | .text f pos bytes => .text f pos bytes

/-- The accesses of a task.  The rotation belongs to the canvas of the task. -/
def jobsA (signed : Bool) (g : Geom) : Canvas → List Job → Res (Acc Unit)
  | _, [] => .ok (.ret ())
  | c, .color col :: js => do
    let m ← colorMask g
    let rest ← jobsA signed g c js
    .ok (.setHead (col &&& m).toNat rest)
  | c, .rotate r :: js => jobsA signed g (c.setRotation r) js
  | c, .shape s :: js => do
    let ps ← c.points s
    let a ← paintA c g ps
    let rest ← jobsA signed g c js
    .ok (a.bind fun _ => rest)
  | c, .text f pos bytes :: js => do
    let ps ← stringPts c signed f pos bytes
    let a ← paintA c g ps
    let rest ← jobsA signed g c js
    .ok (a.bind fun _ => rest)

/-! ## Specification -/

/-- The byte `i` holds a bit of the pixel `q` (cf. `pixel`). -/
def InByte (g : Geom) (q : Pt) (i : Nat) : Prop := ∃ k, k < g.depth ∧ (pixelNo g q.x q.y * g.depth + k) / 8 = i

/-- Two pixels have a byte in common. -/
def Share (g : Geom) (p q : Pt) : Prop := ∃ i, InByte g p i ∧ InByte g q i

/-- The task draws the physical pixel `q`, by the specification of C83. -/
def Draws (signed : Bool) (g : Geom) (pen : Pen) (js : List Job) (q : Pt) : Prop :=
  ∃ l ∈ layers signed g pen (js.map Job.cmd), l.1 q

/-! ## The accesses, alone, are the model -/

def Assign.apply (img : List Byte) (color : BitVec 32) : Assign → Res (List Byte)
  | .update k f => match img[k]? with
    | some b => .ok (img.set k (f color b))
    | none => .ub
  | .plain k f => if k < img.length then .ok (img.set k (f color)) else .ub

def applyAll (color : BitVec 32) : List Byte → List Assign → Res (List Byte)
  | img, [] => .ok img
  | img, a :: as => do
    let img' ← a.apply img color
    applyAll color img' as

theorem assignsA_exec (color : BitVec 32) (as : List Assign) (img : List Byte) (n : Nat) :
    (assignsA color as).exec ⟨img, n⟩ = (applyAll color img as >>= fun m => .ok ((), ⟨m, n⟩)) := by
  induction as generalizing img with
  | nil => rfl
  | cons a as ih =>
    simp only [assignsA, Storage.Acc.exec_bind, applyAll]
    cases a with
    | update k f =>
      simp only [Assign.code, Acc.exec, Assign.apply]
      cases hk : img[k]? with
      | none => rfl
      | some b =>
        simp only [if_pos (List.getElem?_eq_some_iff.1 hk).1, Res.bind_ok]
        exact ih _
    | plain k f =>
      simp only [Assign.code, Acc.exec, Assign.apply]
      by_cases hk : k < img.length
      · simp only [if_pos hk, Res.bind_ok]
        exact ih _
      · simp only [if_neg hk]; rfl

theorem upd_update {k : Int} {n : Nat} (h : index k = .ok n) (img : List Byte) (color : BitVec 32) (f : BitVec 32 → Byte → Byte) :
    upd img k (f color) = (Assign.update n f).apply img color := by
  unfold index at h
  unfold upd
  split at h
  · rename_i h0
    cases h
    rw [if_pos h0]
    rfl
  · cases h

theorem upd_plain {k : Int} {n : Nat} (h : index k = .ok n) (img : List Byte) (color : BitVec 32) (f : BitVec 32 → Byte) :
    upd img k (fun _ => f color) = (Assign.plain n f).apply img color := by
  unfold index at h
  unfold upd
  split at h
  · rename_i h0
    cases h
    rw [if_pos h0]
    simp only [Assign.apply]
    by_cases hk : k.toNat < img.length
    · rw [if_pos hk, List.getElem?_eq_getElem hk]
    · rw [if_neg hk, List.getElem?_eq_none (by omega)]
  · cases h

/-- The assignments are those of the model of C24. -/
theorem drawPixelC_assigns {g : Geom} {x y : Int} {as : List Assign} (h : assigns g x y = .ok as) (img : List Byte)
    (color : BitVec 32) : drawPixelC g img x y color = applyAll color img as := by
  unfold assigns at h
  unfold drawPixelC
  simp only [Res.bind_eq_ok] at h
  obtain ⟨row, h1, idx, h2, bits, h3, h⟩ := h
  rw [h1, Res.bind_ok, h2, Res.bind_ok, h3, Res.bind_ok]
  simp only at h ⊢
  split at h
  · rename_i hd
    rw [if_pos hd]
    simp only [Res.bind_eq_ok] at h
    obtain ⟨s, k1, k, k2, h⟩ := h
    cases h
    rw [k1, Res.bind_ok]
    simp only [applyAll]
    rw [← upd_update k2]
    by_cases hc : color ≠ 0
    · simp only [if_pos hc]
      cases upd img (bits.tdiv 8) _ <;> rfl
    · simp only [if_neg hc]
      cases upd img (bits.tdiv 8) _ <;> rfl
  · rename_i hd
    rw [if_neg hd]
    split at h
    · rename_i hd
      rw [if_pos hd]
      simp only [Res.bind_eq_ok] at h
      obtain ⟨s, k1, k, k2, s2, k3, h⟩ := h
      cases h
      rw [k1, Res.bind_ok]
      simp only [applyAll, k3, Res.bind_ok, ← upd_update k2]
      cases upd img (bits.tdiv 8) _ with
      | ok m => simp only [Res.bind_ok]; cases upd m (bits.tdiv 8) _ <;> rfl
      | ub => rfl
      | hang => rfl
    · rename_i hd
      rw [if_neg hd]
      split at h
      · rename_i hd
        rw [if_pos hd]
        simp only [Res.bind_eq_ok] at h
        obtain ⟨s, k1, k, k2, s2, k3, h⟩ := h
        cases h
        rw [k1, Res.bind_ok]
        simp only [applyAll, k3, Res.bind_ok, ← upd_update k2]
        cases upd img (bits.tdiv 8) _ with
        | ok m => simp only [Res.bind_ok]; cases upd m (bits.tdiv 8) _ <;> rfl
        | ub => rfl
        | hang => rfl
      · rename_i hd
        rw [if_neg hd]
        split at h
        · rename_i hd
          rw [if_pos hd]
          simp only [Res.bind_eq_ok] at h
          obtain ⟨k, k1, h⟩ := h
          cases h
          simp only [applyAll, ← upd_plain k1]
          cases upd img (bits.tdiv 8) _ <;> rfl
        · rename_i hd
          rw [if_neg hd]
          split at h
          · rename_i hd
            rw [if_pos hd]
            simp only [Res.bind_eq_ok] at h
            obtain ⟨k, k1, o1, c1, k', k2, h⟩ := h
            cases h
            simp only [applyAll, c1, Res.bind_ok, ← upd_plain k1, ← upd_plain k2]
            cases upd img (bits.tdiv 8) _ with
            | ok m => simp only [Res.bind_ok]; cases upd m o1 _ <;> rfl
            | ub => rfl
            | hang => rfl
          · rename_i hd
            rw [if_neg hd]
            split at h
            · rename_i hd
              rw [if_pos hd]
              simp only [Res.bind_eq_ok] at h
              obtain ⟨k, k1, o1, c1, k', k2, o2, c2, k'', k3, h⟩ := h
              cases h
              simp only [applyAll, c1, c2, Res.bind_ok, ← upd_plain k1, ← upd_plain k2, ← upd_plain k3]
              cases upd img (bits.tdiv 8) _ with
              | ok m =>
                simp only [Res.bind_ok]
                cases upd m o1 _ with
                | ok m => simp only [Res.bind_ok]; cases upd m o2 _ <;> rfl
                | ub => rfl
                | hang => rfl
              | ub => rfl
              | hang => rfl
            · rename_i hd
              rw [if_neg hd]
              split at h
              · rename_i hd
                rw [if_pos hd]
                simp only [Res.bind_eq_ok] at h
                obtain ⟨k, k1, o1, c1, k', k2, o2, c2, k'', k3, o3, c3, k''', k4, h⟩ := h
                cases h
                simp only [applyAll, c1, c2, c3, Res.bind_ok, ← upd_plain k1, ← upd_plain k2, ← upd_plain k3, ← upd_plain k4]
                cases upd img (bits.tdiv 8) _ with
                | ok m =>
                  simp only [Res.bind_ok]
                  cases upd m o1 _ with
                  | ok m =>
                    simp only [Res.bind_ok]
                    cases upd m o2 _ with
                    | ok m => simp only [Res.bind_ok]; cases upd m o3 _ <;> rfl
                    | ub => rfl
                    | hang => rfl
                  | ub => rfl
                  | hang => rfl
                | ub => rfl
                | hang => rfl
              · rename_i hd
                rw [if_neg hd]
                cases h
                rfl

theorem pixelA_exec {g : Geom} {p : Pt} {a : Acc Unit} (h : pixelA g p = .ok a) (fb : FB) :
    a.exec ⟨fb.img, fb.sel.toNat⟩ = (fb.drawPixel g p.x p.y >>= fun fb' => .ok ((), ⟨fb'.img, fb'.sel.toNat⟩)) := by
  unfold pixelA at h
  rw [Res.bind_eq_ok] at h
  obtain ⟨as, h1, h⟩ := h
  cases h
  unfold FB.drawPixel
  rw [drawPixelC_assigns h1]
  simp only [Acc.exec, assignsA_exec, BitVec.ofNat_toNat, BitVec.setWidth_eq]
  cases applyAll fb.sel fb.img as <;> rfl

theorem paintA_exec {c : Canvas} {g : Geom} {ps : List Pt} {a : Acc Unit} (h : paintA c g ps = .ok a) (fb : FB) :
    a.exec ⟨fb.img, fb.sel.toNat⟩ = (c.paint g fb ps >>= fun fb' => .ok ((), ⟨fb'.img, fb'.sel.toNat⟩)) := by
  induction ps generalizing a fb with
  | nil => cases h; rfl
  | cons p ps ih =>
    simp only [paintA, Canvas.paint, Canvas.setIfVisible] at h ⊢
    by_cases hv : c.visible p = true
    · rw [if_pos hv] at h ⊢
      simp only [Res.bind_eq_ok] at h
      obtain ⟨a1, h1, rest, h2, h⟩ := h
      cases h
      rw [Storage.Acc.exec_bind, pixelA_exec h1]
      cases fb.drawPixel g p.x p.y with
      | ok fb1 => simp only [Res.bind_ok]; exact ih h2 fb1
      | ub => rfl
      | hang => rfl
    · rw [if_neg hv] at h ⊢
      exact ih h fb

theorem char_pts {c : Canvas} {g : Geom} {fb fb' : FB} {signed : Bool} {f : Font} {pos : Pt} {b : Byte} {adv : Int}
    (h : drawCharAt c g fb signed f pos b = .ok (fb', adv)) :
    ∃ ps, charPts c signed f pos b = .ok (ps, adv) ∧ c.paint g fb ps = .ok fb' := by
  unfold drawCharAt at h
  simp only [Res.bind_eq_ok] at h
  obtain ⟨sh, h1, gl, h2, y, h3, x, h4, ps, h5, fb1, h6, h⟩ := h
  simp only [Res.ok.injEq, Prod.mk.injEq] at h
  obtain ⟨rfl, rfl⟩ := h
  refine ⟨ps, ?_, h6⟩
  unfold charPts
  rw [h1, Res.bind_ok, h2, Res.bind_ok, h3, Res.bind_ok, h4, Res.bind_ok, h5, Res.bind_ok]

theorem string_pts {c : Canvas} {g : Geom} {signed : Bool} {f : Font} (bytes : List Byte) : ∀ {fb fb' : FB} {pos : Pt},
    drawStringAt c g signed f fb pos bytes = .ok fb' →
    ∃ ps, stringPts c signed f pos bytes = .ok ps ∧ c.paint g fb ps = .ok fb' := by
  induction bytes with
  | nil => intro fb fb' pos h; cases h; exact ⟨[], rfl, rfl⟩
  | cons b bs ih =>
    intro fb fb' pos h
    simp only [drawStringAt, Res.bind_eq_ok] at h
    obtain ⟨⟨fb1, adv⟩, h1, x, h2, h⟩ := h
    obtain ⟨ps, k1, k2⟩ := char_pts h1
    obtain ⟨rest, k3, k4⟩ := ih h
    refine ⟨ps ++ rest, ?_, ?_⟩
    · simp only [stringPts, k1, Res.bind_ok]
      rw [h2, Res.bind_ok, k3, Res.bind_ok]
    · rw [paint_append, k2, Res.bind_ok, k4]

/-- The accesses of a task, performed one after the other without anybody else, are its commands of C83. -/
theorem jobsA_exec {signed : Bool} {g : Geom} (js : List Job) : ∀ {c c' : Canvas} {fb fb' : FB} {a : Acc Unit},
    execAll signed g c fb (js.map Job.cmd) = .ok (c', fb') → jobsA signed g c js = .ok a →
    a.exec ⟨fb.img, fb.sel.toNat⟩ = .ok ((), ⟨fb'.img, fb'.sel.toNat⟩) := by
  induction js with
  | nil => intro c c' fb fb' a h ha; cases h; cases ha; rfl
  | cons j js ih =>
    intro c c' fb fb' a h ha
    simp only [List.map_cons, execAll, Res.bind_eq_ok] at h
    obtain ⟨⟨c1, fb1⟩, h1, h⟩ := h
    cases j with
    | color col =>
      simp only [Job.cmd, Cmd.exec, FB.setColor, Res.bind_eq_ok] at h1
      obtain ⟨_, ⟨m, h2, h3⟩, h1⟩ := h1
      cases h3
      cases h1
      simp only [jobsA, Res.bind_eq_ok] at ha
      obtain ⟨m', k1, rest, k2, ha⟩ := ha
      cases ha
      rw [h2] at k1
      cases k1
      have e := ih h k2
      simpa only [Acc.exec] using e
    | rotate r =>
      simp only [Job.cmd, Cmd.exec] at h1
      cases h1
      exact ih h ha
    | shape s =>
      simp only [Job.cmd, Cmd.exec, Res.bind_eq_ok, draw_eq] at h1
      obtain ⟨_, ⟨ps, h2, h3⟩, h1⟩ := h1
      cases h1
      simp only [jobsA, Res.bind_eq_ok] at ha
      obtain ⟨ps', k1, a1, k2, rest, k3, ha⟩ := ha
      cases ha
      rw [h2] at k1
      cases k1
      rw [Storage.Acc.exec_bind, paintA_exec k2, h3]
      simp only [Res.bind_ok]
      exact ih h k3
    | text f pos bytes =>
      simp only [Job.cmd, Cmd.exec, Res.bind_eq_ok] at h1
      obtain ⟨_, h3, h1⟩ := h1
      cases h1
      obtain ⟨ps, h2, h3⟩ := string_pts bytes h3
      simp only [jobsA, Res.bind_eq_ok] at ha
      obtain ⟨ps', k1, a1, k2, rest, k3, ha⟩ := ha
      cases ha
      rw [h2] at k1
      cases k1
      rw [Storage.Acc.exec_bind, paintA_exec k2, h3]
      simp only [Res.bind_ok]
      exact ih h k3

/-! ## The bytes of a pixel -/

def Assign.pos : Assign → Nat
  | .update k _ => k
  | .plain k _ => k

private theorem index_nat (n : Nat) : index (n : Int) = .ok n := by
  rw [index, if_pos (by omega), Int.toNat_natCast]

private theorem shift_nat {s : Nat} (h : s < 32) : shiftCount (s : Int) = .ok s := by
  rw [shiftCount, if_pos (by omega), Int.toNat_natCast]

/-- Drawing a pixel of the screen assigns to bytes of that pixel only, all of them in the image. -/
theorem assigns_ok {g : Geom} (hg : g.Compiles) (h2 : g.depth ≠ 2) {n : Nat} (hl : (n : Int) = g.bufSize) {p : Pt}
    (hr : InRange g p.x p.y) : ∃ as, assigns g p.x p.y = .ok as ∧ ∀ a ∈ as, InByte g p a.pos ∧ a.pos < n := by
  obtain ⟨W, h⟩ := inRange_index hg (img := List.replicate n 0) (by rw [List.length_replicate]; exact hl) hr
  have hlast := h.last
  rw [List.length_replicate] at hlast
  have hoff := h.off_int
  have hx8 := h.xmod8
  unfold InByte
  generalize hP : pixelNo g p.x p.y = P at h hlast hoff hx8 ⊢
  unfold assigns
  rw [h.row_chk]; simp only [Res.bind_ok]
  rw [h.idx_chk]; simp only [Res.bind_ok]
  rw [h.bits_chk]; simp only [Res.bind_ok]
  have tm : ∀ b : Nat, p.x.tmod (b : Int) = ((p.x.toNat % b : Nat) : Int) := fun b => by
    conv_lhs => rw [h.x_nat]
    rfl
  have td : ∀ a : Nat, (a : Int).tdiv 8 = ((a / 8 : Nat) : Int) := fun a => rfl
  have c1 : ∀ a : Nat, (a : Int) + 1 = ((a + 1 : Nat) : Int) := fun a => by push_cast; rfl
  have c2 : ∀ a : Nat, (a : Int) + 2 = ((a + 2 : Nat) : Int) := fun a => by push_cast; rfl
  have c3 : ∀ a : Nat, (a : Int) + 3 = ((a + 3 : Nat) : Int) := fun a => by push_cast; rfl
  have ck : ∀ a : Nat, 8 * a ≤ (P + 1) * g.depth → chk (a : Int) = .ok (a : Int) := fun a ha =>
    chk_ok (by constructor <;> omega)
  clear hoff
  rcases hg.depth_ok with hd | hd | hd | hd | hd | hd | hd
  · rw [hd] at hlast
    have t := tm 8
    rw [if_pos hd, hd]
    simp only [td, index_nat, Res.bind_ok]
    rw [show (8 : Int) = ((8 : Nat) : Int) from rfl, t, shift_nat (by omega)]
    refine ⟨_, rfl, ?_⟩
    simp only [List.mem_singleton, forall_eq, Assign.pos]
    exact ⟨⟨0, by omega, by omega⟩, by omega⟩
  · exact absurd hd h2
  · rw [hd] at hlast
    have t := tm 2
    rw [if_neg (by omega), if_neg (by omega), if_pos hd, hd]
    simp only [td, index_nat, Res.bind_ok]
    rw [show p.x.tmod 2 = ((p.x.toNat % 2 : Nat) : Int) from t,
      show ((p.x.toNat % 2 : Nat) : Int) * 4 = ((p.x.toNat % 2 * 4 : Nat) : Int) by push_cast; rfl,
      show (4 : Int) - ((p.x.toNat % 2 * 4 : Nat) : Int) = ((4 - p.x.toNat % 2 * 4 : Nat) : Int) by omega,
      shift_nat (by omega), shift_nat (by omega)]
    refine ⟨_, rfl, ?_⟩
    simp only [List.mem_cons, List.not_mem_nil, or_false, forall_eq_or_imp, forall_eq, Assign.pos]
    exact ⟨⟨⟨0, by omega, by omega⟩, by omega⟩, ⟨0, by omega, by omega⟩, by omega⟩
  · rw [hd] at hlast
    rw [if_neg (by omega), if_neg (by omega), if_neg (by omega), if_pos hd, hd]
    simp only [td, index_nat, Res.bind_ok]
    refine ⟨_, rfl, ?_⟩
    simp only [List.mem_singleton, forall_eq, Assign.pos]
    exact ⟨⟨0, by omega, by omega⟩, by omega⟩
  · rw [hd] at hlast ck
    rw [if_neg (by omega), if_neg (by omega), if_neg (by omega), if_neg (by omega), if_pos hd, hd]
    rw [td, index_nat, Res.bind_ok, c1]
    rw [ck _ (by omega), Res.bind_ok, index_nat, Res.bind_ok]
    refine ⟨_, rfl, ?_⟩
    simp only [List.mem_cons, List.not_mem_nil, or_false, forall_eq_or_imp, forall_eq, Assign.pos]
    exact ⟨⟨⟨0, by omega, by omega⟩, by omega⟩, ⟨8, by omega, by omega⟩, by omega⟩
  · rw [hd] at hlast ck
    rw [if_neg (by omega), if_neg (by omega), if_neg (by omega), if_neg (by omega), if_neg (by omega), if_pos hd, hd]
    rw [td, index_nat, Res.bind_ok, c1, c2]
    rw [ck _ (by omega), Res.bind_ok, index_nat, Res.bind_ok]
    rw [ck _ (by omega), Res.bind_ok, index_nat, Res.bind_ok]
    refine ⟨_, rfl, ?_⟩
    simp only [List.mem_cons, List.not_mem_nil, or_false, forall_eq_or_imp, forall_eq, Assign.pos]
    exact ⟨⟨⟨0, by omega, by omega⟩, by omega⟩, ⟨⟨8, by omega, by omega⟩, by omega⟩, ⟨16, by omega, by omega⟩, by omega⟩
  · rw [hd] at hlast ck
    rw [if_neg (by omega), if_neg (by omega), if_neg (by omega), if_neg (by omega), if_neg (by omega), if_neg (by omega), if_pos hd, hd]
    rw [td, index_nat, Res.bind_ok, c1, c2, c3]
    rw [ck _ (by omega), Res.bind_ok, index_nat, Res.bind_ok]
    rw [ck _ (by omega), Res.bind_ok, index_nat, Res.bind_ok]
    rw [ck _ (by omega), Res.bind_ok, index_nat, Res.bind_ok]
    refine ⟨_, rfl, ?_⟩
    simp only [List.mem_cons, List.not_mem_nil, or_false, forall_eq_or_imp, forall_eq, Assign.pos]
    exact ⟨⟨⟨0, by omega, by omega⟩, by omega⟩, ⟨⟨8, by omega, by omega⟩, by omega⟩, ⟨⟨16, by omega, by omega⟩, by omega⟩,
      ⟨24, by omega, by omega⟩, by omega⟩

private theorem row_col {W a b r s : Int} (hr : 0 ≤ r ∧ r < W) (hs : 0 ≤ s ∧ s < W) (h : a * W + r = b * W + s) :
    a = b ∧ r = s := by
  have d1 : (a * W + r) / W = a := by
    rw [Int.add_comm, Int.add_mul_ediv_right _ _ (by omega), Int.ediv_eq_zero_of_lt hr.1 hr.2, Int.zero_add]
  have d2 : (b * W + s) / W = b := by
    rw [Int.add_comm, Int.add_mul_ediv_right _ _ (by omega), Int.ediv_eq_zero_of_lt hs.1 hs.2, Int.zero_add]
  have e : a = b := by rw [← d1, ← d2, h]
  subst e
  exact ⟨rfl, by omega⟩

theorem pixelNo_inj {g : Geom} {p q : Pt} (hp : InRange g p.x p.y) (hq : InRange g q.x q.y)
    (h : pixelNo g p.x p.y = pixelNo g q.x q.y) : p = q := by
  have ⟨a0, a1, a2, a3⟩ := hp
  have ⟨b0, b1, b2, b3⟩ := hq
  unfold pixelNo at h
  have m1 : 0 ≤ p.y * g.getWidth := Int.mul_nonneg a2 (by omega)
  have m2 : 0 ≤ q.y * g.getWidth := Int.mul_nonneg b2 (by omega)
  obtain ⟨h1, h2⟩ := row_col ⟨a0, a1⟩ ⟨b0, b1⟩ (show p.y * g.getWidth + p.x = q.y * g.getWidth + q.x by omega)
  obtain ⟨px, py⟩ := p
  obtain ⟨qx, qy⟩ := q
  simp only at h1 h2
  rw [h1, h2]

/-- **C134**: two pixels of the screen have a byte in common exactly if they are in the same row and in the same byte of
the row; with eight and more bits per pixel only equal pixels have. -/
theorem share_iff {g : Geom} (hg : g.Compiles) (h2 : g.depth ≠ 2) (hb : 0 ≤ g.bufSize) {p q : Pt} (hp : InRange g p.x p.y)
    (hq : InRange g q.x q.y) : Share g p q ↔ p.y = q.y ∧ p.x * g.depth / 8 = q.x * g.depth / 8 := by
  obtain ⟨n, hn⟩ := Int.eq_ofNat_of_zero_le hb
  have hl : ((List.replicate n (0 : Byte)).length : Int) = g.bufSize := by rw [List.length_replicate]; exact hn.symm
  obtain ⟨W, h⟩ := inRange_index hg hl hp
  obtain ⟨W', h'⟩ := inRange_index hg hl hq
  have hw : W' = W := by have := h.w_eq; have := h'.w_eq; omega
  subst hw
  have e1 := h.p_eq
  have e2 := h'.p_eq
  have w8 := h.w8
  have we := h.w_eq
  have ⟨a0, a1, a2, a3⟩ := hp
  have ⟨b0, b1, b2, b3⟩ := hq
  have gw : g.getWidth = g.effW := rfl
  rw [gw] at a1 b1
  have m8 := h.xmod8
  have m8' := h'.xmod8
  constructor
  · rintro ⟨i, ⟨k, k1, k2⟩, k', k3, k4⟩
    rcases hg.depth_ok with hd | hd | hd | hd | hd | hd | hd
    · rw [hd] at k1 k2 k3 k4 ⊢
      obtain ⟨j1, j2⟩ := row_col (a := p.y) (b := q.y) (r := p.x - p.x % 8) (s := q.x - q.x % 8) (W := g.effW) (by omega)
        (by omega) (by omega)
      exact ⟨j1, by omega⟩
    · exact absurd hd h2
    · rw [hd] at k1 k2 k3 k4 ⊢
      obtain ⟨j1, j2⟩ := row_col (a := p.y) (b := q.y) (r := p.x - p.x % 2) (s := q.x - q.x % 2) (W := g.effW) (by omega)
        (by omega) (by omega)
      exact ⟨j1, by omega⟩
    all_goals
      rw [hd] at k1 k2 k3 k4
      have := pixelNo_inj hp hq (by omega)
      subst this
      exact ⟨rfl, rfl⟩
  · rintro ⟨hy, hx⟩
    unfold Share InByte
    generalize pixelNo g p.x p.y = P at e1 m8 ⊢
    generalize pixelNo g q.x q.y = Q at e2 m8' ⊢
    rw [hy] at e1
    generalize q.y * g.effW = R at e1 e2
    rcases hg.depth_ok with hd | hd | hd | hd | hd | hd | hd
    · rw [hd] at hx ⊢
      exact ⟨_, ⟨0, by omega, rfl⟩, 0, by omega, by omega⟩
    · exact absurd hd h2
    · rw [hd] at hx ⊢
      exact ⟨_, ⟨0, by omega, rfl⟩, 0, by omega, by omega⟩
    all_goals
      rw [hd] at hx ⊢
      exact ⟨_, ⟨0, by omega, rfl⟩, 0, by omega, by omega⟩

/-- A pixel with a byte of another pixel: it is that pixel, or all its bits are in that byte. -/
private theorem one_byte {g : Geom} (hg : g.Compiles) (h2 : g.depth ≠ 2) {p q : Pt} (hp : InRange g p.x p.y)
    (hq : InRange g q.x q.y) {i : Nat} (h1 : InByte g p i) (h3 : InByte g q i) : p = q ∨ ∀ j, InByte g q j → j = i := by
  obtain ⟨k, k1, k2⟩ := h1
  obtain ⟨k', k3, k4⟩ := h3
  rcases hg.depth_ok with hd | hd | hd | hd | hd | hd | hd
  · rw [hd] at k1 k2 k3 k4
    right
    rintro j ⟨l, l1, l2⟩
    rw [hd] at l1 l2
    omega
  · exact absurd hd h2
  · rw [hd] at k1 k2 k3 k4
    right
    rintro j ⟨l, l1, l2⟩
    rw [hd] at l1 l2
    omega
  all_goals
    rw [hd] at k1 k2 k3 k4
    exact .inl (pixelNo_inj hp hq (by omega))

/-- A pixel depends on its bytes only. -/
theorem pixel_bytes {g : Geom} {q : Pt} {m m' : List Byte} (h : ∀ i, InByte g q i → m'[i]? = m[i]?) :
    pixel m' g.depth (pixelNo g q.x q.y) = pixel m g.depth (pixelNo g q.x q.y) := by
  unfold pixel
  have : ∀ (ks : List Nat) (a : Option Nat), (∀ k ∈ ks, k < g.depth) →
      ks.foldl (fun acc k => do
        let a ← acc
        let b ← imgBit m' (pixelNo g q.x q.y * g.depth + k)
        some (2 * a + b.toNat)) a =
      ks.foldl (fun acc k => do
        let a ← acc
        let b ← imgBit m (pixelNo g q.x q.y * g.depth + k)
        some (2 * a + b.toNat)) a := by
    intro ks
    induction ks with
    | nil => intros; rfl
    | cons k ks ih =>
      intro a hk
      simp only [List.mem_cons, forall_eq_or_imp] at hk
      have e : imgBit m' (pixelNo g q.x q.y * g.depth + k) = imgBit m (pixelNo g q.x q.y * g.depth + k) := by
        unfold imgBit
        rw [h _ ⟨k, hk.1, rfl⟩]
      simp only [List.foldl_cons, e]
      exact ih _ hk.2
  exact this _ _ (fun k hk => List.mem_range.1 hk)

/-! ## The footprint of a task -/

theorem assignsA_safe {F : Nat → Prop} {fh : Nat} (color : BitVec 32) (as : List Assign) :
    ∀ m : List Byte, (∀ a ∈ as, F a.pos ∧ a.pos < m.length) →
    (assignsA color as).Safe F F fh m fun _ m' => m'.length = m.length := by
  induction as with
  | nil => intro m _; rfl
  | cons a as ih =>
    intro m h
    simp only [List.mem_cons, forall_eq_or_imp] at h
    obtain ⟨⟨h1, h2⟩, h3⟩ := h
    refine Acc.Safe.bind ?_
    cases a with
    | update k f =>
      simp only [Assign.pos] at h1 h2
      refine ⟨h1, m[k], List.getElem?_eq_getElem h2, h1, h2, ?_⟩
      refine (ih (m.set k (f color m[k])) (fun a ha => by rw [List.length_set]; exact h3 a ha)).mono ?_
      intro _ m' hm
      rw [hm, List.length_set]
    | plain k f =>
      simp only [Assign.pos] at h1 h2
      refine ⟨h1, h2, ?_⟩
      refine (ih (m.set k (f color)) (fun a ha => by rw [List.length_set]; exact h3 a ha)).mono ?_
      intro _ m' hm
      rw [hm, List.length_set]

theorem paintA_safe {F : Nat → Prop} {fh : Nat} {c : Canvas} {g : Geom} {fb : FB} (hr : Ready c g fb) (ps : List Pt)
    (hF : ∀ q ∈ ps, InRange g q.x q.y → ∀ i, InByte g q i → F i) :
    ∃ a, paintA c g ps = .ok a ∧ ∀ m : List Byte, m.length = fb.img.length →
      a.Safe F F fh m fun _ m' => m'.length = m.length := by
  induction ps with
  | nil => exact ⟨.ret (), rfl, fun m _ => rfl⟩
  | cons p ps ih =>
    obtain ⟨rest, k1, k2⟩ := ih fun q hq => hF q (List.mem_cons_of_mem _ hq)
    simp only [paintA]
    by_cases hv : c.visible p = true
    · rw [if_pos hv]
      have hs := hr.size
      have hin : InRange g p.x p.y := by
        rw [visible_iff, hs] at hv
        exact ⟨hv.1, hv.2.1, hv.2.2.1, hv.2.2.2⟩
      obtain ⟨as, h1, h2⟩ := assigns_ok hr.compiles hr.depth hr.img hin
      unfold pixelA
      rw [h1, Res.bind_ok, Res.bind_ok, k1, Res.bind_ok]
      refine ⟨_, rfl, fun m hm => ?_⟩
      refine Acc.Safe.bind ?_
      refine (assignsA_safe (BitVec.ofNat 32 fh) as m fun a ha =>
        ⟨hF p List.mem_cons_self hin _ (h2 a ha).1, by rw [hm]; exact (h2 a ha).2⟩).mono ?_
      intro _ m' hm'
      refine (k2 m' (by rw [hm', hm])).mono ?_
      intro _ m'' hm''
      rw [hm'', hm']
    · rw [if_neg hv]
      exact ⟨rest, k1, k2⟩

theorem storedValue_zero (d : Nat) : storedValue d 0 = 0 := by
  unfold storedValue
  split
  · rfl
  · exact Nat.zero_mod _

theorem storedValue_ones {d : Nat} (h : 0 < d) (h' : d ≤ 32) : storedValue d (BitVec.allOnes 32) ≠ 0 := by
  unfold storedValue
  split
  · decide
  · rw [BitVec.toNat_allOnes]
    intro e
    have := Nat.mod_add_div (2 ^ 32 - 1) (2 ^ d)
    rw [e, Nat.zero_add] at this
    obtain ⟨d, rfl⟩ : ∃ j, d = j + 1 := ⟨d - 1, by omega⟩
    rw [Nat.pow_succ, Nat.mul_comm _ 2, Nat.mul_assoc] at this
    generalize 2 ^ d * _ = x at this
    omega

/-- A list of points which paints exactly the set `S` has no points of the screen outside of it. -/
theorem pts_covered {c : Canvas} {g : Geom} {fb : FB} (hr : Ready c g fb) {ps : List Pt} {S : Pt → Prop}
    (h : ∀ sel, ∃ fb', c.paint g ⟨fb.img, sel⟩ ps = .ok fb' ∧ Paints c g ⟨fb.img, sel⟩ fb' S) :
    ∀ q ∈ ps, InRange g q.x q.y → ∃ p, S p ∧ phys c.rotate g.getWidth g.getHeight p = q := by
  intro q hq hin
  obtain ⟨p, hp, rfl⟩ := (rotation_bijective c g fb hr).2.2 q hin
  refine ⟨p, Classical.byContradiction fun hS => ?_, rfl⟩
  have key : ∀ sel, pixel fb.img g.depth (pixelNo g (phys c.rotate g.getWidth g.getHeight p).x
      (phys c.rotate g.getWidth g.getHeight p).y) = some (storedValue g.depth sel) := by
    intro sel
    have hr' : Ready c g ⟨fb.img, sel⟩ := ready_any (c := c) hr c.rotate rfl
    obtain ⟨fb', k1, k2⟩ := h sel
    obtain ⟨fb'', j1, -, -, j4⟩ := paint_exact hr' ps
    rw [k1] at j1
    cases j1
    have e1 := k2.outside p hp hS
    have e2 := j4 _ hin
    rw [if_pos hq] at e2
    unfold readPixel at e1
    rw [← e1, e2]
  have hd : 0 < g.depth ∧ g.depth ≤ 32 := by rcases hr.compiles.depth_ok with h | h | h | h | h | h | h <;> omega
  have := (key 0).symm.trans (key (BitVec.allOnes 32))
  rw [storedValue_zero] at this
  exact storedValue_ones hd.1 hd.2 (Option.some.inj this).symm

/-- What a task does alone, and which bytes it uses. -/
structure Alone (signed : Bool) (g : Geom) (c : Canvas) (fb : FB) (js : List Job) (F : Nat → Prop) : Prop where
  code : ∃ a, jobsA signed g c js = .ok a ∧ ∀ m : List Byte, m.length = fb.img.length →
    a.Safe F F fb.sel.toNat m fun _ m' => m'.length = m.length
  runs : ∃ c' fb', execAll signed g c fb (js.map Job.cmd) = .ok (c', fb') ∧ fb'.img.length = fb.img.length ∧
    fb'.sel = fb.sel ∧ ∀ q, InRange g q.x q.y →
      (Draws signed g (penOf g c fb) js q → physPixel g fb' q = some (storedValue g.depth fb.sel)) ∧
      (¬ Draws signed g (penOf g c fb) js q → physPixel g fb' q = physPixel g fb q)

private theorem draws_cons {signed : Bool} {g : Geom} {pen : Pen} {j : Job} {js : List Job} {q : Pt} :
    Draws signed g pen (j :: js) q ↔ (j.cmd.layer signed g pen).1 q ∨ Draws signed g (j.cmd.pen g pen) js q := by
  unfold Draws
  simp only [List.map_cons, layers, List.mem_cons, exists_eq_or_imp]

private theorem alone_draw {signed : Bool} {g : Geom} {c : Canvas} {fb fb1 : FB} (hr : Ready c g fb) {j : Job} {js : List Job}
    {F : Nat → Prop} {a : Acc Unit} (hpen : j.cmd.pen g (penOf g c fb) = penOf g c fb)
    (hlay : j.cmd.layer signed g (penOf g c fb) = (fun q => ∃ p, covered signed c.rotate j.cmd p ∧
      phys c.rotate g.getWidth g.getHeight p = q, storedValue g.depth fb.sel))
    (h1 : j.cmd.exec signed g c fb = .ok (c, fb1)) (h2 : Paints c g fb fb1 (covered signed c.rotate j.cmd))
    (hsafe : ∀ m : List Byte, m.length = fb.img.length → a.Safe F F fb.sel.toNat m fun _ m' => m'.length = m.length)
    (hcode : ∀ rest, jobsA signed g c js = .ok rest → jobsA signed g c (j :: js) = .ok (a.bind fun _ => rest))
    (ih : Alone signed g c fb1 js F) : Alone signed g c fb (j :: js) F := by
  obtain ⟨⟨rest, i1, i2⟩, c', fb', i3, i4, i5, i6⟩ := ih
  have hsel := h2.sel
  have hpen1 : penOf g c fb1 = penOf g c fb := by simp only [penOf, hsel]
  refine ⟨⟨_, hcode rest i1, fun m hm => ?_⟩, c', fb', ?_, by rw [i4, h2.len], by rw [i5, hsel], ?_⟩
  · refine Acc.Safe.bind ((hsafe m hm).mono ?_)
    intro _ m' hm'
    rw [hsel] at i2
    refine (i2 m' (by rw [hm', hm, h2.len])).mono ?_
    intro _ m'' hm''
    rw [hm'', hm']
  · simp only [List.map_cons, execAll, h1, Res.bind_ok]
    exact i3
  · intro q hq
    have := i6 q hq
    rw [hpen1, hsel] at this
    rw [draws_cons, hpen, hlay]
    obtain ⟨p, hp, rfl⟩ := (rotation_bijective c g fb hr).2.2 q hq
    by_cases hD : Draws signed g (penOf g c fb) js (phys c.rotate g.getWidth g.getHeight p)
    · exact ⟨fun _ => this.1 hD, fun hn => absurd (.inr hD) hn⟩
    · refine ⟨fun hor => ?_, fun hn => ?_⟩
      · rcases hor with ⟨p', e1, e2⟩ | hor
        · rw [this.2 hD]
          cases phys_inj _ _ _ e2
          exact h2.inside p hp e1
        · exact absurd hor hD
      · rw [this.2 hD]
        exact h2.outside p hp fun e1 => hn (.inl ⟨p, e1, rfl⟩)

theorem alone {signed : Bool} {g : Geom} {F : Nat → Prop} (js : List Job) : ∀ {c : Canvas} {fb : FB}, Ready c g fb →
    (∀ j ∈ js, j.cmd.Valid signed) → (∀ col, Job.color col ∉ js) →
    (∀ q, InRange g q.x q.y → Draws signed g (penOf g c fb) js q → ∀ i, InByte g q i → F i) →
    Alone signed g c fb js F := by
  induction js with
  | nil =>
    intro c fb hr _ _ _
    refine ⟨⟨.ret (), rfl, fun m _ => rfl⟩, c, fb, rfl, rfl, rfl, fun q _ => ⟨?_, fun _ => rfl⟩⟩
    rintro ⟨l, hl, -⟩
    cases hl
  | cons j js ih =>
    intro c fb hr hv hn hF
    simp only [List.mem_cons, forall_eq_or_imp, not_or, forall_and] at hv hn
    cases j with
    | color col => exact absurd rfl (hn.1 col)
    | rotate r =>
      obtain ⟨h1, c', fb', h3, h4⟩ := ih (c := c.setRotation r) (fb := fb) (ready_any hr r rfl) hv.2 hn.2
        fun q hq hd => hF q hq (draws_cons.2 (.inr hd))
      refine ⟨h1, c', fb', h3, h4.1, h4.2.1, fun q hq => ?_⟩
      have := h4.2.2 q hq
      have e : Draws signed g (penOf g c fb) (.rotate r :: js) q ↔ Draws signed g (penOf g (c.setRotation r) fb) js q := by
        rw [draws_cons]
        constructor
        · rintro (⟨p, hp, -⟩ | h)
          · exact hp.elim
          · exact h
        · exact .inr
      rw [e]
      exact this
    | shape s =>
      have hc := fun sel => draw_covers signed g c ⟨fb.img, sel⟩ (ready_any (c := c) hr c.rotate rfl) (.shape s) hv.1
        (fun x => by simp) (fun x => by simp) (fun x => by simp)
      obtain ⟨fb1, k1, k2⟩ := hc fb.sel
      have k1' := k1
      simp only [Cmd.exec, draw_eq, Res.bind_eq_ok] at k1'
      obtain ⟨_, ⟨ps, k3, k4⟩, -⟩ := k1'
      have hcov := pts_covered hr (ps := ps) (S := covered signed c.rotate (.shape s)) fun sel => by
        obtain ⟨fb', l1, l2⟩ := hc sel
        simp only [Cmd.exec, draw_eq, k3, Res.bind_ok, Res.bind_eq_ok] at l1
        obtain ⟨_, l3, l1⟩ := l1
        cases l1
        exact ⟨_, l3, l2⟩
      obtain ⟨a, m1, m2⟩ := paintA_safe (F := F) (fh := fb.sel.toNat) hr ps fun q hq hin i hi =>
        hF q hin (draws_cons.2 (.inl (hcov q hq hin))) i hi
      refine alone_draw hr rfl rfl k1 k2 m2 (fun rest hrest => ?_)
        (ih (paints_ready hr k2) hv.2 hn.2 fun q hq hd => hF q hq (draws_cons.2 (.inr ?_)))
      · simp only [jobsA, k3, m1, hrest, Res.bind_ok]
      · have e : penOf g c fb1 = penOf g c fb := by simp only [penOf, k2.sel]
        rw [e] at hd
        exact hd
    | text f pos bytes =>
      have hc := fun sel => draw_covers signed g c ⟨fb.img, sel⟩ (ready_any (c := c) hr c.rotate rfl) (.text f pos bytes) hv.1
        (fun x => by simp) (fun x => by simp) (fun x => by simp)
      obtain ⟨fb1, k1, k2⟩ := hc fb.sel
      have k1' := k1
      simp only [Cmd.exec, Res.bind_eq_ok] at k1'
      obtain ⟨_, k4, -⟩ := k1'
      obtain ⟨ps, k3, -⟩ := string_pts bytes k4
      have hcov := pts_covered hr (ps := ps) (S := covered signed c.rotate (.text f pos bytes)) fun sel => by
        obtain ⟨fb', l1, l2⟩ := hc sel
        simp only [Cmd.exec, Res.bind_eq_ok] at l1
        obtain ⟨_, l3, l1⟩ := l1
        cases l1
        obtain ⟨ps', n1, n2⟩ := string_pts bytes l3
        rw [k3] at n1
        cases n1
        exact ⟨_, n2, l2⟩
      obtain ⟨a, m1, m2⟩ := paintA_safe (F := F) (fh := fb.sel.toNat) hr ps fun q hq hin i hi =>
        hF q hin (draws_cons.2 (.inl (hcov q hq hin))) i hi
      refine alone_draw hr rfl rfl k1 k2 m2 (fun rest hrest => ?_)
        (ih (paints_ready hr k2) hv.2 hn.2 fun q hq hd => hF q hq (draws_cons.2 (.inr ?_)))
      · simp only [jobsA, k3, m1, hrest, Res.bind_ok]
      · have e : penOf g c fb1 = penOf g c fb := by simp only [penOf, k2.sel]
        rw [e] at hd
        exact hd

/-! ## The tasks together -/

/-- **C134**: tasks, each with a canvas of its own on one frame buffer, which do not change the colour and of which no two
draw pixels with a byte in common, may interleave in any way: nothing is undefined, no two tasks are ever about to use
the same byte at the same time of which one writes, each task comes to its end after a number of accesses of its own, then
its pixels have the colour, and when all have, the other pixels are as before. -/
theorem drawn_alone {ι : Type} [DecidableEq ι] (signed : Bool) (g : Geom) (c : ι → Canvas) (fb : FB) (js : ι → List Job)
    (hr : ∀ t, Ready (c t) g fb) (hv : ∀ t, ∀ j ∈ js t, j.cmd.Valid signed) (hn : ∀ t col, Job.color col ∉ js t)
    (hs : ∀ t u p q, t ≠ u → InRange g p.x p.y → InRange g q.x q.y → Draws signed g (penOf g (c t) fb) (js t) p →
      Draws signed g (penOf g (c u) fb) (js u) q → ¬ Share g p q) :
    ∃ (ps : ι → Acc Unit) (N : ι → Nat), (∀ t, jobsA signed g (c t) (js t) = .ok (ps t)) ∧ ∀ sched : List ι,
      ∃ (ps' : ι → Acc Unit) (fb' : FB),
        interleave sched ps ⟨fb.img, fb.sel.toNat⟩ = .ok (ps', ⟨fb'.img, fb'.sel.toNat⟩) ∧ fb'.sel = fb.sel ∧
        fb'.img.length = fb.img.length ∧
        ((∀ t, ¬ (ps' t).AltersHead) ∧ ∀ t u i, t ≠ u → (ps' t).Alters i → ¬ (ps' u).Touches i) ∧
        (∀ t, N t ≤ sched.count t → ps' t = .ret () ∧ ∀ q, InRange g q.x q.y →
          Draws signed g (penOf g (c t) fb) (js t) q → physPixel g fb' q = some (storedValue g.depth fb.sel)) ∧
        ((∀ t, N t ≤ sched.count t) → ∀ q, InRange g q.x q.y → (∀ t, ¬ Draws signed g (penOf g (c t) fb) (js t) q) →
          physPixel g fb' q = physPixel g fb q) := by
  let F : ι → Nat → Prop := fun t i => ∃ q, InRange g q.x q.y ∧ Draws signed g (penOf g (c t) fb) (js t) q ∧ InByte g q i
  have hA := fun t => alone (F := F t) (js t) (hr t) (hv t) (hn t) fun q hq hd i hi => ⟨q, hq, hd, hi⟩
  have hc := fun t => (hA t).code
  have hx := fun t => (hA t).runs
  choose ps h1 h2 using hc
  choose c1 fb1 x1 x2 x3 x4 using hx
  have hsafe : ∀ t, (ps t).Safe (F t) (F t) fb.sel.toNat fb.img fun _ m => m = (fb1 t).img := fun t =>
    (((h2 t fb.img rfl).mono fun _ _ _ => trivial).exact (jobsA_exec (js t) (x1 t) (h1 t))).mono fun _ _ h => h.2
  have hend := fun t => (hsafe t).ends
  choose a mt N e1 e2 using hend
  have hdis : ∀ t u i, t ≠ u → F t i → ¬ F u i := by
    rintro t u i htu ⟨p, k1, k2, k3⟩ ⟨q, l1, l2, l3⟩
    exact hs t u p q htu k1 l1 k2 l2 ⟨i, k3, l3⟩
  refine ⟨ps, N, h1, fun sched => ?_⟩
  obtain ⟨ps', ms, m, j1, j2, j3, j4, j5, j6⟩ := Storage.interleave_alone hdis sched ps (fun _ => fb.img) fb.img hsafe
    (fun _ => rfl) (fun _ _ _ => rfl)
  have hdone : ∀ t, N t ≤ sched.count t → ps' t = .ret () ∧ ms t = (fb1 t).img := fun t ht => by
    have := (j2 t).symm.trans (e2 t _ ht)
    simp only [Res.ok.injEq, Prod.mk.injEq, Storage.Store.mk.injEq, and_true] at this
    exact ⟨this.1, this.2.trans (e1 t)⟩
  refine ⟨ps', ⟨m, fb.sel⟩, j1, rfl, j4, ⟨fun t ht => ?_, fun t u i htu k1 k2 => ?_⟩, fun t ht => ⟨(hdone t ht).1, fun q hq hd => ?_⟩,
    fun hall q hq hnd => ?_⟩
  · have h := j3 t
    cases hp : ps' t <;> rw [hp] at ht h <;> first | exact ht | exact h
  · have f1 := j3 t
    have f2 := j3 u
    have hw : F t i := by
      cases hp : ps' t with
      | write j b k => rw [hp] at k1 f1; cases k1; exact f1.1
      | _ => rw [hp] at k1; exact k1.elim
    cases hp : ps' u with
    | read j k => rw [hp] at k2 f2; cases k2; exact hdis t u i htu hw f2.1
    | write j b k => rw [hp] at k2 f2; cases k2; exact hdis t u i htu hw f2.1
    | _ => rw [hp] at k2; exact k2.elim
  · have := (x4 t q hq).1 hd
    unfold physPixel at this ⊢
    rw [← this]
    refine pixel_bytes fun i hi => ?_
    rw [j5 t i ⟨q, hq, hd, hi⟩, (hdone t ht).2]
  · unfold physPixel
    by_cases hex : ∃ t i, InByte g q i ∧ F t i
    · obtain ⟨t, i, hi, hF⟩ := hex
      have ⟨p, k1, k2, k3⟩ := hF
      have := (x4 t q hq).2 (hnd t)
      unfold physPixel at this
      rw [← this]
      rcases one_byte (hr t).compiles (hr t).depth k1 hq k3 hi with h | h
      · exact absurd (h ▸ k2) (hnd t)
      · refine pixel_bytes fun j hj => ?_
        rw [h j hj, j5 t i hF, (hdone t (hall t)).2]
    · refine pixel_bytes fun i hi => j6 i fun t hF => hex ⟨t, i, hi, hF⟩

/-- **C134**: in particular tasks which draw in different rows of the frame buffer need no lock. -/
theorem rows_apart {g : Geom} (hg : g.Compiles) (h2 : g.depth ≠ 2) (hb : 0 ≤ g.bufSize) {p q : Pt} (hp : InRange g p.x p.y)
    (hq : InRange g q.x q.y) (h : p.y ≠ q.y) : ¬ Share g p q := fun hs => h ((share_iff hg h2 hb hp hq).1 hs).1

/-! ## Without these conditions -/

private theorem put_put {ι α : Type} [DecidableEq ι] (f : ι → α) (t : ι) (a b : α) : put (put f t a) t b = put f t b := by
  funext u
  unfold put
  split <;> rfl

theorem interleave_append {ι : Type} [DecidableEq ι] (xs ys : List ι) (ps : ι → Acc Unit) (s : Storage.Store) :
    interleave (xs ++ ys) ps s = (interleave xs ps s >>= fun r => interleave ys r.1 r.2) := by
  induction xs generalizing ps s with
  | nil => rfl
  | cons x xs ih =>
    simp only [List.cons_append, interleave]
    cases (ps x).step s with
    | ok r => simp only [Res.bind_ok]; exact ih _ _
    | ub => rfl
    | hang => rfl

theorem interleave_one {ι : Type} [DecidableEq ι] (n : Nat) (t : ι) (ps : ι → Acc Unit) {s s' : Storage.Store} {p : Acc Unit}
    (h : (ps t).steps n s = .ok (p, s')) : interleave (List.replicate n t) ps s = .ok (put ps t p, s') := by
  induction n generalizing ps s with
  | zero =>
    cases h
    simp only [List.replicate_zero, interleave, Res.ok.injEq, Prod.mk.injEq, and_true]
    funext u
    unfold put
    split
    · rename_i e; rw [e]
    · rfl
  | succ n ih =>
    simp only [Acc.steps, Res.bind_eq_ok] at h
    obtain ⟨⟨p1, s1⟩, h1, h2⟩ := h
    simp only [List.replicate_succ, interleave, h1, Res.bind_ok]
    rw [ih (put ps t p1) (by rw [Storage.put_same]; exact h2), put_put]

/-- **C134**: with less than eight bits per pixel the condition cannot be left out.  Of two different pixels with a common
byte, drawn at the same time by two tasks, one may not be drawn at all: there is an interleaving after which both tasks have
returned, and the image is as if only the first had been drawn. -/
theorem lost_pixel (g : Geom) (hg : g.Compiles) (hd : g.depth = 1 ∨ g.depth = 4) (fb : FB)
    (hl : (fb.img.length : Int) = g.bufSize) (p q : Pt) (hp : InRange g p.x p.y) (hq : InRange g q.x q.y) (hpq : p ≠ q)
    (hs : Share g p q) :
    ∃ (a b : Acc Unit) (sched : List Bool) (fb' : FB), pixelA g p = .ok a ∧ pixelA g q = .ok b ∧
      interleave sched (fun t => if t then b else a) ⟨fb.img, fb.sel.toNat⟩ = .ok (fun _ => .ret (), ⟨fb'.img, fb'.sel.toNat⟩) ∧
      fb.drawPixel g p.x p.y = .ok fb' ∧ physPixel g fb' p = some (storedValue g.depth fb.sel) ∧
      physPixel g fb' q = physPixel g fb q := by
  have hd2 : g.depth ≠ 2 := by omega
  obtain ⟨as, a1, a2⟩ := assigns_ok hg hd2 hl hp
  obtain ⟨bs, b1, b2⟩ := assigns_ok hg hd2 hl hq
  obtain ⟨i, hi1, hi2⟩ := hs
  have hin : ∀ (r : Pt) (j : Nat), InByte g r i → InByte g r j → j = i := by
    rintro r j ⟨k, k1, k2⟩ ⟨l, l1, l2⟩
    rcases hd with hd | hd <;> rw [hd] at k1 k2 l1 l2 <;> omega
  have hA : ∃ f rest, as = .update i f :: rest := by
    have hpos : ∀ x ∈ as, x.pos = i := fun x hx => hin p _ hi1 (a2 x hx).1
    unfold assigns at a1
    simp only [Res.bind_eq_ok] at a1
    obtain ⟨row, -, idx, -, bits, -, a1⟩ := a1
    rcases hd with hd | hd
    · rw [if_pos hd] at a1
      simp only [Res.bind_eq_ok] at a1
      obtain ⟨s, -, k, -, a1⟩ := a1
      cases a1
      have := hpos _ List.mem_cons_self
      simp only [Assign.pos] at this
      subst this
      exact ⟨_, _, rfl⟩
    · rw [if_neg (by omega), if_neg (by omega), if_pos hd] at a1
      simp only [Res.bind_eq_ok] at a1
      obtain ⟨s, -, k, -, s2, -, a1⟩ := a1
      cases a1
      have := hpos _ List.mem_cons_self
      simp only [Assign.pos] at this
      subst this
      exact ⟨_, _, rfl⟩
  obtain ⟨f, rest, rfl⟩ := hA
  have hilt : i < fb.img.length := (a2 _ List.mem_cons_self).2
  obtain ⟨img', d1, d2, d3⟩ := drawPixel_pixels g hg hd2 fb.img hl p.x p.y hp fb.sel
  have hdraw : fb.drawPixel g p.x p.y = .ok ⟨img', fb.sel⟩ := by simp only [FB.drawPixel, d1, Res.bind_ok]
  have ha : pixelA g p = .ok (.head fun sel => assignsA (BitVec.ofNat 32 sel) (.update i f :: rest)) := by
    unfold pixelA; rw [a1, Res.bind_ok]
  have hb : pixelA g q = .ok (.head fun sel => assignsA (BitVec.ofNat 32 sel) bs) := by
    unfold pixelA; rw [b1, Res.bind_ok]
  have hexec := pixelA_exec ha fb
  rw [hdraw, Res.bind_ok] at hexec
  have hsafeA : Acc.Safe (fun j => j = i) (fun j => j = i) fb.sel.toNat
      (.head fun sel => assignsA (BitVec.ofNat 32 sel) (.update i f :: rest)) fb.img fun _ _ => True :=
    (assignsA_safe (F := fun j => j = i) (fh := fb.sel.toNat) (BitVec.ofNat 32 fb.sel.toNat) _ fb.img fun x hx =>
      ⟨hin p _ hi1 (a2 x hx).1, (a2 x hx).2⟩).mono fun _ _ _ => trivial
  obtain ⟨⟨⟩, m1, N, ⟨-, rfl⟩, hN⟩ := (hsafeA.exact hexec).ends
  have hsafeB : Acc.Safe (fun j => j = i) (fun j => j = i) fb.sel.toNat
      (.head fun sel => assignsA (BitVec.ofNat 32 sel) bs) fb.img fun _ _ => True :=
    (assignsA_safe (F := fun j => j = i) (fh := fb.sel.toNat) (BitVec.ofNat 32 fb.sel.toNat) _ fb.img fun x hx =>
      ⟨hin q _ hi2 (b2 x hx).1, (b2 x hx).2⟩).mono fun _ _ _ => trivial
  obtain ⟨⟨⟩, m2, M, -, hM⟩ := hsafeB.ends
  -- what the second task leaves alone
  obtain ⟨ps', ms, m3, j1, j2, -, j4, -, j6⟩ := Storage.interleave_alone (ι := Unit) (R := fun _ j => j = i)
    (W := fun _ j => j = i) (Q := fun _ _ _ => True) (fun t u i h => absurd rfl h) (List.replicate M ())
    (fun _ => .head fun sel => assignsA (BitVec.ofNat 32 sel) bs) (fun _ => fb.img) fb.img (fun _ => hsafeB) (fun _ => rfl)
    (fun _ _ _ => rfl)
  rw [interleave_one M () _ (hM M (Nat.le_refl M))] at j1
  simp only [Res.ok.injEq, Prod.mk.injEq, Storage.Store.mk.injEq, and_true] at j1
  obtain ⟨-, rfl⟩ := j1
  have hset : ∀ v, m2.set i v = fb.img.set i v := by
    intro v
    apply List.ext_getElem?
    intro j
    rw [List.getElem?_set, List.getElem?_set]
    by_cases hj : i = j
    · rw [if_pos hj, if_pos hj, j4]
    · rw [if_neg hj, if_neg hj, j6 j fun _ e => hj e.symm]
  have hN3 := hN (N + 3) (by omega)
  simp only [Acc.steps, Acc.step, assignsA, Assign.code, Acc.bind, Res.bind_ok, List.getElem?_eq_getElem hilt,
    if_pos hilt] at hN3
  refine ⟨_, _, [false, false] ++ (List.replicate M true ++ (false :: List.replicate N false)), ⟨m1, fb.sel⟩, ha, hb, ?_, hdraw, d2,
    d3 q.x q.y hq fun e => hpq ?_⟩
  · rw [interleave_append]
    simp only [interleave, Acc.step, assignsA, Assign.code, Acc.bind, Res.bind_ok, Bool.false_eq_true, if_false,
      Storage.put_same, List.getElem?_eq_getElem hilt, put_put]
    rw [interleave_append, interleave_one M true _ (s := ⟨fb.img, fb.sel.toNat⟩) (p := .ret ()) (s' := ⟨m2, fb.sel.toNat⟩) (by
      rw [Storage.put_other _ _ (by decide)]
      exact hM M (Nat.le_refl M)), Res.bind_ok]
    simp only [interleave]
    rw [Storage.put_other _ _ (by decide), Storage.put_same]
    simp only [Acc.step]
    rw [if_pos (by rw [j4]; exact hilt), Res.bind_ok]
    simp only [hset]
    rw [interleave_one N false _ (p := .ret ()) (s' := ⟨m1, fb.sel.toNat⟩) (by rw [Storage.put_same]; exact hN3)]
    congr 2
    funext t
    cases t <;> rfl
  · obtain ⟨px, py⟩ := p
    obtain ⟨qx, qy⟩ := q
    simp only [Prod.mk.injEq] at e
    rw [e.1, e.2]

/-- **C134**: nor may the tasks choose colours: the colour belongs to the frame buffer, and a pixel may get the colour
which the other task has chosen for its own, in another row. -/
theorem color_mixed : ∃ (a b : Acc Unit) (sched : List Bool) (s : Storage.Store) (ps : Bool → Acc Unit),
    jobsA false ⟨8, 2, 1⟩ ⟨⟨8, 2⟩, .r0⟩ [.color 1, .shape (.pixel ⟨0, 0⟩)] = .ok a ∧
    jobsA false ⟨8, 2, 1⟩ ⟨⟨8, 2⟩, .r0⟩ [.color 0, .shape (.pixel ⟨0, 1⟩)] = .ok b ∧
    interleave sched (fun t => if t then b else a) ⟨[0, 0xFF], 1⟩ = .ok (ps, s) ∧ ps false = .ret () ∧ ps true = .ret () ∧
    physPixel ⟨8, 2, 1⟩ ⟨s.mem, 0⟩ ⟨0, 0⟩ = some 0 :=
  ⟨_, _, [false, true, false, false, false, true, true, true], _, _, rfl, rfl, rfl, rfl, rfl, by decide +kernel⟩

/-- Two tasks which meet the conditions: one fills the upper half, the other turns its canvas and sets a corner. -/
example : ∃ (ps : Bool → Acc Unit) (N : Bool → Nat),
    (∀ t, jobsA false ⟨4, 8, 4⟩ ⟨⟨16, 8⟩, .r0⟩
      (if t then [.rotate .r180, .shape (.pixel ⟨0, 0⟩)] else [.shape (.fillRect ⟨⟨0, 0⟩, ⟨16, 4⟩⟩)]) = .ok (ps t)) ∧
    ∀ sched : List Bool, (∀ t, N t ≤ sched.count t) → ∃ (ps' : Bool → Acc Unit) (fb' : FB),
      interleave sched ps ⟨List.replicate 64 0, 5⟩ = .ok (ps', ⟨fb'.img, 5⟩) ∧ physPixel ⟨4, 8, 4⟩ fb' ⟨15, 7⟩ = some 5 ∧
      physPixel ⟨4, 8, 4⟩ fb' ⟨15, 3⟩ = some 5 ∧ physPixel ⟨4, 8, 4⟩ fb' ⟨14, 7⟩ = some 0 := by
  have hr := example_ready .r0
  have hD : ∀ t q, Draws false ⟨4, 8, 4⟩ (penOf ⟨4, 8, 4⟩ ⟨⟨16, 8⟩, .r0⟩ ⟨List.replicate 64 0, 5⟩)
      (if t = true then [Job.rotate .r180, .shape (.pixel ⟨0, 0⟩)] else [.shape (.fillRect ⟨⟨0, 0⟩, ⟨16, 4⟩⟩)]) q ↔
      if t = true then q = ⟨15, 7⟩ else inRect ⟨⟨0, 0⟩, ⟨16, 4⟩⟩ q := by
    intro t q
    obtain ⟨x, y⟩ := q
    cases t
    · simp only [Bool.false_eq_true, if_false, Draws, List.map_cons, List.map_nil, layers, Job.cmd, Cmd.layer, covered,
        List.mem_singleton, exists_eq_left, penOf, phys]
      exact ⟨fun ⟨p, h1, h2⟩ => h2 ▸ h1, fun h => ⟨_, h, rfl⟩⟩
    · simp only [if_true, Draws, List.map_cons, List.map_nil, layers, Job.cmd, Cmd.layer, covered, List.mem_cons,
        List.not_mem_nil, or_false, exists_eq_or_imp, exists_eq_left, Cmd.pen, penOf, false_and, exists_false, false_or]
      constructor
      · intro h; rw [← h]; decide
      · intro h; rw [h]; decide
  obtain ⟨ps, N, h1, h2⟩ := drawn_alone (ι := Bool) false ⟨4, 8, 4⟩ (fun _ => ⟨⟨16, 8⟩, .r0⟩) ⟨List.replicate 64 0, 5⟩
    (fun t => if t then [.rotate .r180, .shape (.pixel ⟨0, 0⟩)] else [.shape (.fillRect ⟨⟨0, 0⟩, ⟨16, 4⟩⟩)])
    (fun _ => hr)
    (fun t j hj => by
      cases t
      · simp only [Bool.false_eq_true, if_false, List.mem_singleton] at hj
        subst hj
        simp only [Job.cmd, Cmd.Valid]
        decide
      · simp only [if_true, List.mem_cons, List.not_mem_nil, or_false] at hj
        rcases hj with rfl | rfl
        · trivial
        · simp only [Job.cmd, Cmd.Valid]
          decide)
    (fun t col => by cases t <;> simp)
    (fun t u p q htu hp hq h1 h2 => by
      rw [hD] at h1 h2
      refine rows_apart hr.compiles hr.depth hr.compiles.size_ok hp hq ?_
      cases t <;> cases u
      · exact absurd rfl htu
      · simp only [Bool.false_eq_true, if_false, if_true, inRect] at h1 h2
        subst h2
        simp only
        omega
      · simp only [Bool.false_eq_true, if_false, if_true, inRect] at h1 h2
        subst h1
        simp only
        omega
      · exact absurd rfl htu)
  refine ⟨ps, N, h1, fun sched hN => ?_⟩
  obtain ⟨ps', fb', k1, k2, -, -, k4, k5⟩ := h2 sched
  refine ⟨ps', fb', ?_, ?_, ?_, ?_⟩
  · rw [k2] at k1; exact k1
  · exact (k4 true (hN true)).2 ⟨15, 7⟩ (by constructor <;> decide) ((hD true _).2 rfl)
  · exact (k4 false (hN false)).2 ⟨15, 3⟩ (by constructor <;> decide) ((hD false _).2 (by
      simp only [Bool.false_eq_true, if_false, inRect]; decide))
  · rw [k5 hN ⟨14, 7⟩ (by constructor <;> decide) fun t h => ?_]
    · decide +kernel
    · rw [hD] at h
      cases t
      · simp only [Bool.false_eq_true, if_false, inRect] at h
        omega
      · rw [if_pos rfl] at h
        exact absurd h (by decide)

end Verif.Text
