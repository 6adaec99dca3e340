import Verif.Text.Bounds
import Verif.Canvas.Exact
import Verif.Canvas.Circle
/-!
# C83: a picture is what the last command covering each pixel made of it

Sequences of any length of drawing commands on one canvas: the colour, the rotation, clearing, shapes and texts.
-/
namespace Verif.Text
open Verif.Canvas Verif.FrameBuffer Verif.Font

/-! ## Specification -/

/-- The commands of a drawing program. -/
inductive Cmd where
  | color (c : BitVec 32)
  | clear (c : BitVec 32)
  | rotate (r : Rotation)
  | shape (s : Shape)
  | text (f : Font) (pos : Pt) (bytes : List Byte)

/-- Arguments of screen scale; radii are not negative, and the characters of a text are in the font with their
bitmaps. -/
def Cmd.Valid (signed : Bool) : Cmd → Prop
  | .color _ => True
  | .clear _ => True
  | .rotate _ => True
  | .shape (.pixel p) => SmallPt p
  | .shape (.line a b) => SmallPt a ∧ SmallPt b
  | .shape (.rect r) => SmallRect r
  | .shape (.fillRect r) => SmallRect r
  | .shape (.circle p r _) => SmallPt p ∧ 0 ≤ r ∧ r ≤ 268435456
  | .text f pos bytes =>
    ((-134217728 ≤ pos.x ∧ pos.x + 255 * bytes.length ≤ 134217728) ∧ -134217728 ≤ pos.y ∧ pos.y ≤ 134217728) ∧
    ∃ rs : List CharBitmap, bytes.map (getBitmap signed f) = rs.map .ok ∧ ∀ r ∈ rs, Drawable f.bitmap r

/-- The pixels of the logical screen a shape or a text covers on a screen turned by `r` (only lines depend on it, C109). -/
def covered (signed : Bool) (r : Rotation) : Cmd → Pt → Prop
  | .shape (.pixel p), q => q = p
  | .shape (.line a b), q => lineAt r a b q
  | .shape (.rect b), q => outline b q
  | .shape (.fillRect b), q => inRect b q
  | .shape (.circle p r filled), q =>
      if r = 0 then q = p
      else if filled then InDisc r |q.x - p.x| |q.y - p.y| else OnCircle r |q.x - p.x| |q.y - p.y|
  | .text f pos bytes, q => ∃ rs : List CharBitmap, bytes.map (getBitmap signed f) = rs.map .ok ∧ textSet f.bitmap rs pos q
  | _, _ => False

/-- A layer of the picture: physical pixels and the value they got. -/
abbrev Layer := (Pt → Prop) × Nat

/-- The state of the drawing program besides the picture: rotation and pen. -/
structure Pen where
  rotation : Rotation
  value : Nat

/-- The rotation and the pen after a command. -/
def Cmd.pen (g : Geom) (pen : Pen) : Cmd → Pen
  | .color c => { pen with value := c.toNat % 2 ^ g.depth }
  | .rotate r => { pen with rotation := r }
  | _ => pen

/-- The layer put on by a command: a shape or a text is a layer in the current pen, turned by the current rotation; clearing
covers everything; choosing a colour or a rotation covers nothing. -/
def Cmd.layer (signed : Bool) (g : Geom) (pen : Pen) (cmd : Cmd) : Layer :=
  match cmd with
  | .clear c => (fun _ => True, storedValue g.depth c)
  | cmd => (fun q => ∃ p, covered signed pen.rotation cmd p ∧ phys pen.rotation g.getWidth g.getHeight p = q, pen.value)

/-- The layers put on by a sequence of commands, from the lowest to the uppermost. -/
def layers (signed : Bool) (g : Geom) : Pen → List Cmd → List Layer
  | _, [] => []
  | pen, cmd :: cmds => cmd.layer signed g pen :: layers signed g (cmd.pen g pen) cmds

/-- The rotation and the pen after a sequence of commands. -/
def lastPen (g : Geom) : Pen → List Cmd → Pen
  | pen, [] => pen
  | pen, cmd :: cmds => lastPen g (cmd.pen g pen) cmds

/-- What is seen at `q` of some layers on a background: the uppermost layer covering `q`. -/
inductive Seen (q : Pt) (background : Option Nat) : List Layer → Option Nat → Prop where
  | background : Seen q background [] background
  | covered (ls : List Layer) (S : Pt → Prop) (v : Nat) : S q → Seen q background (ls ++ [(S, v)]) (some v)
  | uncovered (ls : List Layer) (S : Pt → Prop) (v : Nat) (r : Option Nat) : ¬ S q → Seen q background ls r →
      Seen q background (ls ++ [(S, v)]) r

/-! ## The code -/

/-- One command: `setColor` (Canvas.h:29-32), `clear` (Canvas.h:34-37), `setRotation` (Canvas.h:53), the shapes, and
`drawStringAt` (Canvas.h:63-69). -/
def Cmd.exec (signed : Bool) (g : Geom) (c : Canvas) (fb : FB) : Cmd → Res (Canvas × FB)
  | .color col => do let fb' ← fb.setColor g col; .ok (c, fb')
  | .clear col => do let fb' ← fb.clear g col; .ok (c, fb')
  | .rotate r => .ok (c.setRotation r, fb)
  | .shape s => do let fb' ← c.draw g fb s; .ok (c, fb')
  | .text f pos bytes => do let fb' ← drawStringAt c g signed f fb pos bytes; .ok (c, fb')

/-- A drawing program. -/
def execAll (signed : Bool) (g : Geom) : Canvas → FB → List Cmd → Res (Canvas × FB)
  | c, fb, [] => .ok (c, fb)
  | c, fb, cmd :: cmds => do
    let (c', fb') ← cmd.exec signed g c fb
    execAll signed g c' fb' cmds

/-- The value of the physical pixel `q`. -/
def physPixel (g : Geom) (fb : FB) (q : Pt) : Option Nat := pixel fb.img g.depth (pixelNo g q.x q.y)

/-- The pen of a canvas. -/
def penOf (g : Geom) (c : Canvas) (fb : FB) : Pen := ⟨c.rotate, storedValue g.depth fb.sel⟩

/-! ## Proof -/

theorem ready_any {c : Canvas} {g : Geom} {fb fb' : FB} (h : Ready c g fb) (r : Rotation)
    (hl : fb'.img.length = fb.img.length) : Ready (c.setRotation r) g fb' :=
  ⟨h.compiles, h.depth, by rw [hl]; exact h.img, h.size, h.wlo, h.hlo, h.whi, h.hhi⟩

theorem draw_covers (signed : Bool) (g : Geom) (c : Canvas) (fb : FB) (h : Ready c g fb) (cmd : Cmd)
    (hv : cmd.Valid signed) (hc : ∀ x, cmd ≠ .color x) (hcl : ∀ x, cmd ≠ .clear x) (hr : ∀ x, cmd ≠ .rotate x) :
    ∃ fb', cmd.exec signed g c fb = .ok (c, fb') ∧ Paints c g fb fb' (covered signed c.rotate cmd) := by
  cases cmd with
  | color x => exact absurd rfl (hc x)
  | clear x => exact absurd rfl (hcl x)
  | rotate x => exact absurd rfl (hr x)
  | text f pos bytes =>
    obtain ⟨hp, rs, h1, h2⟩ := hv
    obtain ⟨fb', k1, k2⟩ := drawStringAt_exact c g fb h signed f pos bytes rs hp h1 h2
    refine ⟨fb', by simp [Cmd.exec, k1], ?_⟩
    rwa [show covered signed c.rotate (.text f pos bytes) = textSet f.bitmap rs pos from ?_]
    funext q
    apply propext
    constructor
    · rintro ⟨rs', e1, e2⟩
      have : rs' = rs := (List.map_inj_right (fun _ _ e => by injection e)).1 (e1.symm.trans h1)
      rwa [← this]
    · exact fun e => ⟨rs, h1, e⟩
  | shape s =>
    cases s with
    | pixel p =>
      simp only [Cmd.Valid] at hv
      obtain ⟨fb', k1, k2⟩ := drawPixel_paints c g fb h p (by omega)
      exact ⟨fb', by simp [Cmd.exec, Canvas.draw, k1], k2⟩
    | line a b =>
      obtain ⟨fb', k1, k2⟩ := drawLine_exact c g fb h a b hv.1 hv.2
      exact ⟨fb', by simp [Cmd.exec, Canvas.draw, k1], k2⟩
    | rect r =>
      obtain ⟨fb', k1, k2⟩ := drawRectangle_outline c g fb h r hv
      exact ⟨fb', by simp [Cmd.exec, Canvas.draw, k1], k2⟩
    | fillRect r =>
      obtain ⟨fb', k1, k2⟩ := drawFilledRectangle_exact c g fb h r hv
      exact ⟨fb', by simp [Cmd.exec, Canvas.draw, k1], k2⟩
    | circle p r filled =>
      obtain ⟨hp, h0, h1⟩ := hv
      by_cases hz : r = 0
      · subst hz
        obtain ⟨fb', k1, k2⟩ := drawCircle_zero c g fb h p hp filled
        exact ⟨fb', by simp [Cmd.exec, Canvas.draw, k1], by
          rw [show covered signed c.rotate (.shape (.circle p 0 filled)) = fun q => q = p from
            funext fun q => by simp only [covered, if_true]]
          exact k2⟩
      · cases filled with
        | true =>
          obtain ⟨fb', k1, k2⟩ := drawFilledCircle_exact c g fb h p hp r ⟨by omega, h1⟩
          exact ⟨fb', by simp [Cmd.exec, Canvas.draw, k1], by
            rw [show covered signed c.rotate (.shape (.circle p r true)) = fun q => InDisc r |q.x - p.x| |q.y - p.y| from
              funext fun q => by simp only [covered, if_neg hz, if_true]]
            exact k2⟩
        | false =>
          obtain ⟨fb', k1, k2⟩ := drawCircle_exact c g fb h p hp r ⟨by omega, h1⟩
          exact ⟨fb', by simp [Cmd.exec, Canvas.draw, k1], by
            rw [show covered signed c.rotate (.shape (.circle p r false)) = fun q => OnCircle r |q.x - p.x| |q.y - p.y| from
              funext fun q => by simp only [covered, if_neg hz, Bool.false_eq_true, if_false]]
            exact k2⟩

theorem seen_over {q : Pt} {bg v : Option Nat} {S : Pt → Prop} {n : Nat} {ls : List Layer} (hS : S q)
    (h : Seen q (some n) ls v) : Seen q bg ((S, n) :: ls) v := by
  induction h with
  | background => exact .covered [] S n hS
  | covered ls T m hT => exact .covered ((S, n) :: ls) T m hT
  | uncovered ls T m r hT _ ih => exact .uncovered ((S, n) :: ls) T m r hT ih

theorem seen_through {q : Pt} {bg v : Option Nat} {S : Pt → Prop} {n : Nat} {ls : List Layer} (hS : ¬ S q)
    (h : Seen q bg ls v) : Seen q bg ((S, n) :: ls) v := by
  induction h with
  | background => exact .uncovered [] S n _ hS .background
  | covered ls T m hT => exact .covered ((S, n) :: ls) T m hT
  | uncovered ls T m r hT _ ih => exact .uncovered ((S, n) :: ls) T m r hT ih

/-- What is seen is determined by the layers and the background. -/
theorem seen_unique {q : Pt} {bg v w : Option Nat} {ls : List Layer} (h1 : Seen q bg ls v) (h2 : Seen q bg ls w) :
    v = w := by
  induction h1 with
  | background =>
    generalize hl : ([] : List Layer) = l at h2
    cases h2 with
    | background => rfl
    | covered => simp at hl
    | uncovered => simp at hl
  | covered ls S n hS =>
    generalize hl : ls ++ [(S, n)] = l at h2
    cases h2 with
    | background => simp at hl
    | covered ls' S' n' hS' =>
      obtain ⟨-, h⟩ := List.append_inj' hl rfl
      simp only [List.cons.injEq, Prod.mk.injEq] at h
      rw [h.1.2]
    | uncovered ls' S' n' r hS' =>
      obtain ⟨-, h⟩ := List.append_inj' hl rfl
      simp only [List.cons.injEq, Prod.mk.injEq] at h
      exact absurd (h.1.1 ▸ hS) hS'
  | uncovered ls S n r hS _ ih =>
    generalize hl : ls ++ [(S, n)] = l at h2
    cases h2 with
    | background => simp at hl
    | covered ls' S' n' hS' =>
      obtain ⟨-, h⟩ := List.append_inj' hl rfl
      simp only [List.cons.injEq, Prod.mk.injEq] at h
      exact absurd hS' (h.1.1 ▸ hS)
    | uncovered ls' S' n' r' hS' h' =>
      obtain ⟨e, h⟩ := List.append_inj' hl rfl
      exact ih (e ▸ h')

/-- A command covering nothing. -/
private theorem layer_none (signed : Bool) (g : Geom) (pen : Pen) (cmd : Cmd)
    (h : (∃ x, cmd = .color x) ∨ ∃ x, cmd = .rotate x) (q : Pt) : ¬ (cmd.layer signed g pen).1 q := by
  rcases h with ⟨x, rfl⟩ | ⟨x, rfl⟩ <;> rintro ⟨p, hp, -⟩ <;> exact hp

/-- **C83**: after any sequence of commands every pixel of the screen shows the value of the last command covering it,
or what it showed before; the sequence has no undefined behaviour, and rotation and pen are the last ones set. -/
theorem picture (signed : Bool) (g : Geom) (c : Canvas) (fb : FB) (h : Ready c g fb) (hd : g.depth ≠ 32)
    (cmds : List Cmd) (hv : ∀ cmd ∈ cmds, cmd.Valid signed) :
    ∃ c' fb', execAll signed g c fb cmds = .ok (c', fb') ∧ Ready c' g fb' ∧
      penOf g c' fb' = lastPen g (penOf g c fb) cmds ∧
      ∀ q, InRange g q.x q.y →
        Seen q (physPixel g fb q) (layers signed g (penOf g c fb) cmds) (physPixel g fb' q) := by
  induction cmds generalizing c fb with
  | nil => exact ⟨c, fb, rfl, h, rfl, fun q _ => .background⟩
  | cons cmd cmds ih =>
    simp only [List.mem_cons, forall_eq_or_imp] at hv
    by_cases hcol : ∃ x, cmd = .color x
    · have hcol' := hcol
      obtain ⟨x, rfl⟩ := hcol
      obtain ⟨-, fb1, -, -, -, k1, k2, k3⟩ := setColor_masks g h.compiles hd [] fb x
      obtain ⟨c2, fb2, m1, m2, m3, m4⟩ := ih c fb1 (ready_any (c := c) h c.rotate (by rw [k2])) hv.2
      have hpen : penOf g c fb1 = Cmd.pen g (penOf g c fb) (.color x) := by
        simp only [penOf, Cmd.pen, Pen.mk.injEq, true_and, storedValue]
        have hz : fb1.sel = 0 ↔ fb1.sel.toNat = 0 := by
          rw [← BitVec.toNat_inj]; rfl
        simp only [hz, k3]
        split
        · rename_i h1
          rw [h1]
          have := Nat.mod_lt x.toNat (show 0 < 2 ^ 1 by decide)
          split <;> omega
        · exact Nat.mod_mod _ _
      rw [hpen] at m3 m4
      refine ⟨c2, fb2, by simp [execAll, Cmd.exec, k1, m1], m2, m3, ?_⟩
      intro q hq
      refine seen_through (layer_none signed g _ _ (.inl hcol') q) ?_
      have := m4 q hq
      unfold physPixel at this ⊢
      rw [k2] at this
      exact this
    · by_cases hcl : ∃ x, cmd = .clear x
      · obtain ⟨x, rfl⟩ := hcl
        obtain ⟨fb1, k1, k2, k3, -, k4⟩ := clear_fills g h.compiles h.depth h.hlo fb h.img x
        obtain ⟨c2, fb2, m1, m2, m3, m4⟩ := ih c fb1 (ready_any (c := c) h c.rotate k2) hv.2
        have hpen : penOf g c fb1 = Cmd.pen g (penOf g c fb) (.clear x) := by simp [penOf, Cmd.pen, k3]
        rw [hpen] at m3 m4
        refine ⟨c2, fb2, by simp [execAll, Cmd.exec, k1, m1], m2, m3, ?_⟩
        intro q hq
        refine seen_over (show (fun _ => True) q from trivial) ?_
        have := m4 q hq
        rw [show physPixel g fb1 q = some (storedValue g.depth x) from k4 _ _ hq] at this
        exact this
      · by_cases hro : ∃ x, cmd = .rotate x
        · have hro' := hro
          obtain ⟨x, rfl⟩ := hro
          obtain ⟨c2, fb2, m1, m2, m3, m4⟩ := ih (c.setRotation x) fb (ready_any h x rfl) hv.2
          exact ⟨c2, fb2, by simp [execAll, Cmd.exec, m1], m2, m3, fun q hq =>
            seen_through (layer_none signed g _ _ (.inr hro') q) (m4 q hq)⟩
        · obtain ⟨fb1, k1, k3⟩ := draw_covers signed g c fb h cmd hv.1 (fun x e => hcol ⟨x, e⟩)
            (fun x e => hcl ⟨x, e⟩) (fun x e => hro ⟨x, e⟩)
          obtain ⟨c2, fb2, m1, m2, m3, m4⟩ := ih c fb1 (paints_ready h k3) hv.2
          have hpen : penOf g c fb1 = Cmd.pen g (penOf g c fb) cmd := by
            have : Cmd.pen g (penOf g c fb) cmd = penOf g c fb := by
              cases cmd with
              | color x => exact absurd ⟨x, rfl⟩ hcol
              | rotate x => exact absurd ⟨x, rfl⟩ hro
              | _ => rfl
            rw [this]
            simp [penOf, k3.sel]
          have hlay : cmd.layer signed g (penOf g c fb) = (fun q => ∃ p, covered signed c.rotate cmd p ∧
              phys c.rotate g.getWidth g.getHeight p = q, storedValue g.depth fb.sel) := by
            cases cmd with
            | clear x => exact absurd ⟨x, rfl⟩ hcl
            | _ => rfl
          rw [hpen] at m3 m4
          refine ⟨c2, fb2, by simp [execAll, k1, m1], m2, m3, ?_⟩
          intro q hq
          obtain ⟨b1, b2, b3⟩ := rotation_bijective c g fb h
          obtain ⟨p, hp, rfl⟩ := b3 q hq
          have hm := m4 _ hq
          unfold layers
          rw [hlay]
          by_cases hS : covered signed c.rotate cmd p
          · refine seen_over ⟨p, hS, rfl⟩ ?_
            rw [show physPixel g fb1 _ = some (storedValue g.depth fb.sel) from k3.inside p hp hS] at hm
            exact hm
          · refine seen_through (fun ⟨p', e1, e2⟩ => hS (b2 _ _ e2 ▸ e1)) ?_
            rw [show physPixel g fb1 _ = physPixel g fb _ from k3.outside p hp hS] at hm
            exact hm

/-- **C83**: what was there before a `clear` cannot be seen afterwards. -/
theorem clear_hides (signed : Bool) (g : Geom) (c : Canvas) (fb1 fb2 : FB) (h1 : Ready c g fb1) (h2 : Ready c g fb2)
    (hs : fb1.sel = fb2.sel) (col : BitVec 32) (cmds : List Cmd) :
    execAll signed g c fb1 (.clear col :: cmds) = execAll signed g c fb2 (.clear col :: cmds) := by
  obtain ⟨a, a1, a2, a3, a4, -⟩ := clear_fills g h1.compiles h1.depth h1.hlo fb1 h1.img col
  obtain ⟨b, b1, b2, b3, b4, -⟩ := clear_fills g h2.compiles h2.depth h2.hlo fb2 h2.img col
  have hlen : fb1.img.length = fb2.img.length := by
    have := h1.img; have := h2.img; omega
  have hab : a = b := by
    obtain ⟨ai, as⟩ := a
    obtain ⟨bi, bs⟩ := b
    simp only at a2 a3 a4 b2 b3 b4
    rw [FB.mk.injEq]
    refine ⟨?_, by rw [a3, b3, hs]⟩
    apply List.ext_getElem (by omega)
    intro i hi hi'
    apply BitVec.eq_of_getMsbD_eq
    intro k hk
    have e1 := a4 (8 * i + k) (by omega)
    have e2 := b4 (8 * i + k) (by omega)
    rw [← e2] at e1
    unfold imgBit at e1
    rw [show (8 * i + k) / 8 = i by omega, show (8 * i + k) % 8 = k by omega, List.getElem?_eq_getElem hi,
      List.getElem?_eq_getElem hi'] at e1
    simpa using e1
  simp only [execAll, Cmd.exec, a1, b1, hab]

/-- **C83**: on a new canvas on a new frame buffer, nothing is turned and the pen has all bits of the depth set. -/
theorem fresh_picture (signed : Bool) (g : Geom) (hg : g.Compiles) (hd : g.depth ≠ 2) (hd' : g.depth ≠ 32)
    (hw : 0 ≤ g.getWidth ∧ g.getWidth ≤ 2 ^ 28) (hh : 0 ≤ g.getHeight ∧ g.getHeight ≤ 2 ^ 28) (mem : List Byte)
    (hm : (mem.length : Int) = g.bufSize) (cmds : List Cmd) (hv : ∀ cmd ∈ cmds, cmd.Valid signed) :
    ∃ fb c' fb', FB.new g mem = .ok fb ∧ execAll signed g (Canvas.new g) fb cmds = .ok (c', fb') ∧ Ready c' g fb' ∧
      ∀ q, InRange g q.x q.y → Seen q (physPixel g ⟨mem, 0⟩ q) (layers signed g ⟨.r0, 2 ^ g.depth - 1⟩ cmds)
        (physPixel g fb' q) := by
  obtain ⟨fb, -, k1, k2, k3, -⟩ := setColor_masks g hg hd' mem ⟨mem, 0⟩ 0
  have hr : Ready (Canvas.new g) g fb := ⟨hg, hd, by rw [k2]; exact hm, rfl, hw.1, hh.1, hw.2, hh.2⟩
  obtain ⟨c', fb', m1, m2, -, m4⟩ := picture signed g _ fb hr hd' cmds hv
  have hpen : penOf g (Canvas.new g) fb = ⟨.r0, 2 ^ g.depth - 1⟩ := by
    simp only [penOf, Canvas.new, Pen.mk.injEq, true_and, storedValue]
    have hz : fb.sel = 0 ↔ fb.sel.toNat = 0 := by
      rw [← BitVec.toNat_inj]; rfl
    simp only [hz, k3]
    split
    · rename_i h1; rw [h1]; rfl
    · exact Nat.mod_eq_of_lt (Nat.sub_lt (Nat.two_pow_pos _) (by decide))
  rw [hpen] at m4
  refine ⟨fb, c', fb', k1, m1, m2, ?_⟩
  intro q hq
  have := m4 q hq
  rw [show physPixel g fb q = physPixel g ⟨mem, 0⟩ q by unfold physPixel; rw [k2]] at this
  exact this

/-- A program with two rotations and two pens on a 16 x 8 screen of depth 4: the later rectangle covers a part of the
line, the pixel (0, 0) of the turned screen is at the right end of the first row. -/
example : (match execAll false ⟨4, 8, 4⟩ ⟨⟨16, 8⟩, .r0⟩ ⟨List.replicate 64 0, 5⟩
    [.clear 1, .color 7, .shape (.line ⟨0, 2⟩ ⟨9, 2⟩), .color 0xFE, .shape (.fillRect ⟨⟨3, 1⟩, ⟨2, 3⟩⟩), .rotate .r90,
      .shape (.pixel ⟨0, 0⟩)] with
    | .ok (_, fb') => decide (physPixel ⟨4, 8, 4⟩ fb' ⟨2, 2⟩ = some 7 ∧ physPixel ⟨4, 8, 4⟩ fb' ⟨3, 2⟩ = some 14 ∧
        physPixel ⟨4, 8, 4⟩ fb' ⟨15, 0⟩ = some 14 ∧ physPixel ⟨4, 8, 4⟩ fb' ⟨0, 0⟩ = some 1)
    | _ => false) = true := by
  decide +kernel

end Verif.Text
