import Verif.Text.Bounds
import Verif.Canvas.Writes
/-!
# C105, text: how often a pixel is written
-/
namespace Verif.Text
open Verif.Canvas Verif.FrameBuffer Verif.Font

/-- The points `drawCharAt` (Canvas.cpp:5-29) passes to `setIfVisible`. -/
def charPts (c : Canvas) (signed : Bool) (f : Font) (pos0 : Pt) (b : Byte) : Res (List Pt × Int) := do
  let shifts ← c.shifts
  let glyph ← getBitmap signed f b
  let y ← chk (pos0.y + glyph.oy)
  let x ← chk (pos0.x + glyph.ox)
  let ps ← glyphLoop c.matrix shifts f.bitmap ⟨x, y⟩ glyph.width 0 glyph.start glyph.height
  .ok (ps, glyph.shift)

/-- They are the points it paints. -/
theorem drawCharAt_eq (c : Canvas) (g : Geom) (fb : FB) (signed : Bool) (f : Font) (pos : Pt) (b : Byte) :
    drawCharAt c g fb signed f pos b = (do
      let (ps, adv) ← charPts c signed f pos b
      let fb' ← c.paint g fb ps
      .ok (fb', adv)) := by
  unfold drawCharAt charPts
  simp only [bind_assoc, Res.bind_ok]

/-- The points `drawStringAt` (Canvas.h:63-69) passes to `setIfVisible`. -/
def stringPts (c : Canvas) (signed : Bool) (f : Font) : Pt → List Byte → Res (List Pt)
  | _, [] => .ok []
  | pos, b :: bs => do
    let (ps, adv) ← charPts c signed f pos b
    let x ← chk (pos.x + adv)
    let qs ← stringPts c signed f { pos with x := x } bs
    .ok (ps ++ qs)

private theorem rowLoop_nodup {c : Canvas} {g : Geom} {fb : FB} (h : Ready c g fb) {s : Sz}
    (hs : ∀ p : Pt, ((-1073741824 ≤ p.x ∧ p.x ≤ 1073741824) ∧ -1073741824 ≤ p.y ∧ p.y ≤ 1073741824) →
      (do let v ← c.matrix.mul p; v.add s : Res Pt) = .ok (phys c.rotate g.getWidth g.getHeight p))
    (bm : List Byte) (pos : Pt)
    (hp : (-536870912 ≤ pos.x ∧ pos.x ≤ 536870912) ∧ -536870912 ≤ pos.y ∧ pos.y ≤ 536870912)
    (start w j : Nat) (hw : w < 256) (hj : j < 256)
    (hb : ∀ i, i < w → start + (i + j * w) / 8 < bm.length) (n i : Nat) (hin : i + n = w) (ps : List Pt) (ptr : Nat)
    (hr : rowLoop c.matrix s bm pos w j i (start + (i + j * w) / 8) n = .ok (ps, ptr)) : ps.Nodup := by
  induction n generalizing i ps ptr with
  | zero =>
    injection hr with hr
    injection hr with hr
    subst hr
    exact List.nodup_nil
  | succ n ih =>
    obtain ⟨qs, p1, p2⟩ := rowLoop_ok h hs bm pos hp start w j hw hj hb n (i + 1) (by omega)
    have hq := ih (i + 1) (by omega) qs _ p1
    have hlt := hb i (by omega)
    have hbyte := List.getElem?_eq_getElem hlt
    generalize bm[start + (i + j * w) / 8]'hlt = byte at hbyte
    have hptr : (if (i + j * w) % 8 = 7 then start + (i + j * w) / 8 + 1 else start + (i + j * w) / 8) =
        start + (i + 1 + j * w) / 8 := by
      generalize j * w = t
      split <;> omega
    have hgp := glyphPoint_ok (g := g) (fb := fb) pos i j hs hp (by omega) hj h
    unfold rowLoop at hr
    rw [hbyte] at hr
    simp only [Res.ofOption_some, Res.bind_ok] at hr
    rw [hptr, p1] at hr
    by_cases hbt : byte &&& (0x80#8 >>> ((i + j * w) % 8)) ≠ 0#8
    · rw [if_pos hbt, hgp] at hr
      simp only [Res.bind_ok] at hr
      injection hr with hr
      injection hr with hr
      subst hr
      refine List.nodup_cons.2 ⟨fun hm => ?_, hq⟩
      obtain ⟨i', k1, -, -, k4⟩ := (p2 _).1 hm
      have := phys_inj _ _ _ k4
      rw [Pt.mk.injEq] at this
      omega
    · rw [if_neg hbt] at hr
      simp only [Res.bind_ok] at hr
      injection hr with hr
      injection hr with hr
      subst hr
      exact hq

private theorem glyphLoop_nodup {c : Canvas} {g : Geom} {fb : FB} (h : Ready c g fb) {s : Sz}
    (hs : ∀ p : Pt, ((-1073741824 ≤ p.x ∧ p.x ≤ 1073741824) ∧ -1073741824 ≤ p.y ∧ p.y ≤ 1073741824) →
      (do let v ← c.matrix.mul p; v.add s : Res Pt) = .ok (phys c.rotate g.getWidth g.getHeight p))
    (bm : List Byte) (pos : Pt)
    (hp : (-536870912 ≤ pos.x ∧ pos.x ≤ 536870912) ∧ -536870912 ≤ pos.y ∧ pos.y ≤ 536870912)
    (start w ht : Nat) (hw : w < 256) (hht : ht < 256)
    (hb : ∀ i j, i < w → j < ht → start + (i + j * w) / 8 < bm.length) (n j : Nat) (hjn : j + n = ht) (ps : List Pt)
    (hr : glyphLoop c.matrix s bm pos w j (start + (j * w) / 8) n = .ok ps) : ps.Nodup := by
  induction n generalizing j ps with
  | zero =>
    injection hr with hr
    subst hr
    exact List.nodup_nil
  | succ n ih =>
    obtain ⟨qs, p1, p2⟩ := glyphLoop_ok h hs bm pos hp start w ht hw hht hb n (j + 1) (by omega)
    obtain ⟨row, r1, r2⟩ := rowLoop_ok h hs bm pos hp start w j hw (by omega)
      (fun i hi => hb i j hi (by omega)) w 0 (by omega)
    have hrow := rowLoop_nodup h hs bm pos hp start w j hw (by omega) (fun i hi => hb i j hi (by omega)) w 0 (by omega)
      row _ r1
    have hq := ih (j + 1) (by omega) qs p1
    rw [Nat.zero_add] at r1
    have e : w + j * w = (j + 1) * w := by rw [Nat.add_mul, Nat.one_mul, Nat.add_comm]
    rw [e] at r1
    unfold glyphLoop at hr
    rw [r1] at hr; simp only [Res.bind_ok] at hr
    rw [p1] at hr
    injection hr with hr
    subst hr
    refine List.nodup_append.2 ⟨hrow, hq, ?_⟩
    rintro a ha b hb rfl
    obtain ⟨i1, -, -, -, k4⟩ := (r2 a).1 ha
    obtain ⟨i2, j2, m1, -, -, -, m5⟩ := (p2 a).1 hb
    have := phys_inj _ _ _ (k4.symm.trans m5)
    rw [Pt.mk.injEq] at this
    omega

open Classical in
/-- Every dark pixel of the glyph is passed to `setIfVisible` once, and no other pixel. -/
theorem charPts_count (c : Canvas) (g : Geom) (fb : FB) (h : Ready c g fb) (signed : Bool) (f : Font)
    (pos : Pt) (hp : SmallPt pos) (b : Byte) (r : CharBitmap) (hr : getBitmap signed f b = .ok r)
    (hd : Drawable f.bitmap r) :
    ∃ ps, charPts c signed f pos b = .ok (ps, r.shift) ∧
      ∀ p, ps.count (phys c.rotate g.getWidth g.getHeight p) = if glyphSet f.bitmap r pos p then 1 else 0 := by
  obtain ⟨s, s1, s2⟩ := shifts_ok h
  have hox := hd.ox
  have hoy := hd.oy
  have hb : ∀ i j, i < r.width → j < r.height → r.start + (i + j * r.width) / 8 < f.bitmap.length := by
    intro i j hi hj
    have h1 : i + j * r.width < r.width * r.height := by
      have : (j + 1) * r.width ≤ r.height * r.width := Nat.mul_le_mul_right _ hj
      rw [Nat.add_mul, Nat.one_mul] at this
      rw [Nat.mul_comm r.width]
      omega
    have := hd.inside
    unfold bitmapBytes at this
    omega
  obtain ⟨ps, p1, p2⟩ := glyphLoop_ok h s2 f.bitmap ⟨pos.x + r.ox, pos.y + r.oy⟩ (by simp only; omega)
    r.start r.width r.height hd.width hd.height hb r.height 0 (by omega)
  have hn := glyphLoop_nodup h s2 f.bitmap ⟨pos.x + r.ox, pos.y + r.oy⟩ (by simp only; omega)
    r.start r.width r.height hd.width hd.height hb r.height 0 (by omega) ps p1
  refine ⟨ps, ?_, fun p => ?_⟩
  · unfold charPts
    rw [s1]; simp only [Res.bind_ok]
    rw [hr]; simp only [Res.bind_ok]
    rw [chk_ok (v := pos.y + r.oy) (by constructor <;> omega)]; simp only [Res.bind_ok]
    rw [chk_ok (v := pos.x + r.ox) (by constructor <;> omega)]; simp only [Res.bind_ok]
    have e : r.start + 0 * r.width / 8 = r.start := by omega
    rw [e] at p1
    rw [p1]; rfl
  · refine count_ind hn _ ?_
    rw [p2]
    constructor
    · rintro ⟨i, j, _, k2, k3, k4, k5⟩
      exact ⟨i, j, k3, k2, k4, phys_inj _ _ _ k5⟩
    · rintro ⟨i, j, k1, k2, k3, k4⟩
      exact ⟨i, j, Nat.zero_le _, k2, k1, k3, by rw [k4]⟩

open Classical in
/-- A pixel is passed to `setIfVisible` once for each character which has a dark pixel there. -/
theorem stringPts_count (c : Canvas) (g : Geom) (fb : FB) (h : Ready c g fb) (signed : Bool) (f : Font)
    (pos : Pt) (text : List Byte) (rs : List CharBitmap)
    (hp : (-134217728 ≤ pos.x ∧ pos.x + 255 * text.length ≤ 134217728) ∧ -134217728 ≤ pos.y ∧ pos.y ≤ 134217728)
    (hr : text.map (getBitmap signed f) = rs.map .ok) (hd : ∀ r ∈ rs, Drawable f.bitmap r) :
    ∃ ps, stringPts c signed f pos text = .ok ps ∧
      ∀ p, ps.count (phys c.rotate g.getWidth g.getHeight p) =
        ((layout pos rs).map fun rp => if glyphSet f.bitmap rp.1 rp.2 p then 1 else 0).sum := by
  induction text generalizing pos rs with
  | nil =>
    cases rs with
    | cons r rs => cases hr
    | nil => exact ⟨[], rfl, fun p => rfl⟩
  | cons b text ih =>
    cases rs with
    | nil => cases hr
    | cons r rs =>
      rw [List.map_cons, List.map_cons] at hr
      injection hr with hr1 hr2
      have hdr := hd r (List.mem_cons_self ..)
      rw [List.length_cons] at hp
      push_cast at hp
      obtain ⟨ps, p1, p2⟩ := charPts_count c g fb h signed f pos (by constructor <;> constructor <;> omega) b r hr1 hdr
      have hsh := hdr.shift
      obtain ⟨qs, q1, q2⟩ := ih ⟨pos.x + r.shift, pos.y⟩ rs (by simp only; omega) hr2
        (fun r' h' => hd r' (List.mem_cons_of_mem _ h'))
      refine ⟨ps ++ qs, ?_, fun p => ?_⟩
      · unfold stringPts
        rw [p1]; simp only [Res.bind_ok]
        rw [chk_ok (v := pos.x + r.shift) (by constructor <;> omega)]; simp only [Res.bind_ok]
        rw [q1]; rfl
      · rw [List.count_append, p2, q2]
        simp only [layout, List.map_cons, List.sum_cons]

/-- Drawing the text paints those points in order. -/
theorem drawStringAt_eq (c : Canvas) (g : Geom) (signed : Bool) (f : Font) (fb : FB) (h : Ready c g fb) (pos : Pt)
    (text : List Byte) (ps : List Pt) (hp : stringPts c signed f pos text = .ok ps) :
    drawStringAt c g signed f fb pos text = c.paint g fb ps := by
  induction text generalizing fb pos ps with
  | nil =>
    injection hp with hp
    subst hp
    rfl
  | cons b text ih =>
    rw [stringPts, Res.bind_eq_ok] at hp
    obtain ⟨⟨qs, adv⟩, h1, hp⟩ := hp
    simp only at hp
    rw [Res.bind_eq_ok] at hp
    obtain ⟨x, h2, hp⟩ := hp
    rw [Res.bind_eq_ok] at hp
    obtain ⟨rest, h3, hp⟩ := hp
    injection hp with hp
    subst hp
    obtain ⟨fb1, k1, k2, -⟩ := paint_clipped h qs
    rw [drawStringAt, drawCharAt_eq, h1, paint_append, k1]
    simp only [Res.bind_ok]
    rw [k1]
    simp only [Res.bind_ok]
    rw [h2]
    simp only [Res.bind_ok]
    exact ih fb1 k2 _ _ h3

private theorem visible_count {c : Canvas} {g : Geom} {fb : FB} (h : Ready c g fb) (ps : List Pt) (p : Pt)
    (hs : OnScreen c p) : (ps.filter c.visible).count (phys c.rotate g.getWidth g.getHeight p) =
      ps.count (phys c.rotate g.getWidth g.getHeight p) := by
  refine List.count_filter ?_
  have := (onScreen_iff c p).1 hs
  rw [h.size] at this
  exact this

open Classical in
/-- **C105**, characters: drawing a character paints points which, left to those on the screen (Canvas.h:84-90), hold every
dark pixel of the glyph once and no other pixel. -/
theorem char_writes (c : Canvas) (g : Geom) (fb : FB) (h : Ready c g fb) (signed : Bool) (f : Font)
    (pos : Pt) (hp : SmallPt pos) (b : Byte) (r : CharBitmap) (hr : getBitmap signed f b = .ok r)
    (hd : Drawable f.bitmap r) :
    ∃ ps, (drawCharAt c g fb signed f pos b = do let fb' ← c.paint g fb ps; .ok (fb', r.shift)) ∧
      ∀ p, OnScreen c p → (ps.filter c.visible).count (phys c.rotate g.getWidth g.getHeight p) =
        if glyphSet f.bitmap r pos p then 1 else 0 := by
  obtain ⟨ps, p1, p2⟩ := charPts_count c g fb h signed f pos hp b r hr hd
  refine ⟨ps, ?_, fun p hs => by rw [visible_count h ps p hs, p2]⟩
  rw [drawCharAt_eq, p1]
  rfl

open Classical in
/-- **C105**, texts: a pixel on the screen is written once for each character which has a dark pixel there: never for the
characters without one, and more than once only where glyphs overlap. -/
theorem string_writes (c : Canvas) (g : Geom) (fb : FB) (h : Ready c g fb) (signed : Bool) (f : Font)
    (pos : Pt) (text : List Byte) (rs : List CharBitmap)
    (hp : (-134217728 ≤ pos.x ∧ pos.x + 255 * text.length ≤ 134217728) ∧ -134217728 ≤ pos.y ∧ pos.y ≤ 134217728)
    (hr : text.map (getBitmap signed f) = rs.map .ok) (hd : ∀ r ∈ rs, Drawable f.bitmap r) :
    ∃ ps, drawStringAt c g signed f fb pos text = c.paint g fb ps ∧
      ∀ p, OnScreen c p → (ps.filter c.visible).count (phys c.rotate g.getWidth g.getHeight p) =
        ((layout pos rs).map fun rp => if glyphSet f.bitmap rp.1 rp.2 p then 1 else 0).sum := by
  obtain ⟨ps, p1, p2⟩ := stringPts_count c g fb h signed f pos text rs hp hr hd
  exact ⟨ps, drawStringAt_eq c g signed f fb h pos text ps p1, fun p hs => by rw [visible_count h ps p hs, p2]⟩

open Classical in
/-- Two characters '!' of the tiny font, a 3 x 3 block, on a 16 x 8 canvas; their first block is written once. -/
example : ∃ ps, drawStringAt ⟨⟨16, 8⟩, .r90⟩ ⟨4, 8, 4⟩ true tiny ⟨List.replicate 64 0, 5⟩ ⟨0, 5⟩ [0x21, 0x21] =
      Canvas.paint ⟨⟨16, 8⟩, .r90⟩ ⟨4, 8, 4⟩ ⟨List.replicate 64 0, 5⟩ ps ∧
    ∀ p, OnScreen ⟨⟨16, 8⟩, .r90⟩ p → (ps.filter (Canvas.visible ⟨⟨16, 8⟩, .r90⟩)).count (phys .r90 16 8 p) =
      ((layout ⟨0, 5⟩ [⟨1, 3, 3, 3, 1, -3, 4⟩, ⟨1, 3, 3, 3, 1, -3, 4⟩]).map
        fun rp => if glyphSet tiny.bitmap rp.1 rp.2 p then 1 else 0).sum :=
  string_writes ⟨⟨16, 8⟩, .r90⟩ ⟨4, 8, 4⟩ ⟨List.replicate 64 0, 5⟩ (example_ready .r90) true tiny ⟨0, 5⟩ [0x21, 0x21]
    [⟨1, 3, 3, 3, 1, -3, 4⟩, ⟨1, 3, 3, 3, 1, -3, 4⟩] (by decide) (by decide) (fun r hr => by
      simp only [List.mem_cons, List.not_mem_nil, or_false, or_self] at hr
      subst hr
      constructor <;> decide)

example : charPts ⟨⟨16, 8⟩, .r0⟩ true tiny ⟨0, 5⟩ 0x21 = .ok ([⟨1, 2⟩, ⟨2, 2⟩, ⟨3, 2⟩, ⟨1, 3⟩, ⟨2, 3⟩, ⟨3, 3⟩, ⟨1, 4⟩, ⟨2, 4⟩, ⟨3, 4⟩], 4) := by
  decide +kernel

end Verif.Text
