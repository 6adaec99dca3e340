import Verif.Text.Model
import Verif.Font.Props
import Verif.Canvas.Circle
/-!
# C40, C41, C45: characters, strings and text bounds
-/
namespace Verif.Text
open Verif.Canvas Verif.FrameBuffer Verif.Font

/-! ## Specification -/

/-- The pixels of a glyph shown at pen position `pos`. -/
def glyphSet (bitmap : List Byte) (r : CharBitmap) (pos : Pt) (p : Pt) : Prop :=
  ∃ i j : Nat, i < r.width ∧ j < r.height ∧ glyphBit bitmap r.start r.width i j = true ∧
    p = ⟨pos.x + r.ox + i, pos.y + r.oy + j⟩

/-! ## Lemmas -/

theorem bit_test (b : Byte) (k : Nat) (h : k < 8) :
    (b &&& (0x80#8 >>> k) ≠ 0#8) ↔ b.getLsbD (7 - k) = true := by
  have e : (0x80#8 >>> k) = BitVec.twoPow 8 (7 - k) := by
    have : k = 0 ∨ k = 1 ∨ k = 2 ∨ k = 3 ∨ k = 4 ∨ k = 5 ∨ k = 6 ∨ k = 7 := by omega
    rcases this with h | h | h | h | h | h | h | h <;> subst h <;> decide
  rw [e, BitVec.and_twoPow]
  by_cases hb : b.getLsbD (7 - k) = true
  · rw [if_pos hb]
    refine ⟨fun _ => hb, fun _ h0 => ?_⟩
    have : (BitVec.twoPow 8 (7 - k)).getLsbD (7 - k) = false := by rw [h0]; simp
    rw [BitVec.getLsbD_twoPow] at this
    simp at this
    omega
  · rw [if_neg hb]
    exact ⟨fun h => absurd rfl h, fun h => absurd h hb⟩

/-- The shifts, and what they do. -/
theorem shifts_ok {c : Canvas} {g : Geom} {fb : FB} (h : Ready c g fb) :
    ∃ s, c.shifts = .ok s ∧ ∀ p : Pt,
      ((-1073741824 ≤ p.x ∧ p.x ≤ 1073741824) ∧ -1073741824 ≤ p.y ∧ p.y ≤ 1073741824) →
      (do let v ← c.matrix.mul p; v.add s : Res Pt) = .ok (phys c.rotate g.getWidth g.getHeight p) := by
  have key := matrix_form_agrees c g fb h
  have h0 := key ⟨0, 0⟩ (by simp only; omega)
  cases hs : c.shifts with
  | ub =>
    rw [hs] at h0
    exfalso
    cases hm : c.matrix.mul ⟨0, 0⟩ <;> rw [hm] at h0 <;> cases h0
  | hang =>
    rw [hs] at h0
    exfalso
    cases hm : c.matrix.mul ⟨0, 0⟩ <;> rw [hm] at h0 <;> cases h0
  | ok s =>
    refine ⟨s, rfl, ?_⟩
    intro p hp
    have := key p hp
    rw [hs] at this
    exact this

theorem glyphPoint_ok {c : Canvas} {g : Geom} {fb : FB} {s : Sz} (pos : Pt) (i j : Nat)
    (hs : ∀ p : Pt, ((-1073741824 ≤ p.x ∧ p.x ≤ 1073741824) ∧ -1073741824 ≤ p.y ∧ p.y ≤ 1073741824) →
      (do let v ← c.matrix.mul p; v.add s : Res Pt) = .ok (phys c.rotate g.getWidth g.getHeight p))
    (hp : (-536870912 ≤ pos.x ∧ pos.x ≤ 536870912) ∧ -536870912 ≤ pos.y ∧ pos.y ≤ 536870912)
    (hi : i < 256) (hj : j < 256) (_ : Ready c g fb) :
    glyphPoint c.matrix s pos i j = .ok (phys c.rotate g.getWidth g.getHeight ⟨pos.x + i, pos.y + j⟩) := by
  unfold glyphPoint Pt.add
  simp only
  rw [chk_ok (v := pos.x + i) (by constructor <;> omega)]; simp only [Res.bind_ok]
  rw [chk_ok (v := pos.y + j) (by constructor <;> omega)]; simp only [Res.bind_ok]
  exact hs ⟨pos.x + i, pos.y + j⟩ (by simp only; omega)

theorem rowLoop_ok {c : Canvas} {g : Geom} {fb : FB} (h : Ready c g fb) {s : Sz}
    (hs : ∀ p : Pt, ((-1073741824 ≤ p.x ∧ p.x ≤ 1073741824) ∧ -1073741824 ≤ p.y ∧ p.y ≤ 1073741824) →
      (do let v ← c.matrix.mul p; v.add s : Res Pt) = .ok (phys c.rotate g.getWidth g.getHeight p))
    (bm : List Byte) (pos : Pt)
    (hp : (-536870912 ≤ pos.x ∧ pos.x ≤ 536870912) ∧ -536870912 ≤ pos.y ∧ pos.y ≤ 536870912)
    (start w j : Nat) (hw : w < 256) (hj : j < 256)
    (hb : ∀ i, i < w → start + (i + j * w) / 8 < bm.length) (n i : Nat) (hin : i + n = w) :
    ∃ ps, rowLoop c.matrix s bm pos w j i (start + (i + j * w) / 8) n = .ok (ps, start + (w + j * w) / 8) ∧
      ∀ q, q ∈ ps ↔ ∃ i', i ≤ i' ∧ i' < w ∧ glyphBit bm start w i' j = true ∧
        q = phys c.rotate g.getWidth g.getHeight ⟨pos.x + i', pos.y + j⟩ := by
  induction n generalizing i with
  | zero =>
    refine ⟨[], ?_, ?_⟩
    · have : i = w := by omega
      subst this; rfl
    · intro q
      simp only [List.not_mem_nil, false_iff]
      rintro ⟨i', h1, h2, _⟩
      omega
  | succ n ih =>
    obtain ⟨ps, p1, p2⟩ := ih (i + 1) (by omega)
    have hlt := hb i (by omega)
    have hbyte := List.getElem?_eq_getElem hlt
    generalize bm[start + (i + j * w) / 8]'hlt = byte at hbyte
    have hptr : (if (i + j * w) % 8 = 7 then start + (i + j * w) / 8 + 1 else start + (i + j * w) / 8) =
        start + (i + 1 + j * w) / 8 := by
      generalize j * w = t
      split <;> omega
    have hbit : glyphBit bm start w i j = byte.getLsbD (7 - (i + j * w) % 8) := by
      unfold glyphBit; rw [hbyte]
    have hgp := glyphPoint_ok (g := g) (fb := fb) pos i j hs hp (by omega) hj h
    unfold rowLoop
    rw [hbyte]
    simp only [Res.ofOption_some, Res.bind_ok]
    rw [hptr, p1]
    by_cases hbt : byte &&& (0x80#8 >>> ((i + j * w) % 8)) ≠ 0#8
    · rw [if_pos hbt, hgp]
      have hbt' := (bit_test byte _ (Nat.mod_lt _ (by decide))).1 hbt
      simp only [Res.bind_ok]
      refine ⟨_, rfl, ?_⟩
      intro q
      rw [List.mem_append, List.mem_singleton, p2]
      constructor
      · rintro (hq | ⟨i', k1, k2, k3, k4⟩)
        · exact ⟨i, Nat.le_refl i, by omega, by rw [hbit]; exact hbt', hq⟩
        · exact ⟨i', by omega, k2, k3, k4⟩
      · rintro ⟨i', k1, k2, k3, k4⟩
        by_cases he : i' = i
        · subst he; exact .inl k4
        · exact .inr ⟨i', by omega, k2, k3, k4⟩
    · rw [if_neg hbt]
      have hbt' : ¬ byte.getLsbD (7 - (i + j * w) % 8) = true := fun hh =>
        hbt ((bit_test byte _ (Nat.mod_lt _ (by decide))).2 hh)
      simp only [Res.bind_ok]
      refine ⟨_, rfl, ?_⟩
      intro q
      rw [List.nil_append, p2]
      constructor
      · rintro ⟨i', k1, k2, k3, k4⟩
        exact ⟨i', by omega, k2, k3, k4⟩
      · rintro ⟨i', k1, k2, k3, k4⟩
        by_cases he : i' = i
        · subst he; rw [hbit] at k3; exact absurd k3 hbt'
        · exact ⟨i', by omega, k2, k3, k4⟩

theorem glyphLoop_ok {c : Canvas} {g : Geom} {fb : FB} (h : Ready c g fb) {s : Sz}
    (hs : ∀ p : Pt, ((-1073741824 ≤ p.x ∧ p.x ≤ 1073741824) ∧ -1073741824 ≤ p.y ∧ p.y ≤ 1073741824) →
      (do let v ← c.matrix.mul p; v.add s : Res Pt) = .ok (phys c.rotate g.getWidth g.getHeight p))
    (bm : List Byte) (pos : Pt)
    (hp : (-536870912 ≤ pos.x ∧ pos.x ≤ 536870912) ∧ -536870912 ≤ pos.y ∧ pos.y ≤ 536870912)
    (start w ht : Nat) (hw : w < 256) (hht : ht < 256)
    (hb : ∀ i j, i < w → j < ht → start + (i + j * w) / 8 < bm.length) (n j : Nat) (hjn : j + n = ht) :
    ∃ ps, glyphLoop c.matrix s bm pos w j (start + (j * w) / 8) n = .ok ps ∧
      ∀ q, q ∈ ps ↔ ∃ i' j' : Nat, j ≤ j' ∧ j' < ht ∧ i' < w ∧ glyphBit bm start w i' j' = true ∧
        q = phys c.rotate g.getWidth g.getHeight ⟨pos.x + i', pos.y + j'⟩ := by
  induction n generalizing j with
  | zero =>
    refine ⟨[], rfl, ?_⟩
    intro q
    simp only [List.not_mem_nil, false_iff]
    rintro ⟨i', j', h1, h2, _⟩
    omega
  | succ n ih =>
    obtain ⟨ps, p1, p2⟩ := ih (j + 1) (by omega)
    obtain ⟨row, r1, r2⟩ := rowLoop_ok h hs bm pos hp start w j hw (by omega)
      (fun i hi => hb i j hi (by omega)) w 0 (by omega)
    rw [Nat.zero_add] at r1
    have e : w + j * w = (j + 1) * w := by rw [Nat.add_mul, Nat.one_mul, Nat.add_comm]
    rw [e] at r1
    unfold glyphLoop
    rw [r1]; simp only [Res.bind_ok]
    rw [p1]
    refine ⟨_, rfl, ?_⟩
    intro q
    rw [List.mem_append, r2, p2]
    constructor
    · rintro (⟨i', _, k2, k3, k4⟩ | ⟨i', j', k1, k2, k3⟩)
      · exact ⟨i', j, Nat.le_refl j, by omega, k2, k3, k4⟩
      · exact ⟨i', j', by omega, k2, k3⟩
    · rintro ⟨i', j', k1, k2, k3, k4, k5⟩
      by_cases he : j' = j
      · subst he; exact .inl ⟨i', Nat.zero_le _, k3, k4, k5⟩
      · exact .inr ⟨i', j', by omega, k2, k3, k4, k5⟩

theorem paints_ready {c : Canvas} {g : Geom} {fb fb' : FB} {S : Pt → Prop} (h : Ready c g fb)
    (hP : Paints c g fb fb' S) : Ready c g fb' :=
  ⟨h.compiles, h.depth, by rw [hP.len]; exact h.img, h.size, h.wlo, h.hlo, h.whi, h.hhi⟩

/-- Drawing one set after another. -/
theorem paints_trans {c : Canvas} {g : Geom} {fb fb1 fb2 : FB} {S T : Pt → Prop}
    (h1 : Paints c g fb fb1 S) (h2 : Paints c g fb1 fb2 T) : Paints c g fb fb2 (fun p => S p ∨ T p) := by
  refine ⟨?_, ?_, h2.sel.trans h1.sel, h2.len.trans h1.len⟩
  · intro p hp hst
    by_cases ht : T p
    · rw [h2.inside p hp ht, h1.sel]
    · rw [h2.outside p hp ht]
      exact h1.inside p hp (hst.resolve_right ht)
  · intro p hp hst
    rw [h2.outside p hp (fun h => hst (.inr h)), h1.outside p hp (fun h => hst (.inl h))]

theorem paints_refl (c : Canvas) (g : Geom) (fb : FB) : Paints c g fb fb (fun _ => False) :=
  ⟨fun _ _ h => h.elim, fun _ _ _ => rfl, rfl, rfl⟩

theorem ox_bounds (g : Glyph) : (-128 ≤ g.offX.toInt ∧ g.offX.toInt ≤ 127) ∧ -128 ≤ g.offY.toInt ∧ g.offY.toInt ≤ 127 := by
  have h1 := BitVec.toInt_lt (x := g.offX)
  have h2 := BitVec.le_toInt (x := g.offX)
  have h3 := BitVec.toInt_lt (x := g.offY)
  have h4 := BitVec.le_toInt (x := g.offY)
  norm_num at h1 h2 h3 h4
  omega

/-! ## C40 -/

/-- The facts about a looked-up glyph needed for drawing it. -/
structure Drawable (bitmap : List Byte) (r : CharBitmap) : Prop where
  inside : r.start + bitmapBytes r.width r.height ≤ bitmap.length
  width : r.width < 256
  height : r.height < 256
  shift : r.shift < 256
  ox : -128 ≤ r.ox ∧ r.ox ≤ 127
  oy : -128 ≤ r.oy ∧ r.oy ≤ 127

theorem drawable_of_shows {f : Font} {gl : Glyph} {r : CharBitmap} (h : Shows gl r) (hi : GlyphInside f gl) :
    Drawable f.bitmap r := by
  have ho := ox_bounds gl
  refine ⟨?_, ?_, ?_, ?_, ?_, ?_⟩
  · rw [h.start, h.width, h.height]; exact hi
  · rw [h.width]; exact gl.width.isLt
  · rw [h.height]; exact gl.height.isLt
  · rw [h.shift]; exact gl.shift.isLt
  · rw [h.ox]; exact ho.1
  · rw [h.oy]; exact ho.2

/-- **C40**: a character is drawn exactly as its glyph: the on-screen pixels painted are those whose bit is
set; bytes outside the glyph are not read (the bitmap may end with the glyph); the advance is returned. -/
theorem drawCharAt_exact (c : Canvas) (g : Geom) (fb : FB) (h : Ready c g fb) (signed : Bool) (f : Font)
    (pos : Pt) (hp : SmallPt pos) (b : Byte) (r : CharBitmap) (hr : getBitmap signed f b = .ok r)
    (hd : Drawable f.bitmap r) :
    ∃ fb', drawCharAt c g fb signed f pos b = .ok (fb', r.shift) ∧
      Paints c g fb fb' (glyphSet f.bitmap r pos) := by
  obtain ⟨s, s1, s2⟩ := shifts_ok h
  have hox := hd.ox
  have hoy := hd.oy
  have hb : ∀ i j, i < r.width → j < r.height → r.start + (i + j * r.width) / 8 < f.bitmap.length := by
    intro i j hi hj
    have h1 : i + j * r.width < r.width * r.height := by
      have : (j + 1) * r.width ≤ r.height * r.width := Nat.mul_le_mul_right _ hj
      rw [Nat.add_mul, Nat.one_mul] at this
      rw [Nat.mul_comm r.width]
      omega
    have := hd.inside
    unfold bitmapBytes at this
    omega
  obtain ⟨ps, p1, p2⟩ := glyphLoop_ok h s2 f.bitmap ⟨pos.x + r.ox, pos.y + r.oy⟩ (by simp only; omega)
    r.start r.width r.height hd.width hd.height hb r.height 0 (by omega)
  obtain ⟨fb', q1, q2⟩ := paint_paints h ps (glyphSet f.bitmap r pos) (by
    intro p _
    rw [p2]
    constructor
    · rintro ⟨i, j, _, k2, k3, k4, k5⟩
      exact ⟨i, j, k3, k2, k4, phys_inj _ _ _ k5⟩
    · rintro ⟨i, j, k1, k2, k3, k4⟩
      exact ⟨i, j, Nat.zero_le _, k2, k1, k3, by rw [k4]⟩)
  refine ⟨fb', ?_, q2⟩
  unfold drawCharAt
  rw [s1]; simp only [Res.bind_ok]
  rw [hr]; simp only [Res.bind_ok]
  rw [chk_ok (v := pos.y + r.oy) (by constructor <;> omega)]; simp only [Res.bind_ok]
  rw [chk_ok (v := pos.x + r.ox) (by constructor <;> omega)]; simp only [Res.bind_ok]
  have e : r.start + 0 * r.width / 8 = r.start := by omega
  rw [e] at p1
  rw [p1]; simp only [Res.bind_ok]
  rw [q1]
  rfl

/-- **C40**, spelled out for a repertoire character of a font whose glyphs are inside its bitmap (all but
the character of the last glyph, see `last_glyph_ub`). -/
theorem drawCharAt_glyph_partial (c : Canvas) (g : Geom) (fb : FB) (h : Ready c g fb) (signed : Bool) (f : Font)
    (pos : Pt) (hp : SmallPt pos) (b : Byte) (hs : signed = false ∨ b.toNat < 128)
    (h1 : f.first.toNat ≤ b.toNat) (h2 : b.toNat ≤ f.last.toNat) (hr : inRepertoire b.toNat)
    (hf : inRepertoire f.first.toNat ∧ f.first.toNat ≤ 0x7E) (gl : Glyph)
    (hg : f.glyph[ordinal b.toNat - ordinal f.first.toNat]? = some gl)
    (hl : ordinal b.toNat - ordinal f.first.toNat + 1 < f.glyph.length) (hi : GlyphInside f gl) :
    ∃ fb', drawCharAt c g fb signed f pos b = .ok (fb', gl.shift.toNat) ∧
      Paints c g fb fb' (fun p => ∃ i j : Nat, i < gl.width.toNat ∧ j < gl.height.toNat ∧
        glyphBit f.bitmap gl.bitmapOffset.toNat gl.width.toNat i j = true ∧
        p = ⟨pos.x + gl.offX.toInt + i, pos.y + gl.offY.toInt + j⟩) := by
  obtain ⟨r, k1, k2⟩ := getBitmap_finds_partial signed f b hs h1 h2 hr hf gl hg hl
    (by unfold GlyphInside at hi; omega)
  obtain ⟨fb', q1, q2⟩ := drawCharAt_exact c g fb h signed f pos hp b r k1 (drawable_of_shows k2 hi)
  refine ⟨fb', by rw [q1, k2.shift], ?_⟩
  have e : glyphSet f.bitmap r pos = (fun p => ∃ i j : Nat, i < gl.width.toNat ∧ j < gl.height.toNat ∧
        glyphBit f.bitmap gl.bitmapOffset.toNat gl.width.toNat i j = true ∧
        p = ⟨pos.x + gl.offX.toInt + i, pos.y + gl.offY.toInt + j⟩) := by
    funext p
    unfold glyphSet
    rw [k2.start, k2.width, k2.height, k2.ox, k2.oy]
  rw [← e]
  exact q2

/-! ## C41 -/

/-- The glyphs shown for a text: each with its pen position, starting from `pos`, each advance being
that of the glyph before. -/
def layout : Pt → List CharBitmap → List (CharBitmap × Pt)
  | _, [] => []
  | pos, r :: rs => (r, pos) :: layout ⟨pos.x + r.shift, pos.y⟩ rs

/-- Character `n` is at the start plus the sum of the advances of the previous ones. -/
theorem layout_position (pos : Pt) (rs : List CharBitmap) (n : Nat) (r : CharBitmap) (h : rs[n]? = some r) :
    (layout pos rs)[n]? = some (r, ⟨pos.x + (((rs.take n).map CharBitmap.shift).sum : Nat), pos.y⟩) := by
  induction rs generalizing pos n with
  | nil => simp at h
  | cons a rs ih =>
    cases n with
    | zero =>
      simp only [List.getElem?_cons_zero, Option.some.injEq] at h
      subst h
      simp [layout]
    | succ n =>
      rw [List.getElem?_cons_succ] at h
      simp only [layout, List.getElem?_cons_succ]
      rw [ih _ n h]
      simp only [List.take_succ_cons, List.map_cons, List.sum_cons]
      congr 3
      push_cast
      omega

/-- **C41**: a string is drawn as its characters, each at the start plus the sum of the advances of the
previous characters. -/
theorem drawStringAt_exact (c : Canvas) (g : Geom) (fb : FB) (h : Ready c g fb) (signed : Bool) (f : Font)
    (pos : Pt) (text : List Byte) (rs : List CharBitmap)
    (hp : (-134217728 ≤ pos.x ∧ pos.x + 255 * text.length ≤ 134217728) ∧ -134217728 ≤ pos.y ∧ pos.y ≤ 134217728)
    (hr : text.map (getBitmap signed f) = rs.map .ok) (hd : ∀ r ∈ rs, Drawable f.bitmap r) :
    ∃ fb', drawStringAt c g signed f fb pos text = .ok fb' ∧
      Paints c g fb fb' (fun p => ∃ n r, rs[n]? = some r ∧
        glyphSet f.bitmap r ⟨pos.x + (((rs.take n).map CharBitmap.shift).sum : Nat), pos.y⟩ p) := by
  have main : ∃ fb', drawStringAt c g signed f fb pos text = .ok fb' ∧
      Paints c g fb fb' (fun p => ∃ rp, rp ∈ layout pos rs ∧ glyphSet f.bitmap rp.1 rp.2 p) := by
    induction text generalizing fb pos rs with
    | nil =>
      cases rs with
      | cons r rs => simp at hr
      | nil =>
        refine ⟨fb, rfl, ?_⟩
        have e : (fun p => ∃ rp, rp ∈ layout pos [] ∧ glyphSet f.bitmap rp.1 rp.2 p) = (fun _ => False) := by
          funext p; apply propext
          simp [layout]
        rw [e]
        exact paints_refl c g fb
    | cons b bs ih =>
      cases rs with
      | nil => simp at hr
      | cons r rs =>
        simp only [List.map_cons, List.cons.injEq] at hr
        obtain ⟨hr1, hr2⟩ := hr
        have hd1 := hd r (List.mem_cons_self ..)
        simp only [List.length_cons] at hp
        push_cast at hp
        obtain ⟨fb1, k1, k2⟩ := drawCharAt_exact c g fb h signed f pos (by omega) b r hr1 hd1
        have hsh := hd1.shift
        obtain ⟨fb2, k3, k4⟩ := ih fb1 (paints_ready h k2) ⟨pos.x + r.shift, pos.y⟩ rs (by simp only; omega) hr2
          (fun r' hr' => hd r' (List.mem_cons_of_mem _ hr'))
        refine ⟨fb2, ?_, ?_⟩
        · unfold drawStringAt
          rw [k1]; simp only [Res.bind_ok]
          rw [chk_ok (v := pos.x + r.shift) (by constructor <;> omega)]; simp only [Res.bind_ok]
          exact k3
        · have := paints_trans k2 k4
          have e : (fun p => glyphSet f.bitmap r pos p ∨ ∃ rp, rp ∈ layout ⟨pos.x + r.shift, pos.y⟩ rs ∧
              glyphSet f.bitmap rp.1 rp.2 p) =
              (fun p => ∃ rp, rp ∈ layout pos (r :: rs) ∧ glyphSet f.bitmap rp.1 rp.2 p) := by
            funext p; apply propext
            simp only [layout, List.mem_cons]
            constructor
            · rintro (hq | ⟨rp, q1, q2⟩)
              · exact ⟨(r, pos), .inl rfl, hq⟩
              · exact ⟨rp, .inr q1, q2⟩
            · rintro ⟨rp, rfl | q1, q2⟩
              · exact .inl q2
              · exact .inr ⟨rp, q1, q2⟩
          rw [← e]
          exact this
  obtain ⟨fb', m1, m2⟩ := main
  refine ⟨fb', m1, ?_⟩
  have e : (fun p => ∃ rp, rp ∈ layout pos rs ∧ glyphSet f.bitmap rp.1 rp.2 p) =
      (fun p => ∃ n r, rs[n]? = some r ∧
        glyphSet f.bitmap r ⟨pos.x + (((rs.take n).map CharBitmap.shift).sum : Nat), pos.y⟩ p) := by
    have hlen : ∀ (pos : Pt) (rs : List CharBitmap), (layout pos rs).length = rs.length := by
      intro pos rs
      induction rs generalizing pos with
      | nil => rfl
      | cons r rs ih => simp only [layout, List.length_cons, ih]
    funext p; apply propext
    constructor
    · rintro ⟨rp, h1, h2⟩
      obtain ⟨n, hn, rfl⟩ := List.mem_iff_getElem.1 h1
      have hn' : n < rs.length := by rw [← hlen pos rs]; exact hn
      have := layout_position pos rs n _ (List.getElem?_eq_getElem hn')
      rw [List.getElem?_eq_getElem hn, Option.some.injEq] at this
      rw [this] at h2
      exact ⟨n, _, List.getElem?_eq_getElem hn', h2⟩
    · rintro ⟨n, r, h1, h2⟩
      exact ⟨_, List.mem_of_getElem? (layout_position pos rs n r h1), h2⟩
  rw [← e]
  exact m2

end Verif.Text
