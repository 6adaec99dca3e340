import Verif.Text.Props
import Verif.Converter.EndToEnd
import Verif.Font.FreeSans
/-!
# C112: 7-bit fonts mean what they mean to the Adafruit GFX library

README.md:88 promises that the 7-bit fonts are compatible with the Adafruit GFX library.  The reference here
is that library's published drawing procedure for custom fonts (`Adafruit_GFX::drawChar` and
`Adafruit_GFX::write` without line wrapping, text size 1), written down on its own: it keeps a byte register
which it refills at every eighth pixel and shifts left after every pixel, where `Canvas::drawCharAt` recomputes
byte and bit from the pixel's position.
-/
namespace Verif.Text.Adafruit
open Verif.Canvas Verif.FrameBuffer Verif.Font

/-- The variables of Adafruit's loop: `uint16_t bo`, `uint8_t bits`, `uint8_t bit`. -/
structure Reader where
  bo : BitVec 16
  bits : Byte
  bit : BitVec 8

/-- `if (!(bit++ & 7)) bits = bitmap[bo++];`, the test of `bits & 0x80`, and `bits <<= 1;`.  `none`: reads
outside the bitmap. -/
def pixel (bm : List Byte) (s : Reader) : Option (Bool × Reader) :=
  if s.bit &&& 7#8 = 0#8 then
    match bm[s.bo.toNat]? with
    | none => none
    | some b => some (b &&& 0x80#8 ≠ 0#8, ⟨s.bo + 1, b <<< 1, s.bit + 1⟩)
  else some (s.bits &&& 0x80#8 ≠ 0#8, ⟨s.bo, s.bits <<< 1, s.bit + 1⟩)

/-- `for (xx = …; xx < w; xx++)`: the pixels written in row `y`, from `x` on. -/
def row (bm : List Byte) (y : Int) : Int → Nat → Reader → Option (List Pt × Reader)
  | _, 0, s => some ([], s)
  | x, n + 1, s => do
    let (on, s) ← pixel bm s
    let (ps, s) ← row bm y (x + 1) n s
    some (if on then ⟨x, y⟩ :: ps else ps, s)

/-- `for (yy = …; yy < h; yy++)`. -/
def rows (bm : List Byte) (x : Int) (w : Nat) : Int → Nat → Reader → Option (List Pt)
  | _, 0, _ => some []
  | y, n + 1, s => do
    let (ps, s) ← row bm y x w s
    let qs ← rows bm x w (y + 1) n s
    some (ps ++ qs)

/-- `drawChar` of a custom font with the cursor at `pos`, and the advance of `write`.  A character outside
`first … last` is not drawn and does not advance. -/
def drawChar (f : Font) (pos : Pt) (b : Byte) : Option (List Pt × Nat) :=
  if f.first.toNat ≤ b.toNat ∧ b.toNat ≤ f.last.toNat then
    match f.glyph[b.toNat - f.first.toNat]? with
    | none => none
    | some g => do
      let ps ← rows f.bitmap (pos.x + g.ox) g.width.toNat (pos.y + g.oy) g.height.toNat ⟨g.bitmapOffset, 0, 0⟩
      some (ps, g.shift.toNat)
  else some ([], 0)

/-- `print` without line wrapping. -/
def print (f : Font) : Pt → List Byte → Option (List Pt)
  | _, [] => some []
  | pos, b :: bs => do
    let (ps, adv) ← drawChar f pos b
    let qs ← print f ⟨pos.x + adv, pos.y⟩ bs
    some (ps ++ qs)

/-! ## The register holds the bits which are left of the current byte -/

/-- The state of the reader after `n` pixels of a glyph starting at byte `start`. -/
structure After (bm : List Byte) (start n : Nat) (s : Reader) : Prop where
  bit : s.bit.toNat = n % 256
  bo : s.bo.toNat = (start + (n + 7) / 8) % 65536
  bits : n % 8 ≠ 0 → ∃ b, bm[start + n / 8]? = some b ∧ s.bits = b <<< (n % 8)

theorem and7 : ∀ b : BitVec 8, (b &&& 7#8 = 0#8) ↔ b.toNat % 8 = 0 := by decide +kernel

theorem top_bit : ∀ b : BitVec 8, ∀ k : Fin 8, decide ((b <<< k.val) &&& 0x80#8 ≠ 0#8) = b.getLsbD (7 - k.val) := by
  decide +kernel

theorem top_bit' (b : BitVec 8) (k : Nat) (h : k < 8) :
    decide ((b <<< k) &&& 0x80#8 ≠ 0#8) = b.getLsbD (7 - k) := top_bit b ⟨k, h⟩

theorem pixel_after {bm : List Byte} {start n : Nat} {s : Reader} (h : After bm start n s) (hlen : bm.length ≤ 65536)
    (hin : start + n / 8 < bm.length) :
    ∃ b s', bm[start + n / 8]? = some b ∧ pixel bm s = some (b.getLsbD (7 - n % 8), s') ∧ After bm start (n + 1) s' := by
  have h7 : (s.bit &&& 7#8 = 0#8) ↔ n % 8 = 0 := by
    rw [and7, h.bit]; omega
  have hbit : (s.bit + 1).toNat = (n + 1) % 256 := by
    rw [BitVec.toNat_add, h.bit]
    show (n % 256 + 1) % 256 = _
    omega
  by_cases h0 : n % 8 = 0
  · have hbo : s.bo.toNat = start + n / 8 := by rw [h.bo]; omega
    refine ⟨bm[start + n / 8], ⟨s.bo + 1, bm[start + n / 8] <<< 1, s.bit + 1⟩, List.getElem?_eq_getElem hin, ?_, hbit, ?_, ?_⟩
    · unfold pixel
      rw [if_pos (h7.2 h0), hbo, List.getElem?_eq_getElem hin]
      simp only
      have := top_bit' bm[start + n / 8] 0 (by omega)
      rw [h0, ← this]
      simp only [BitVec.shiftLeft_zero]
    · rw [BitVec.toNat_add, hbo]
      show (start + n / 8 + 1) % 65536 = _
      omega
    · intro _
      refine ⟨bm[start + n / 8], ?_, ?_⟩
      · rw [show (n + 1) / 8 = n / 8 by omega]
        exact List.getElem?_eq_getElem hin
      · rw [show (n + 1) % 8 = 1 by omega]
  · obtain ⟨b, b1, b2⟩ := h.bits h0
    refine ⟨b, ⟨s.bo, s.bits <<< 1, s.bit + 1⟩, b1, ?_, hbit, ?_, ?_⟩
    · unfold pixel
      rw [if_neg (fun e => h0 (h7.1 e)), b2, top_bit' b (n % 8) (by omega)]
    · show s.bo.toNat = _
      rw [h.bo]
      omega
    · intro h1
      refine ⟨b, ?_, ?_⟩
      · rw [show (n + 1) / 8 = n / 8 by omega]; exact b1
      · show s.bits <<< 1 = _
        rw [b2, ← BitVec.shiftLeft_add, show (n + 1) % 8 = n % 8 + 1 by omega]

theorem row_after {bm : List Byte} {start w j : Nat} (hlen : bm.length ≤ 65536) (x0 y : Int)
    (hb : ∀ i, i < w → start + (i + j * w) / 8 < bm.length) (n i : Nat) (hin : i + n = w) (s : Reader)
    (h : After bm start (i + j * w) s) :
    ∃ ps s', row bm y (x0 + i) n s = some (ps, s') ∧ After bm start (w + j * w) s' ∧
      ∀ p, p ∈ ps ↔ ∃ i', i ≤ i' ∧ i' < w ∧ glyphBit bm start w i' j = true ∧ p = ⟨x0 + i', y⟩ := by
  induction n generalizing i s with
  | zero =>
    refine ⟨[], s, rfl, ?_, fun p => ?_⟩
    · rw [show w = i by omega] at h ⊢; exact h
    · refine ⟨fun h => by simp at h, ?_⟩
      rintro ⟨i', h1, h2, _⟩; omega
  | succ n ih =>
    obtain ⟨b, s1, k1, k2, k3⟩ := pixel_after h hlen (hb i (by omega))
    obtain ⟨ps, s2, e1, e2, e3⟩ := ih (i + 1) (by omega) s1 (by
      rw [show i + 1 + j * w = i + j * w + 1 by omega]; exact k3)
    have hbit : glyphBit bm start w i j = b.getLsbD (7 - (i + j * w) % 8) := by
      unfold glyphBit; rw [k1]
    have hx : x0 + (i : Int) + 1 = x0 + ((i + 1 : Nat) : Int) := by omega
    refine ⟨if b.getLsbD (7 - (i + j * w) % 8) then ⟨x0 + i, y⟩ :: ps else ps, s2, ?_, e2, fun p => ?_⟩
    · simp only [row, k2, hx, e1, Option.bind_eq_bind, Option.bind_some]
    · constructor
      · intro hp
        split at hp
        · rename_i ht
          rcases List.mem_cons.1 hp with hp | hp
          · exact ⟨i, Nat.le_refl _, by omega, hbit.trans ht, hp⟩
          · obtain ⟨i', a1, a2⟩ := (e3 p).1 hp
            exact ⟨i', by omega, a2⟩
        · obtain ⟨i', a1, a2⟩ := (e3 p).1 hp
          exact ⟨i', by omega, a2⟩
      · rintro ⟨i', a1, a2, a3, a4⟩
        by_cases hi : i' = i
        · subst hi
          rw [if_pos (hbit.symm.trans a3), a4]
          exact List.mem_cons_self
        · have : p ∈ ps := (e3 p).2 ⟨i', by omega, a2, a3, a4⟩
          split
          · exact List.mem_cons_of_mem _ this
          · exact this

theorem rows_after {bm : List Byte} {start w ht : Nat} (hlen : bm.length ≤ 65536) (x0 y0 : Int)
    (hb : ∀ i j, i < w → j < ht → start + (i + j * w) / 8 < bm.length) (n j : Nat) (hjn : j + n = ht) (s : Reader)
    (h : After bm start (j * w) s) :
    ∃ ps, rows bm x0 w (y0 + j) n s = some ps ∧
      ∀ p, p ∈ ps ↔ ∃ i' j' : Nat, j ≤ j' ∧ j' < ht ∧ i' < w ∧ glyphBit bm start w i' j' = true ∧
        p = ⟨x0 + i', y0 + j'⟩ := by
  induction n generalizing j s with
  | zero =>
    refine ⟨[], rfl, fun p => ⟨fun h => by simp at h, ?_⟩⟩
    rintro ⟨i', j', h1, h2, _⟩; omega
  | succ n ih =>
    obtain ⟨ps, s1, k1, k2, k3⟩ := row_after hlen x0 (y0 + j) (fun i hi => hb i j hi (by omega)) w 0 (by omega) s
      (by rw [Nat.zero_add]; exact h)
    obtain ⟨qs, e1, e2⟩ := ih (j + 1) (by omega) s1 (by
      rw [Nat.add_mul, Nat.one_mul, Nat.add_comm]; exact k2)
    have hy : y0 + (j : Int) + 1 = y0 + ((j + 1 : Nat) : Int) := by omega
    have hx : x0 + ((0 : Nat) : Int) = x0 := by omega
    rw [hx] at k1
    refine ⟨ps ++ qs, ?_, fun p => ?_⟩
    · simp only [rows, k1, hy, e1, Option.bind_eq_bind, Option.bind_some]
    · rw [List.mem_append, k3, e2]
      constructor
      · rintro (⟨i', _, a2, a3, a4⟩ | ⟨i', j', a1, a2⟩)
        · exact ⟨i', j, Nat.le_refl _, by omega, a2, a3, a4⟩
        · exact ⟨i', j', by omega, a2⟩
      · rintro ⟨i', j', a1, a2, a3, a4, a5⟩
        by_cases hj : j' = j
        · subst hj; exact Or.inl ⟨i', Nat.zero_le _, a3, a4, a5⟩
        · exact Or.inr ⟨i', j', by omega, a2, a3, a4, a5⟩

/-- What Adafruit's procedure draws for a character of the font: the set bits of its glyph. -/
theorem drawChar_pixels (f : Font) (pos : Pt) (b : Byte) (g : Glyph) (hlen : f.bitmap.length ≤ 65536)
    (h1 : f.first.toNat ≤ b.toNat) (h2 : b.toNat ≤ f.last.toNat)
    (hg : f.glyph[b.toNat - f.first.toNat]? = some g) (hi : GlyphInside f g) :
    ∃ ps, drawChar f pos b = some (ps, g.shift.toNat) ∧
      ∀ p, p ∈ ps ↔ ∃ i j : Nat, i < g.width.toNat ∧ j < g.height.toNat ∧
        glyphBit f.bitmap g.bitmapOffset.toNat g.width.toNat i j = true ∧
        p = ⟨pos.x + g.ox + i, pos.y + g.oy + j⟩ := by
  have hb : ∀ i j, i < g.width.toNat → j < g.height.toNat →
      g.bitmapOffset.toNat + (i + j * g.width.toNat) / 8 < f.bitmap.length := by
    intro i j hi' hj
    have := hi
    unfold GlyphInside bitmapBytes at this
    have h1 : (j + 1) * g.width.toNat ≤ g.height.toNat * g.width.toNat := Nat.mul_le_mul_right _ hj
    rw [Nat.add_mul, Nat.one_mul] at h1
    rw [Nat.mul_comm g.width.toNat] at this
    omega
  obtain ⟨ps, k1, k2⟩ := rows_after hlen (pos.x + g.ox) (pos.y + g.oy) hb g.height.toNat 0 (by omega)
    ⟨g.bitmapOffset, 0, 0⟩ ⟨by simp, by
      have := g.bitmapOffset.isLt
      simp only [Nat.zero_mul]; omega, by simp⟩
  have hy : pos.y + g.oy + ((0 : Nat) : Int) = pos.y + g.oy := by omega
  rw [hy] at k1
  refine ⟨ps, ?_, fun p => ?_⟩
  · unfold drawChar
    rw [if_pos ⟨h1, h2⟩, hg]
    simp only [k1, Option.bind_eq_bind, Option.bind_some]
  · rw [k2]
    constructor
    · rintro ⟨i, j, _, a2, a3, a4⟩; exact ⟨i, j, a3, a2, a4⟩
    · rintro ⟨i, j, a1, a2, a3⟩; exact ⟨i, j, Nat.zero_le _, a2, a1, a3⟩

/-! ## C112 -/

/-- A 7-bit font as Adafruit's `GFXfont` describes it: printable ASCII from `first` to `last`, a glyph for each
of them, every glyph inside the bitmap, offsets of 16 bits. -/
structure SevenBit (f : Font) : Prop where
  lo : 0x20 ≤ f.first.toNat
  hi : f.last.toNat ≤ 0x7E
  table : f.first.toNat + f.glyph.length = f.last.toNat + 1
  inside : ∀ g ∈ f.glyph, GlyphInside f g
  len : f.bitmap.length ≤ 65536

/-- **C112** (partial: the last character of the font cannot be drawn, C44): a character of a 7-bit font gives
the pixels and the advance which it gives with the Adafruit library, in every rotation, clipped to the
screen; whatever the signedness of `char`. -/
theorem char_as_adafruit_partial (c : Canvas) (g : Geom) (fb : FB) (h : Ready c g fb) (signed : Bool) (f : Font)
    (hf : SevenBit f) (pos : Pt) (hp : SmallPt pos) (b : Byte) (h1 : f.first.toNat ≤ b.toNat)
    (h2 : b.toNat < f.last.toNat) :
    ∃ ps adv fb', drawChar f pos b = some (ps, adv) ∧ drawCharAt c g fb signed f pos b = .ok (fb', adv) ∧
      Paints c g fb fb' (· ∈ ps) := by
  have hlo := hf.lo
  have hhi := hf.hi
  have ht := hf.table
  have hidx : b.toNat - f.first.toNat < f.glyph.length := by omega
  have ho : ordinal b.toNat - ordinal f.first.toNat = b.toNat - f.first.toNat := by
    unfold ordinal
    rw [if_pos (by omega), if_pos (by omega)]
    omega
  have hg := List.getElem?_eq_getElem hidx
  have hin := hf.inside _ (List.getElem_mem hidx)
  obtain ⟨ps, k1, k2⟩ := drawChar_pixels f pos b _ hf.len h1 (by omega) hg hin
  obtain ⟨fb', e1, e2⟩ := drawCharAt_glyph_partial c g fb h signed f pos hp b (Or.inr (by omega)) h1 (by omega)
    (by unfold inRepertoire; omega) (by unfold inRepertoire; omega) _ (by rw [ho]; exact hg) (by omega) hin
  exact ⟨ps, _, fb', k1, e1, Converter.paints_congr e2 (fun p => (k2 p).symm)⟩

/-- **C112** (partial: texts without the font's last character): a text of characters of the font gives the
picture which printing it with the Adafruit library gives. -/
theorem text_as_adafruit_partial (c : Canvas) (g : Geom) (signed : Bool) (f : Font) (hf : SevenBit f)
    (text : List Byte) (ht : ∀ b ∈ text, f.first.toNat ≤ b.toNat ∧ b.toNat < f.last.toNat) (fb : FB)
    (h : Ready c g fb) (pos : Pt)
    (hp : (-134217728 ≤ pos.x ∧ pos.x + 255 * text.length ≤ 134217728) ∧ -134217728 ≤ pos.y ∧ pos.y ≤ 134217728) :
    ∃ ps fb', print f pos text = some ps ∧ drawStringAt c g signed f fb pos text = .ok fb' ∧
      Paints c g fb fb' (· ∈ ps) := by
  induction text generalizing fb pos with
  | nil =>
    refine ⟨[], fb, rfl, rfl, ?_⟩
    exact Converter.paints_congr (paints_refl c g fb) (fun p => by simp)
  | cons b bs ih =>
    simp only [List.length_cons, Nat.cast_add, Nat.cast_one] at hp
    obtain ⟨b1, b2⟩ := ht b List.mem_cons_self
    obtain ⟨ps, adv, fb1, k1, k2, k3⟩ := char_as_adafruit_partial c g fb h signed f hf pos
      (by unfold SmallPt; omega) b b1 b2
    have hadv : adv < 256 := by
      have hhi := hf.hi
      have := hf.table
      have hg := List.getElem?_eq_getElem (l := f.glyph) (i := b.toNat - f.first.toNat) (by omega)
      obtain ⟨qs, q1, _⟩ := drawChar_pixels f pos b _ hf.len b1 (by omega) hg
        (hf.inside _ (List.getElem_mem _))
      rw [k1] at q1
      simp only [Option.some.injEq, Prod.mk.injEq] at q1
      rw [q1.2]
      exact BitVec.isLt _
    obtain ⟨qs, fb2, e1, e2, e3⟩ := ih (fun b hb => ht b (List.mem_cons_of_mem _ hb)) fb1 (paints_ready h k3)
      ⟨pos.x + adv, pos.y⟩ (by simp only; omega)
    refine ⟨ps ++ qs, fb2, ?_, ?_, ?_⟩
    · simp only [print, k1, e1, Option.bind_eq_bind, Option.bind_some]
    · unfold drawStringAt
      rw [k2]
      simp only [Res.bind_ok]
      rw [chk_ok (v := pos.x + adv) (by constructor <;> omega)]
      exact e2
    · exact Converter.paints_congr (paints_trans k3 e3) (fun p => by simp)

/-- **C112** fails for the last character of every 7-bit font: the Adafruit library draws it, here looking it
up is undefined. -/
theorem last_char_differs (c : Canvas) (g : Geom) (fb : FB) (h : Ready c g fb) (signed : Bool) (f : Font)
    (hf : SevenBit f) (pos : Pt) (hne : f.first.toNat ≤ f.last.toNat) :
    (drawChar f pos f.last).isSome ∧ drawCharAt c g fb signed f pos f.last = .ub := by
  have hlo := hf.lo
  have hhi := hf.hi
  have ht := hf.table
  have hidx : f.last.toNat - f.first.toNat < f.glyph.length := by omega
  constructor
  · obtain ⟨ps, k, _⟩ := drawChar_pixels f pos f.last _ hf.len hne (Nat.le_refl _) (List.getElem?_eq_getElem hidx)
      (hf.inside _ (List.getElem_mem hidx))
    rw [k]; rfl
  · obtain ⟨s, s1, _⟩ := shifts_ok h
    unfold drawCharAt
    rw [s1, last_glyph_ub signed f f.last (Or.inr (by omega)) hne (Nat.le_refl _) (by unfold inRepertoire; omega)
      (by unfold inRepertoire; omega) (by unfold ordinal; rw [if_pos (by omega), if_pos (by omega)]; omega)]
    rfl

/-- **C112** for characters outside the font: the Adafruit library draws nothing and does not advance; here the
font's first character is drawn instead. -/
theorem outside_differs (c : Canvas) (g : Geom) (fb : FB) (signed : Bool) (f : Font)
    (hf : SevenBit f) (hne : f.first.toNat < f.last.toNat) (pos : Pt) (b : Byte)
    (hb : b.toNat < f.first.toNat ∨ f.last.toNat < b.toNat) :
    drawChar f pos b = some ([], 0) ∧
      drawCharAt c g fb signed f pos b = drawCharAt c g fb signed f pos f.first := by
  have hlo := hf.lo
  have hhi := hf.hi
  have ht := hf.table
  constructor
  · unfold drawChar
    rw [if_neg (by omega)]
  · have hidx : 0 < f.glyph.length := by omega
    have hin := hf.inside _ (List.getElem_mem hidx)
    obtain ⟨r, k1, k2, _⟩ := getBitmap_fallback_partial signed f b (by unfold inRepertoire; omega) (by omega)
      (by
        have := b.isLt
        unfold charVal
        split
        · rw [BitVec.toInt_eq_toNat_cond]
          split <;> omega
        · omega) _ (List.getElem?_eq_getElem hidx) (by omega) (by unfold GlyphInside at hin; omega)
    unfold drawCharAt
    rw [k1, k2]

/-- The shipped font is a 7-bit font. -/
theorem freeSans_seven_bit : SevenBit freeSans := by
  refine ⟨by decide, by decide, ?_, freeSans_inside, ?_⟩
  · rw [freeSans_glyphs]; decide
  · rw [freeSans_length]; decide

/-- Every character of the shipped font but the tilde is drawn as Adafruit's library draws it. -/
example (c : Canvas) (g : Geom) (fb : FB) (h : Ready c g fb) (signed : Bool) (b : Byte)
    (hb : 0x20 ≤ b.toNat ∧ b.toNat < 0x7E) :
    ∃ ps adv fb', drawChar freeSans ⟨10, 30⟩ b = some (ps, adv) ∧
      drawCharAt c g fb signed freeSans ⟨10, 30⟩ b = .ok (fb', adv) ∧ Paints c g fb fb' (· ∈ ps) :=
  char_as_adafruit_partial c g fb h signed freeSans freeSans_seven_bit ⟨10, 30⟩ (by unfold SmallPt; decide) b hb.1 hb.2

/-! ## Converted fonts -/

/-- **C112**: the 7-bit font which the converter makes of the rendered characters is such a font, and the
Adafruit library draws each of its 95 characters as rendered. -/
theorem converted_as_adafruit (rs : List Converter.Rendered) (hlen : rs.length = 95)
    (hwf : ∀ r ∈ rs, (∃ pitch, r.WF pitch) ∧ r.Fits)
    (hsize : (rs.map fun r => bitmapBytes r.width r.rows).sum < 65536) :
    ∃ ds, Converter.convertAll rs Converter.BitStream.new = .ok ds ∧ SevenBit (Converter.fontOf ds 0x7E) ∧
      ∀ (pos : Pt) (b : Byte) (r : Converter.Rendered), 0x20 ≤ b.toNat → rs[b.toNat - 0x20]? = some r →
        ∃ ps, drawChar (Converter.fontOf ds 0x7E) pos b = some (ps, (r.advance / 65536).toNat) ∧
          ∀ p, p ∈ ps ↔ ∃ x y : Nat, x < r.width ∧ y < r.rows ∧ r.isSet x y = true ∧
            p = ⟨pos.x + r.left + x, pos.y + (1 - r.top) + y⟩ := by
  obtain ⟨ds, k1, k2, k3⟩ := Converter.convertAll_ok rs (fun r hr => (hwf r hr).1)
  have hmap : ds.map (fun d => d.bitmapData.length) = rs.map (fun r => bitmapBytes r.width r.rows) := by
    apply List.ext_getElem?
    intro m
    rw [List.getElem?_map, List.getElem?_map]
    cases hm : rs[m]? with
    | none =>
      have := List.getElem?_eq_none_iff.1 hm
      rw [List.getElem?_eq_none (by omega)]
      rfl
    | some r' =>
      obtain ⟨d', e1, e2⟩ := k3 m r' hm
      rw [e1]
      simp only [Option.map_some, e2.size]
  have htotal : (Converter.bitmapsFile ds).length < 65536 := by
    simp only [Converter.bitmapsFile, List.length_flatMap]
    rw [hmap]; exact hsize
  have entry : ∀ (n : Nat) (r : Converter.Rendered), rs[n]? = some r → ∃ g : Glyph,
      (Converter.binaryGlyphs 0 ds)[n]? = some g ∧ GlyphInside (Converter.fontOf ds 0x7E) g ∧
      g.width.toNat = r.width ∧ g.height.toNat = r.rows ∧ (g.shift.toNat : Int) = r.advance / 65536 ∧
      g.ox = r.left ∧ g.oy = 1 - r.top ∧
      ∀ x y, x < r.width → y < r.rows →
        glyphBit (Converter.fontOf ds 0x7E).bitmap g.bitmapOffset.toNat r.width x y = r.isSet x y := by
    intro n r hn
    obtain ⟨d, d1, d2⟩ := k3 n r hn
    have hfit := (hwf r (List.mem_of_getElem? hn)).2
    have hsplit := Converter.bitmapsFile_split ds n d d1
    have hpre : (Converter.bitmapsFile (ds.take n)).length + d.bitmapData.length ≤ (Converter.bitmapsFile ds).length := by
      rw [hsplit]; simp only [List.length_append]; omega
    have hg := Converter.binaryGlyphs_get 0 ds n d d1
    have hoff : (0 + BitVec.ofNat 16 (Converter.bitmapsFile (ds.take n)).length).toNat =
        (Converter.bitmapsFile (ds.take n)).length := by
      have h0 : ∀ x : BitVec 16, 0 + x = x := fun x => BitVec.zero_add x
      rw [h0, BitVec.toNat_ofNat]
      exact Nat.mod_eq_of_lt (by omega)
    rw [d2.descr] at hg
    simp only at hg
    have hw : (BitVec.ofNat 8 r.width).toNat = r.width := by
      rw [BitVec.toNat_ofNat]; exact Nat.mod_eq_of_lt hfit.width
    have hh : (BitVec.ofNat 8 r.rows).toNat = r.rows := by
      rw [BitVec.toNat_ofNat]; exact Nat.mod_eq_of_lt hfit.rows
    refine ⟨_, hg, ?_, hw, hh, Converter.toNat_ofInt8 _ hfit.advance, Converter.toInt_ofInt8 _ hfit.left,
      Converter.toInt_ofInt8 _ hfit.top, ?_⟩
    · show BitVec.toNat _ + bitmapBytes (BitVec.toNat _) (BitVec.toNat _) ≤ (Converter.bitmapsFile ds).length
      rw [hoff, hw, hh, ← d2.size]; exact hpre
    · intro x y hx hy
      show glyphBit (Converter.bitmapsFile ds) (0 + BitVec.ofNat 16 (Converter.bitmapsFile (ds.take n)).length).toNat _ _ _ = _
      rw [hoff, hsplit, Converter.glyphBit_shift, d2.bits x y hx hy]
      have h1 : (y + 1) * r.width ≤ r.rows * r.width := Nat.mul_le_mul_right _ hy
      rw [Nat.add_mul, Nat.one_mul] at h1
      rw [d2.size]
      unfold bitmapBytes
      rw [Nat.mul_comm r.width]
      omega
  have hlen' : (Converter.binaryGlyphs 0 ds).length = 95 := by rw [Converter.binaryGlyphs_length, k2, hlen]
  have hseven : SevenBit (Converter.fontOf ds 0x7E) := by
    refine ⟨Nat.le_refl _, Nat.le_refl _, ?_, ?_, Nat.le_of_lt htotal⟩
    · show 0x20 + (Converter.binaryGlyphs 0 ds).length = 0x7E + 1
      rw [hlen']
    · intro g hg
      obtain ⟨n, hn⟩ := List.getElem?_of_mem hg
      have hn' : n < rs.length := by
        have := (List.getElem?_eq_some_iff.1 hn).1
        rw [show (Converter.fontOf ds 0x7E).glyph = Converter.binaryGlyphs 0 ds from rfl, hlen'] at this
        omega
      obtain ⟨g', g1, g2, _⟩ := entry n _ (List.getElem?_eq_getElem hn')
      have : g' = g := Option.some.inj (g1.symm.trans hn)
      rw [← this]; exact g2
  refine ⟨ds, k1, hseven, ?_⟩
  intro pos b r hb hr
  obtain ⟨g, g1, g2, g3, g4, g5, g6, g7, g8⟩ := entry _ r hr
  have hn' := (List.getElem?_eq_some_iff.1 hr).1
  obtain ⟨ps, q1, q2⟩ := drawChar_pixels (Converter.fontOf ds 0x7E) pos b g (Nat.le_of_lt htotal) hb
    (by show b.toNat ≤ 0x7E; omega) g1 g2
  refine ⟨ps, by rw [q1]; congr 2; omega, fun p => ?_⟩
  rw [q2, g3, g4, g6, g7]
  constructor
  · rintro ⟨x, y, h1, h2, h3, h4⟩
    exact ⟨x, y, h1, h2, by rw [← g8 x y h1 h2]; exact h3, h4⟩
  · rintro ⟨x, y, h1, h2, h3, h4⟩
    exact ⟨x, y, h1, h2, by rw [g8 x y h1 h2]; exact h3, h4⟩

/-- The hypotheses are met by 95 times a 3 × 2 raster. -/
example : (List.replicate 95 Converter.blob).length = 95 ∧
    (∀ r ∈ List.replicate 95 Converter.blob, (∃ pitch, r.WF pitch) ∧ r.Fits) ∧
    ((List.replicate 95 Converter.blob).map fun r => bitmapBytes r.width r.rows).sum < 65536 := by
  refine ⟨by simp, ?_, by decide +kernel⟩
  intro r hr
  rw [List.eq_of_mem_replicate hr]
  exact Converter.blob_ok

end Verif.Text.Adafruit
