import Verif.Text.Props
import Verif.Font.FreeSans
/-!
# C45: the computed text bounds

`getTextBounds` returns the size of a box and, as its `topLeft`, the pen position relative to the
box's top left corner at which the text has to be drawn.  So the claim is that a text drawn with the
pen at `bounds.topLeft` paints pixels of `[0, width) × [0, height)` only.
-/
namespace Verif.Text
open Verif.Canvas Verif.FrameBuffer Verif.Font

/-! ## Specification -/

/-- The pixels painted for the glyphs `rs` from pen position `pos`, as in C41. -/
def textSet (bitmap : List Byte) (rs : List CharBitmap) (pos : Pt) (p : Pt) : Prop :=
  ∃ n r, rs[n]? = some r ∧
    glyphSet bitmap r ⟨pos.x + (((rs.take n).map CharBitmap.shift).sum : Nat), pos.y⟩ p

/-- `v` is the greatest of the values `f r`. -/
def IsMax (f : CharBitmap → Int) (rs : List CharBitmap) (v : Int) : Prop :=
  (∀ r ∈ rs, f r ≤ v) ∧ ∃ r ∈ rs, f r = v

/-- `v` is the least of 0 and the values `f r`. -/
def IsMin0 (f : CharBitmap → Int) (rs : List CharBitmap) (v : Int) : Prop :=
  (∀ r ∈ rs, v ≤ f r) ∧ v ≤ 0 ∧ (v = 0 ∨ ∃ r ∈ rs, f r = v)

/-- The width added by the glyphs after the first: the advances of all but the last and the width of the
last. -/
def tailWidth (rs : List CharBitmap) : Nat :=
  (rs.dropLast.map CharBitmap.shift).sum + (match rs.getLast? with | some r => r.width | none => 0)

/-! ## Lemmas -/

theorem tailWidth_cons2 (a b : CharBitmap) (rs : List CharBitmap) :
    tailWidth (a :: b :: rs) = a.shift + tailWidth (b :: rs) := by
  unfold tailWidth
  rw [List.dropLast_cons_cons, List.map_cons, List.sum_cons, List.getLast?_cons_cons]
  omega

theorem tailWidth_single (a : CharBitmap) : tailWidth [a] = a.width := by
  simp [tailWidth]

theorem tailWidth_le (bm : List Byte) (rs : List CharBitmap) (hd : ∀ r ∈ rs, Drawable bm r) :
    tailWidth rs ≤ 255 * rs.length := by
  induction rs with
  | nil => simp [tailWidth]
  | cons a rs ih =>
    have ha := hd a (List.mem_cons_self ..)
    have h1 := ha.width
    have h2 := ha.shift
    cases rs with
    | nil => rw [tailWidth_single]; simp only [List.length_cons, List.length_nil]; omega
    | cons b rs =>
      have := ih (fun r hr => hd r (List.mem_cons_of_mem _ hr))
      rw [tailWidth_cons2]
      simp only [List.length_cons] at *
      omega

/-- Running maximum and minimum. -/
theorem boundsLoop_ok (signed : Bool) (f : Font) (len : Nat) (hlen : len ≤ 4194304) (bs : List Byte)
    (rs : List CharBitmap)
    (hr : bs.map (getBitmap signed f) = rs.map .ok) (hd : ∀ r ∈ rs, Drawable f.bitmap r) (i : Nat) (hi : 1 ≤ i)
    (hl : i + bs.length = len) (left width mb mt : Int) (hw : 0 ≤ width ∧ width ≤ 255 * i) :
    ∃ mb' mt', boundsLoop signed f len i bs (left, width, mb, mt) =
        .ok (left, width + tailWidth rs, mb', mt') ∧
      (mb ≤ mb' ∧ (∀ r ∈ rs, r.oy + r.height ≤ mb') ∧ (mb' = mb ∨ ∃ r ∈ rs, r.oy + r.height = mb')) ∧
      (mt' ≤ mt ∧ (∀ r ∈ rs, mt' ≤ r.oy) ∧ (mt' = mt ∨ ∃ r ∈ rs, r.oy = mt')) := by
  induction bs generalizing rs i width mb mt with
  | nil =>
    cases rs with
    | cons r rs => simp at hr
    | nil =>
      refine ⟨mb, mt, ?_, ⟨Int.le_refl _, by simp, .inl rfl⟩, Int.le_refl _, by simp, .inl rfl⟩
      simp [boundsLoop, tailWidth]
  | cons b bs ih =>
    cases rs with
    | nil => simp at hr
    | cons r rs =>
      simp only [List.map_cons, List.cons.injEq] at hr
      obtain ⟨hr1, hr2⟩ := hr
      simp only [List.length_cons] at hl
      have hd1 := hd r (List.mem_cons_self ..)
      have h1 := hd1.width
      have h2 := hd1.shift
      have hlen2 : bs.length = rs.length := by
        have := congrArg List.length hr2
        simpa using this
      have hstep : (if i < len - 1 then (r.shift : Int) else r.width) + tailWidth rs = tailWidth (r :: rs) := by
        cases rs with
        | nil =>
          simp only [List.length_nil] at hlen2
          rw [if_neg (by omega), tailWidth_single]
          simp [tailWidth]
        | cons r' rs =>
          simp only [List.length_cons] at hlen2
          rw [if_pos (by omega), tailWidth_cons2]
          push_cast
          omega
      have hadd : 0 ≤ (if i < len - 1 then (r.shift : Int) else r.width) ∧
          (if i < len - 1 then (r.shift : Int) else r.width) ≤ 255 := by
        split <;> omega
      obtain ⟨mb', mt', k1, ⟨k2, k3, k4⟩, k5, k6, k7⟩ := ih rs hr2
        (fun r' hr' => hd r' (List.mem_cons_of_mem _ hr')) (i + 1) (by omega) (by omega)
        (width + (if i < len - 1 then (r.shift : Int) else r.width)) (max mb (r.oy + r.height)) (min mt r.oy)
        (by omega)
      refine ⟨mb', mt', ?_, ⟨by clear k4 k7; omega, ?_, ?_⟩, by clear k4 k7; omega, ?_, ?_⟩
      · unfold boundsLoop
        rw [hr1]; simp only [Res.bind_ok]
        rw [if_neg (by omega)]
        rw [chk_ok (v := width + (if i < len - 1 then (r.shift : Int) else r.width)) (by constructor <;> omega)]
        simp only [Res.bind_ok]
        rw [k1]
        congr 2
        rw [← hstep]
        congr 1
        omega
      · intro r' hr'
        rcases List.mem_cons.1 hr' with rfl | h
        · clear k4 k7; omega
        · exact k3 r' h
      · clear k7
        rcases k4 with h | ⟨r', h, e⟩
        · rcases le_total mb (r.oy + r.height) with hh | hh
          · exact .inr ⟨r, List.mem_cons_self .., by omega⟩
          · exact .inl (by omega)
        · exact .inr ⟨r', List.mem_cons_of_mem _ h, e⟩
      · intro r' hr'
        rcases List.mem_cons.1 hr' with rfl | h
        · clear k4 k7; omega
        · exact k6 r' h
      · clear k4
        rcases k7 with h | ⟨r', h, e⟩
        · rcases le_total mt r.oy with hh | hh
          · exact .inl (by omega)
          · exact .inr ⟨r, List.mem_cons_self .., by omega⟩
        · exact .inr ⟨r', List.mem_cons_of_mem _ h, e⟩

/-! ## C45 -/

/-- What `getTextBounds` computes, for a text which is not empty. -/
theorem textBounds_exact (signed : Bool) (f : Font) (text : List Byte) (hlen : text.length ≤ 4194304)
    (r0 : CharBitmap) (rest : List CharBitmap)
    (hr : text.map (getBitmap signed f) = (r0 :: rest).map .ok) (hd : ∀ r ∈ r0 :: rest, Drawable f.bitmap r) :
    ∃ bottom top, getTextBounds signed f text = .ok ⟨⟨-r0.ox, -top⟩, ⟨r0.width + tailWidth rest, bottom - top⟩⟩ ∧
      IsMax (fun r => r.oy + r.height) (r0 :: rest) bottom ∧ IsMin0 CharBitmap.oy (r0 :: rest) top := by
  cases text with
  | nil => simp at hr
  | cons b bs =>
    simp only [List.map_cons, List.cons.injEq] at hr
    obtain ⟨hr1, hr2⟩ := hr
    have hd1 := hd r0 (List.mem_cons_self ..)
    have h1 := hd1.width
    have h2 := hd1.oy
    obtain ⟨mb', mt', k1, ⟨k2, k3, k4⟩, k5, k6, k7⟩ := boundsLoop_ok signed f (b :: bs).length hlen bs rest hr2
      (fun r' hr' => hd r' (List.mem_cons_of_mem _ hr')) 1 (Nat.le_refl 1)
      (by simp only [List.length_cons]; omega) (-r0.ox) r0.width (max (-255) (r0.oy + r0.height)) (min 0 r0.oy)
      (by omega)
    refine ⟨mb', mt', ?_, ⟨?_, ?_⟩, ?_, by clear k4 k7; omega, ?_⟩
    · unfold getTextBounds
      rw [if_pos (by simp)]
      have e : boundsLoop signed f (b :: bs).length 0 (b :: bs) (0, 0, -255, 0) =
          .ok (-r0.ox, (r0.width : Int) + tailWidth rest, mb', mt') := by
        unfold boundsLoop
        rw [hr1]; simp only [Res.bind_ok]
        simp only [if_true, Res.bind_ok]
        exact k1
      rw [e]
      rfl
    · intro r hr
      rcases List.mem_cons.1 hr with rfl | h
      · simp only; clear k4 k7; omega
      · exact k3 r h
    · clear k7
      rcases k4 with h | ⟨r, h, e⟩
      · exact ⟨r0, List.mem_cons_self .., by simp only; omega⟩
      · exact ⟨r, List.mem_cons_of_mem _ h, e⟩
    · intro r hr
      rcases List.mem_cons.1 hr with rfl | h
      · clear k4 k7; omega
      · exact k6 r h
    · clear k4
      rcases k7 with h | ⟨r, h, e⟩
      · rcases le_total 0 r0.oy with hh | hh
        · exact .inl (by omega)
        · exact .inr ⟨r0, List.mem_cons_self .., by omega⟩
      · exact .inr ⟨r, List.mem_cons_of_mem _ h, e⟩

/-- The bounds of the empty text are empty. -/
theorem textBounds_empty (signed : Bool) (f : Font) :
    getTextBounds signed f [] = .ok ⟨⟨0, 0⟩, ⟨0, 0⟩⟩ := rfl

/-- **C45** (partial: the vertical direction): every pixel of a text drawn with the pen at the `topLeft`
of its bounds is in the rows of the box. -/
theorem text_fits_rows_partial (signed : Bool) (f : Font) (text : List Byte) (hlen : text.length ≤ 4194304)
    (r0 : CharBitmap) (rest : List CharBitmap)
    (hr : text.map (getBitmap signed f) = (r0 :: rest).map .ok) (hd : ∀ r ∈ r0 :: rest, Drawable f.bitmap r) :
    ∃ box, getTextBounds signed f text = .ok box ∧
      ∀ p, textSet f.bitmap (r0 :: rest) box.topLeft p → 0 ≤ p.y ∧ p.y < box.size.height := by
  obtain ⟨bottom, top, k1, ⟨k2, _⟩, k3, _, _⟩ := textBounds_exact signed f text hlen r0 rest hr hd
  refine ⟨_, k1, ?_⟩
  rintro p ⟨n, r, hn, i, j, hi, hj, _, rfl⟩
  have hm := List.mem_of_getElem? hn
  have a := k2 r hm
  have b := k3 r hm
  simp only at *
  omega

/-- **C45** (partial: one character): a character drawn with the pen at the `topLeft` of its bounds is in
the box. -/
theorem char_fits_partial (signed : Bool) (f : Font) (b : Byte) (r : CharBitmap)
    (hr : getBitmap signed f b = .ok r) (hd : Drawable f.bitmap r) :
    ∃ box, getTextBounds signed f [b] = .ok box ∧
      ∀ p, textSet f.bitmap [r] box.topLeft p → inRect ⟨⟨0, 0⟩, box.size⟩ p := by
  have hr' : [b].map (getBitmap signed f) = [r].map .ok := by
    simp only [List.map_cons, List.map_nil, hr]
  have hd' : ∀ r' ∈ [r], Drawable f.bitmap r' := by
    intro r' h; rw [List.mem_singleton.1 h]; exact hd
  obtain ⟨bottom, top, k1, ⟨k2, _⟩, k3, _, _⟩ := textBounds_exact signed f [b] (by simp) r [] hr' hd'
  refine ⟨_, k1, ?_⟩
  rintro p ⟨n, r', hn, i, j, hi, hj, _, rfl⟩
  have hm := List.mem_singleton.1 (List.mem_of_getElem? hn)
  subst hm
  have hn0 : n = 0 := by
    cases n with
    | zero => rfl
    | succ n => simp at hn
  subst hn0
  have a := k2 r' (List.mem_cons_self ..)
  have b := k3 r' (List.mem_cons_self ..)
  simp only [tailWidth, List.take_zero, List.map_nil, List.sum_nil, List.dropLast_nil, List.getLast?_nil, inRect] at *
  push_cast
  omega

/-- **C45** (partial: when it holds): a text fits if no glyph sticks out of the span from its pen
position to its advance, and the first character's advance is at most the width of its glyph plus its
offset and minus the offset of every following one. -/
theorem text_fits_partial (signed : Bool) (f : Font) (text : List Byte) (hlen : text.length ≤ 4194304)
    (r0 : CharBitmap) (rest : List CharBitmap)
    (hr : text.map (getBitmap signed f) = (r0 :: rest).map .ok) (hd : ∀ r ∈ r0 :: rest, Drawable f.bitmap r)
    (hleft : ∀ r ∈ rest, r0.ox ≤ r0.shift + r.ox)
    (hfirst : ∀ r ∈ rest, r0.shift + r.ox ≤ r0.ox + r0.width) (hmid : ∀ r ∈ rest, r.width ≤ r.shift) :
    ∃ box, getTextBounds signed f text = .ok box ∧
      ∀ p, textSet f.bitmap (r0 :: rest) box.topLeft p → inRect ⟨⟨0, 0⟩, box.size⟩ p := by
  obtain ⟨bottom, top, k1, ⟨k2, _⟩, k3, _, _⟩ := textBounds_exact signed f text hlen r0 rest hr hd
  refine ⟨_, k1, ?_⟩
  rintro p ⟨n, r, hn, i, j, hi, hj, _, rfl⟩
  have hm := List.mem_of_getElem? hn
  have a := k2 r hm
  have b := k3 r hm
  cases n with
  | zero =>
    simp only [List.getElem?_cons_zero, Option.some.injEq] at hn
    subst hn
    simp only [List.take_zero, List.map_nil, List.sum_nil, inRect] at *
    push_cast
    omega
  | succ n =>
    rw [List.getElem?_cons_succ] at hn
    have hm' := List.mem_of_getElem? hn
    have c1 := hleft r hm'
    have c2 := hfirst r hm'
    have key : ((rest.take n).map CharBitmap.shift).sum + r.width ≤ tailWidth rest := by
      clear * - hn hmid
      induction rest generalizing n with
      | nil => simp at hn
      | cons s rest ih =>
        cases n with
        | zero =>
          simp only [List.getElem?_cons_zero, Option.some.injEq] at hn
          subst hn
          cases rest with
          | nil => simp [tailWidth]
          | cons s' rest =>
            rw [tailWidth_cons2]
            have := hmid s (List.mem_cons_self ..)
            simp only [List.take_zero, List.map_nil, List.sum_nil]
            omega
        | succ n =>
          rw [List.getElem?_cons_succ] at hn
          have := ih (fun r hr => hmid r (List.mem_cons_of_mem _ hr)) n hn
          cases rest with
          | nil => simp at hn
          | cons s' rest =>
            rw [tailWidth_cons2, List.take_succ_cons, List.map_cons, List.sum_cons]
            omega
    simp only [List.take_succ_cons, List.map_cons, List.sum_cons, inRect] at *
    push_cast
    omega

/-- **C45** is false of the code horizontally: whenever the first character's advance exceeds the width
of its glyph plus its offset minus the offset of the last character, and the last glyph has a pixel in
its last column, that pixel is outside the box. -/
theorem text_sticks_out (signed : Bool) (f : Font) (text : List Byte) (hlen : text.length ≤ 4194304)
    (r0 : CharBitmap) (rest : List CharBitmap) (r : CharBitmap) (hlast : rest.getLast? = some r)
    (hr : text.map (getBitmap signed f) = (r0 :: rest).map .ok) (hd : ∀ r ∈ r0 :: rest, Drawable f.bitmap r)
    (hw : r0.ox + r0.width < r0.shift + r.ox)
    (j : Nat) (hj : j < r.height) (hwr : 0 < r.width)
    (hbit : glyphBit f.bitmap r.start r.width (r.width - 1) j = true) :
    ∃ box, getTextBounds signed f text = .ok box ∧
      ∃ p, textSet f.bitmap (r0 :: rest) box.topLeft p ∧ box.size.width ≤ p.x := by
  obtain ⟨bottom, top, k1, _⟩ := textBounds_exact signed f text hlen r0 rest hr hd
  refine ⟨_, k1, ⟨-r0.ox + (((r0 :: rest).take rest.length).map CharBitmap.shift).sum + r.ox + (r.width - 1 : Nat),
    -top + r.oy + j⟩, ⟨rest.length, r, ?_, r.width - 1, j, by omega, hj, hbit, rfl⟩, ?_⟩
  · have : rest ≠ [] := by rintro rfl; simp at hlast
    obtain ⟨s, rest', rfl⟩ := List.exists_cons_of_ne_nil this
    rw [List.length_cons, List.getElem?_cons_succ]
    rw [List.getLast?_eq_getElem?] at hlast
    simpa using hlast
  · have hne : rest ≠ [] := by rintro rfl; simp at hlast
    have e : (r0 :: rest).take rest.length = r0 :: rest.dropLast := by
      obtain ⟨s, rest', rfl⟩ := List.exists_cons_of_ne_nil hne
      rw [List.length_cons, List.take_succ_cons, List.dropLast_eq_take]
      simp
    rw [e]
    simp only [tailWidth, hlast, List.map_cons, List.sum_cons]
    push_cast
    omega

/-- Finding: the text "ll" in the shipped font sticks out of its bounds. -/
theorem freeSans_ll_sticks_out (signed : Bool) :
    ∃ rs, [0x6C, 0x6C].map (getBitmap signed freeSans) = rs.map .ok ∧
    ∃ box, getTextBounds signed freeSans [0x6C, 0x6C] = .ok box ∧
      ∃ p, textSet freeSans.bitmap rs box.topLeft p ∧ box.size.width ≤ p.x := by
  have hl : getBitmap signed freeSans 0x6C = .ok ⟨2427, 449, 3, 21, 2, -20, 6⟩ := by
    cases signed <;> decide +kernel
  have hb : glyphBit freeSans.bitmap 2427 3 2 0 = true := by decide +kernel
  have hr : [0x6C, 0x6C].map (getBitmap signed freeSans) =
      [(⟨2427, 449, 3, 21, 2, -20, 6⟩ : CharBitmap), ⟨2427, 449, 3, 21, 2, -20, 6⟩].map .ok := by
    simp only [List.map_cons, List.map_nil, hl]
  refine ⟨_, hr, ?_⟩
  refine text_sticks_out signed freeSans _ (by decide) _ _ _ rfl hr ?_ (by decide) 0 (by decide) (by decide) hb
  intro r hm
  have : r = ⟨2427, 449, 3, 21, 2, -20, 6⟩ := by simpa using hm
  subst this
  constructor
  · rw [freeSans_length]; decide
  all_goals decide

/-! ## Examples: the shipped font, and the tiny one -/

/-- Every text of the shipped font without '~' can be drawn: the hypotheses of C41 and C45 hold. -/
theorem freeSans_drawable (signed : Bool) (text : List Byte) (h : ∀ b ∈ text, b.toNat ≠ 0x7E) :
    ∃ rs : List CharBitmap, text.map (getBitmap signed freeSans) = rs.map .ok ∧ ∀ r ∈ rs, Drawable freeSans.bitmap r := by
  induction text with
  | nil => exact ⟨[], rfl, by simp⟩
  | cons b bs ih =>
    obtain ⟨rs, k1, k2⟩ := ih (fun b hb => h b (List.mem_cons_of_mem _ hb))
    have hb := h b (List.mem_cons_self ..)
    obtain ⟨l1, l2, _⟩ := freeSans_lookup signed b
    have : ∃ r, getBitmap signed freeSans b = .ok r ∧ Drawable freeSans.bitmap r := by
      by_cases hc : 0x20 ≤ b.toNat ∧ b.toNat < 0x7E
      · obtain ⟨g, r, _, m2, m3, m4⟩ := l1 hc
        exact ⟨r, m2, drawable_of_shows m3 m4⟩
      · obtain ⟨g, r, _, m2, m3, m4⟩ := l2 (by omega)
        exact ⟨r, m2, drawable_of_shows m3 m4⟩
    obtain ⟨r, m1, m2⟩ := this
    refine ⟨r :: rs, by simp only [List.map_cons, m1, k1], ?_⟩
    intro r' hr'
    rcases List.mem_cons.1 hr' with rfl | hr'
    · exact m2
    · exact k2 r' hr'

/-- A font of three 8 × 1 bars without spacing: its texts fit. -/
example : ∃ box, getTextBounds true ⟨[0xFF, 0x3C, 0x81], [⟨0, 8, 1, 8, 0, 0⟩, ⟨1, 8, 1, 8, 0, 0⟩, ⟨2, 8, 1, 8, 0, 0⟩],
      0x20, 0x22⟩ [0x21, 0x20, 0x21] = .ok box ∧
    ∀ p, textSet [0xFF, 0x3C, 0x81] [⟨1, 2, 8, 1, 0, 0, 8⟩, ⟨0, 3, 8, 1, 0, 0, 8⟩, ⟨1, 2, 8, 1, 0, 0, 8⟩] box.topLeft p →
      inRect ⟨⟨0, 0⟩, box.size⟩ p :=
  text_fits_partial true ⟨[0xFF, 0x3C, 0x81], [⟨0, 8, 1, 8, 0, 0⟩, ⟨1, 8, 1, 8, 0, 0⟩, ⟨2, 8, 1, 8, 0, 0⟩], 0x20, 0x22⟩
    [0x21, 0x20, 0x21] (by decide) ⟨1, 2, 8, 1, 0, 0, 8⟩ [⟨0, 3, 8, 1, 0, 0, 8⟩, ⟨1, 2, 8, 1, 0, 0, 8⟩]
    (by decide)
    (by
      intro r hr
      have : r = ⟨1, 2, 8, 1, 0, 0, 8⟩ ∨ r = ⟨0, 3, 8, 1, 0, 0, 8⟩ := by
        simp only [List.mem_cons, List.not_mem_nil, or_false] at hr; tauto
      rcases this with rfl | rfl <;> constructor <;> decide)
    (by decide) (by decide) (by decide)

/-- Only the bytes of the glyph matter. -/
theorem glyphSet_congr (bm bm' : List Byte) (r : CharBitmap) (pos : Pt)
    (h : ∀ k, r.start ≤ k → k < r.start + bitmapBytes r.width r.height → bm[k]? = bm'[k]?) (p : Pt) :
    glyphSet bm r pos p ↔ glyphSet bm' r pos p := by
  have key : ∀ i j, i < r.width → j < r.height → glyphBit bm r.start r.width i j = glyphBit bm' r.start r.width i j := by
    intro i j hi hj
    unfold glyphBit
    rw [h _ (by omega)]
    have : (j + 1) * r.width ≤ r.height * r.width := Nat.mul_le_mul_right _ hj
    rw [Nat.add_mul, Nat.one_mul] at this
    unfold bitmapBytes
    rw [Nat.mul_comm r.width]
    omega
  constructor
  · rintro ⟨i, j, h1, h2, h3, h4⟩
    exact ⟨i, j, h1, h2, by rw [← key i j h1 h2]; exact h3, h4⟩
  · rintro ⟨i, j, h1, h2, h3, h4⟩
    exact ⟨i, j, h1, h2, by rw [key i j h1 h2]; exact h3, h4⟩

/-- The tiny font's '!' is a 3 × 3 block drawn on a 16 × 8 canvas. -/
example : ∃ fb', drawCharAt ⟨⟨16, 8⟩, .r90⟩ ⟨4, 8, 4⟩ ⟨List.replicate 64 0, 5⟩ true tiny ⟨2, 5⟩ 0x21 = .ok (fb', 4) ∧
    Paints ⟨⟨16, 8⟩, .r90⟩ ⟨4, 8, 4⟩ ⟨List.replicate 64 0, 5⟩ fb' (glyphSet tiny.bitmap ⟨1, 3, 3, 3, 1, -3, 4⟩ ⟨2, 5⟩) :=
  drawCharAt_exact _ _ _ (example_ready .r90) true tiny ⟨2, 5⟩ (by decide) 0x21 ⟨1, 3, 3, 3, 1, -3, 4⟩ (by decide)
    (by constructor <;> decide)

end Verif.Text
