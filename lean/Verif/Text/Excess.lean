import Verif.Text.Bounds
/-!
# C45: how far a text may stick out of its bounds

`getTextBounds` (graphics/EmbeddedFont.cpp:35-61) takes the width of the glyph of the first character instead of its advance.
-/
namespace Verif.Text
open Verif.Canvas Verif.FrameBuffer Verif.Font

/-- **C45**, the exact condition: a text drawn with the pen at the `topLeft` of its bounds is in the box exactly if the columns
of its ink, counted from the offset of the first glyph, are. -/
theorem text_fits_iff (signed : Bool) (f : Font) (text : List Byte) (hlen : text.length ≤ 4194304)
    (r0 : CharBitmap) (rest : List CharBitmap)
    (hr : text.map (getBitmap signed f) = (r0 :: rest).map .ok) (hd : ∀ r ∈ r0 :: rest, Drawable f.bitmap r) :
    ∃ box, getTextBounds signed f text = .ok box ∧
      ((∀ p, textSet f.bitmap (r0 :: rest) box.topLeft p → inRect ⟨⟨0, 0⟩, box.size⟩ p) ↔
        ∀ (n : Nat) (r : CharBitmap) (i j : Nat), (r0 :: rest)[n]? = some r → i < r.width → j < r.height →
          glyphBit f.bitmap r.start r.width i j = true →
          r0.ox ≤ ((((r0 :: rest).take n).map CharBitmap.shift).sum : Nat) + r.ox + i ∧
          ((((r0 :: rest).take n).map CharBitmap.shift).sum : Nat) + r.ox + i < r0.ox + r0.width + tailWidth rest) := by
  obtain ⟨bottom, top, k1, ⟨k2, _⟩, k3, _, _⟩ := textBounds_exact signed f text hlen r0 rest hr hd
  refine ⟨_, k1, ?_⟩
  constructor
  · intro h n r i j hn hi hj hb
    have := h _ ⟨n, r, hn, i, j, hi, hj, hb, rfl⟩
    simp only [inRect] at this
    omega
  · rintro h p ⟨n, r, hn, i, j, hi, hj, hb, rfl⟩
    have hm := List.mem_of_getElem? hn
    have a := k2 r hm
    have b := k3 r hm
    have c := h n r i j hn hi hj hb
    simp only [inRect] at *
    omega

/-- **C45** (partial): a text sticks out by no more than `E` columns to the right, and not at all in the other directions. -/
theorem text_excess_partial (signed : Bool) (f : Font) (text : List Byte) (hlen : text.length ≤ 4194304)
    (r0 : CharBitmap) (rest : List CharBitmap)
    (hr : text.map (getBitmap signed f) = (r0 :: rest).map .ok) (hd : ∀ r ∈ r0 :: rest, Drawable f.bitmap r) (E : Nat)
    (hleft : ∀ r ∈ rest, r0.ox ≤ r0.shift + r.ox)
    (hlast : ∀ r ∈ rest, r0.shift + r.ox ≤ r0.ox + r0.width + E)
    (hmid : ∀ r ∈ rest, r0.shift + r.ox + r.width ≤ r0.ox + r0.width + E + r.shift) :
    ∃ box, getTextBounds signed f text = .ok box ∧
      ∀ p, textSet f.bitmap (r0 :: rest) box.topLeft p →
        0 ≤ p.x ∧ p.x < box.size.width + E ∧ 0 ≤ p.y ∧ p.y < box.size.height := by
  obtain ⟨bottom, top, k1, ⟨k2, _⟩, k3, _, _⟩ := textBounds_exact signed f text hlen r0 rest hr hd
  refine ⟨_, k1, ?_⟩
  rintro p ⟨n, r, hn, i, j, hi, hj, _, rfl⟩
  have hm := List.mem_of_getElem? hn
  have a := k2 r hm
  have b := k3 r hm
  cases n with
  | zero =>
    simp only [List.getElem?_cons_zero, Option.some.injEq] at hn
    subst hn
    simp only [List.take_zero, List.map_nil, List.sum_nil] at *
    push_cast
    omega
  | succ n =>
    rw [List.getElem?_cons_succ] at hn
    have hm' := List.mem_of_getElem? hn
    have c1 := hleft r hm'
    have key : (((rest.take n).map CharBitmap.shift).sum : Int) + (r0.shift + r.ox + r.width) ≤
        r0.ox + r0.width + E + tailWidth rest := by
      clear * - hn hmid hlast
      induction rest generalizing n with
      | nil => simp at hn
      | cons s rest ih =>
        cases n with
        | zero =>
          simp only [List.getElem?_cons_zero, Option.some.injEq] at hn
          subst hn
          cases rest with
          | nil =>
            have := hlast s (List.mem_cons_self ..)
            rw [tailWidth_single]
            simp only [List.take_zero, List.map_nil, List.sum_nil]
            push_cast
            omega
          | cons s' rest =>
            rw [tailWidth_cons2]
            have := hmid s (List.mem_cons_self ..)
            simp only [List.take_zero, List.map_nil, List.sum_nil]
            push_cast
            omega
        | succ n =>
          rw [List.getElem?_cons_succ] at hn
          have := ih (fun r hr => hlast r (List.mem_cons_of_mem _ hr)) (fun r hr => hmid r (List.mem_cons_of_mem _ hr)) n hn
          cases rest with
          | nil => simp at hn
          | cons s' rest =>
            rw [tailWidth_cons2, List.take_succ_cons, List.map_cons, List.sum_cons]
            push_cast
            omega
    simp only [List.take_succ_cons, List.map_cons, List.sum_cons] at *
    push_cast
    omega

/-- The spacing of the shipped font (all glyphs but that of '~', which cannot be looked up). -/
theorem freeSans_spacing : ∀ g ∈ freeSans.glyph.dropLast, ∀ g' ∈ freeSans.glyph.dropLast,
    g.ox ≤ g.shift.toNat + g'.ox ∧ g.shift.toNat + g'.ox ≤ g.ox + g.width.toNat + 10 ∧
      g.shift.toNat + g'.ox + g'.width.toNat ≤ g.ox + g.width.toNat + 10 + g'.shift.toNat := by decide +kernel

/-- **C45** (partial), the shipped font: no text without '~' sticks out of its bounds by more than ten columns to the right. -/
theorem freeSans_excess_partial (signed : Bool) (text : List Byte) (hlen : text.length ≤ 4194304) (hne : text ≠ [])
    (h : ∀ b ∈ text, b.toNat ≠ 0x7E) :
    ∃ rs box, text.map (getBitmap signed freeSans) = rs.map .ok ∧ getTextBounds signed freeSans text = .ok box ∧
      ∀ p, textSet freeSans.bitmap rs box.topLeft p →
        0 ≤ p.x ∧ p.x < box.size.width + 10 ∧ 0 ≤ p.y ∧ p.y < box.size.height := by
  obtain ⟨rs, h1, h2⟩ := freeSans_drawable signed text h
  have hg : ∀ r ∈ rs, ∃ g ∈ freeSans.glyph.dropLast, Shows g r := by
    intro r hr
    obtain ⟨b, hb, e⟩ : ∃ b ∈ text, getBitmap signed freeSans b = .ok r := by
      have : (Res.ok r) ∈ rs.map Res.ok := List.mem_map_of_mem hr
      rw [← h1, List.mem_map] at this
      exact this
    have hd : ∀ k g, k < 94 → freeSans.glyph[k]? = some g → g ∈ freeSans.glyph.dropLast := by
      intro k g hk hg
      refine List.mem_of_getElem? (i := k) ?_
      have hl : freeSans.glyph.length = 95 := by decide +kernel
      rw [List.dropLast_eq_take, List.getElem?_take, if_pos (by omega), hg]
    obtain ⟨l1, l2, _⟩ := freeSans_lookup signed b
    have hb' := h b hb
    by_cases hc : 0x20 ≤ b.toNat ∧ b.toNat < 0x7E
    · obtain ⟨g, r', m1, m2, m3, _⟩ := l1 hc
      rw [e] at m2
      cases m2
      exact ⟨g, hd _ _ (by omega) m1, m3⟩
    · obtain ⟨g, r', m1, m2, m3, _⟩ := l2 (by omega)
      rw [e] at m2
      cases m2
      exact ⟨g, hd _ _ (by omega) m1, m3⟩
  cases rs with
  | nil =>
    cases text with
    | nil => exact absurd rfl hne
    | cons => simp at h1
  | cons r0 rest =>
    have hs : ∀ r ∈ rest, r0.ox ≤ r0.shift + r.ox ∧ r0.shift + r.ox ≤ r0.ox + r0.width + 10 ∧
        r0.shift + r.ox + r.width ≤ r0.ox + r0.width + 10 + r.shift := by
      intro r hr
      obtain ⟨g, hg1, hs1⟩ := hg r0 (List.mem_cons_self ..)
      obtain ⟨g', hg2, hs2⟩ := hg r (List.mem_cons_of_mem _ hr)
      have := freeSans_spacing g hg1 g' hg2
      rw [hs1.ox, hs1.shift, hs1.width, hs2.ox, hs2.shift, hs2.width]
      exact this
    obtain ⟨box, k1, k2⟩ := text_excess_partial signed freeSans text hlen r0 rest h1 h2 10 (fun r hr => (hs r hr).1)
      (fun r hr => (hs r hr).2.1) (fun r hr => (hs r hr).2.2)
    exact ⟨_, box, h1, k1, k2⟩

/-- … and "11" does so by ten. -/
theorem freeSans_excess_attained (signed : Bool) :
    ∃ rs box, [0x31, 0x31].map (getBitmap signed freeSans) = rs.map .ok ∧
      getTextBounds signed freeSans [0x31, 0x31] = .ok box ∧
      ∃ p, textSet freeSans.bitmap rs box.topLeft p ∧ p.x = box.size.width + 9 := by
  have hl : getBitmap signed freeSans 0x31 = .ok ⟨356, 2520, 7, 21, 4, -20, 17⟩ := by cases signed <;> decide +kernel
  have hb : getTextBounds signed freeSans [0x31, 0x31] = .ok ⟨⟨-4, 20⟩, ⟨14, 21⟩⟩ := by cases signed <;> decide +kernel
  have hbit : glyphBit freeSans.bitmap 356 7 6 0 = true := by decide +kernel
  exact ⟨[⟨356, 2520, 7, 21, 4, -20, 17⟩, ⟨356, 2520, 7, 21, 4, -20, 17⟩], _,
    by simp only [List.map_cons, List.map_nil, hl], hb,
    ⟨23, 0⟩, ⟨1, ⟨356, 2520, 7, 21, 4, -20, 17⟩, rfl, 6, 0, by decide, by decide, hbit, rfl⟩, rfl⟩

end Verif.Text
