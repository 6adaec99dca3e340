import Verif.Font.Spec
/-!
# C43, C44: character lookup and glyph bounds
-/
namespace Verif.Font
open Verif.Canvas

/-! ## The recursion -/

/-- Two nested activations decide: more never change the outcome. -/
theorem nesting_two_decides (signed : Bool) (f : Font) (b : Byte) (n : Nat) :
    getBitmapN signed f b (n + 2) = getBitmap signed f b := by
  unfold getBitmap
  induction n generalizing b with
  | zero => rfl
  | succ n ih =>
    have h1 : getBitmapN signed f b (n + 1 + 2) = (do
        match ← lookup signed f b with
        | some r => .ok r
        | none => getBitmapN signed f f.first (n + 2)) := rfl
    rw [h1, ih]
    simp only [getBitmapN]
    cases lookup signed f b with
    | ub => rfl
    | hang => rfl
    | ok o =>
      cases o with
      | some r => rfl
      | none =>
        simp only [Res.bind_ok]
        cases lookup signed f f.first with
        | ub => rfl
        | hang => rfl
        | ok o' => cases o' <;> rfl

/-! ## One activation -/

theorem charVal_of_ok {signed : Bool} {b : Byte} (h : signed = false ∨ b.toNat < 128) :
    charVal signed b = b.toNat := by
  unfold charVal
  rcases h with h | h
  · rw [h]; rfl
  · split
    · rw [BitVec.toInt_eq_toNat_cond]
      rw [if_pos (by omega)]
    · rfl

theorem lookupAt_nohang (f : Font) (pos : Int) : lookupAt f pos ≠ .hang := by
  unfold lookupAt
  split
  · intro h; cases h
  · cases f.glyph[pos.toNat]? with
    | none => intro h; cases h
    | some g =>
      simp only [Res.ofOption_some, Res.bind_ok]
      split
      · intro h; cases h
      · split
        · intro h; cases h
        · cases f.glyph[pos.toNat + 1]? with
          | none => intro h; cases h
          | some n =>
            simp only [Res.ofOption_some, Res.bind_ok]
            split <;> (intro h; cases h)

theorem lookupAt_none {f : Font} {pos : Int} : lookupAt f pos = .ok none ↔ pos < 0 ∨ pos ≥ f.glyph.length := by
  unfold lookupAt
  split
  · rename_i h; exact ⟨fun _ => h, fun _ => rfl⟩
  · rename_i h
    refine ⟨?_, fun h' => absurd h' h⟩
    cases f.glyph[pos.toNat]? with
    | none => intro h; cases h
    | some g =>
      simp only [Res.ofOption_some, Res.bind_ok]
      split
      · intro h; cases h
      · split
        · intro h; cases h
        · cases f.glyph[pos.toNat + 1]? with
          | none => intro h; cases h
          | some n =>
            simp only [Res.ofOption_some, Res.bind_ok]
            split <;> (intro h; cases h)

theorem lookupAt_found {f : Font} {p : Nat} {g : Glyph} (hg : f.glyph[p]? = some g) (hl : p + 1 < f.glyph.length)
    (ho : g.bitmapOffset.toNat ≤ f.bitmap.length) :
    lookupAt f p = .ok (some ⟨g.bitmapOffset.toNat, (f.bitmap.length - g.bitmapOffset.toNat) % 65536,
      g.width.toNat, g.height.toNat, g.ox, g.oy, g.shift.toNat⟩) := by
  unfold lookupAt
  rw [if_neg (by omega)]
  simp only [Int.toNat_natCast, hg, Res.ofOption_some, Res.bind_ok]
  rw [if_neg (by omega), if_pos (by omega)]
  simp only [Res.bind_ok]
  have : ((f.bitmap.length : Int) - g.bitmapOffset.toNat) = ((f.bitmap.length - g.bitmapOffset.toNat : Nat) : Int) := by
    omega
  rw [this]
  generalize f.bitmap.length - g.bitmapOffset.toNat = d
  have : ((d : Int) % 65536).toNat = d % 65536 := by omega
  rw [this]

theorem lookupAt_last {f : Font} {p : Nat} (hl : p + 1 = f.glyph.length) : lookupAt f p = .ub := by
  unfold lookupAt
  rw [if_neg (by omega)]
  simp only [Int.toNat_natCast]
  rw [List.getElem?_eq_getElem (show p < f.glyph.length by omega)]
  simp only [Res.ofOption_some, Res.bind_ok]
  split
  · rfl
  · rw [if_neg (by omega), List.getElem?_eq_none (show f.glyph.length ≤ p + 1 by omega)]
    rfl

/-- Repertoire characters between `first` and `last` are looked up at their ordinal. -/
theorem lookup_eq {signed : Bool} {f : Font} {b : Byte} (hs : signed = false ∨ b.toNat < 128)
    (h1 : f.first.toNat ≤ b.toNat) (h2 : b.toNat ≤ f.last.toNat) (hr : inRepertoire b.toNat)
    (hf : inRepertoire f.first.toNat ∧ f.first.toNat ≤ 0x7E) :
    lookup signed f b = lookupAt f ((ordinal b.toNat - ordinal f.first.toNat : Nat) : Int) := by
  unfold lookup
  rw [charVal_of_ok hs]
  simp only
  rw [if_neg (by omega)]
  congr 1
  unfold ordinal inRepertoire at *
  split <;> split <;> split <;> omega

theorem lookup_found {signed : Bool} {f : Font} {b : Byte} (hs : signed = false ∨ b.toNat < 128)
    (h1 : f.first.toNat ≤ b.toNat) (h2 : b.toNat ≤ f.last.toNat) (hr : inRepertoire b.toNat)
    (hf : inRepertoire f.first.toNat ∧ f.first.toNat ≤ 0x7E) {g : Glyph}
    (hg : f.glyph[ordinal b.toNat - ordinal f.first.toNat]? = some g)
    (hl : ordinal b.toNat - ordinal f.first.toNat + 1 < f.glyph.length)
    (ho : g.bitmapOffset.toNat ≤ f.bitmap.length) :
    ∃ r, lookup signed f b = .ok (some r) ∧ Shows g r := by
  rw [lookup_eq hs h1 h2 hr hf, lookupAt_found hg hl ho]
  exact ⟨_, rfl, rfl, rfl, rfl, rfl, rfl, rfl⟩

/-! ## C43 -/

/-- **C43** (partial: all glyphs but the last of the table, for which see `last_glyph_ub`): the glyph
stored for a repertoire character is found. -/
theorem getBitmap_finds_partial (signed : Bool) (f : Font) (b : Byte) (hs : signed = false ∨ b.toNat < 128)
    (h1 : f.first.toNat ≤ b.toNat) (h2 : b.toNat ≤ f.last.toNat) (hr : inRepertoire b.toNat)
    (hf : inRepertoire f.first.toNat ∧ f.first.toNat ≤ 0x7E) (g : Glyph)
    (hg : f.glyph[ordinal b.toNat - ordinal f.first.toNat]? = some g)
    (hl : ordinal b.toNat - ordinal f.first.toNat + 1 < f.glyph.length)
    (ho : g.bitmapOffset.toNat ≤ f.bitmap.length) :
    ∃ r, getBitmap signed f b = .ok r ∧ Shows g r := by
  obtain ⟨r, k1, k2⟩ := lookup_found hs h1 h2 hr hf hg hl ho
  refine ⟨r, ?_, k2⟩
  simp only [getBitmap, getBitmapN, k1, Res.bind_ok]

/-- Characters outside the font, or without an entry in the table, fall back. -/
theorem lookup_fallback {signed : Bool} {f : Font} {b : Byte}
    (h : charVal signed b < f.first.toNat ∨ charVal signed b > f.last.toNat ∨
      charVal signed b - f.first.toNat - (if charVal signed b > 0x7E then 33 else 0) ≥ f.glyph.length) :
    lookup signed f b = .ok none := by
  unfold lookup
  simp only
  by_cases hc : charVal signed b < f.first.toNat ∨ charVal signed b > f.last.toNat
  · rw [if_pos hc]
  · rw [if_neg hc, lookupAt_none]
    rcases h with h | h | h
    · exact absurd (.inl h) hc
    · exact absurd (.inr h) hc
    · exact .inr h

/-- **C43** (partial): a character outside the font shows the glyph of the first character, for fonts
starting in printable ASCII and having at least two glyphs. -/
theorem getBitmap_fallback_partial (signed : Bool) (f : Font) (b : Byte)
    (hf : inRepertoire f.first.toNat ∧ f.first.toNat ≤ 0x7E) (hfl : f.first.toNat ≤ f.last.toNat)
    (h : charVal signed b < f.first.toNat ∨ charVal signed b > f.last.toNat ∨
      charVal signed b - f.first.toNat - (if charVal signed b > 0x7E then 33 else 0) ≥ f.glyph.length)
    (g : Glyph) (hg : f.glyph[0]? = some g) (hl : 2 ≤ f.glyph.length)
    (ho : g.bitmapOffset.toNat ≤ f.bitmap.length) :
    ∃ r, getBitmap signed f b = .ok r ∧ getBitmap signed f f.first = .ok r ∧ Shows g r := by
  obtain ⟨r, k1, k2⟩ := lookup_found (signed := signed) (f := f) (b := f.first) (.inr (by omega))
    (Nat.le_refl _) hfl hf.1 hf (by rw [Nat.sub_self]; exact hg) (by rw [Nat.sub_self]; omega) ho
  refine ⟨r, ?_, ?_, k2⟩
  · simp only [getBitmap, getBitmapN, lookup_fallback h, k1, Res.bind_ok]
  · simp only [getBitmap, getBitmapN, k1, Res.bind_ok]

/-- **C43**: the lookup terminates for every font starting in printable ASCII with at least one glyph. -/
theorem getBitmap_terminates (signed : Bool) (f : Font) (b : Byte)
    (hf : inRepertoire f.first.toNat ∧ f.first.toNat ≤ 0x7E) (hfl : f.first.toNat ≤ f.last.toNat)
    (hl : 1 ≤ f.glyph.length) : getBitmap signed f b ≠ .hang := by
  have nohang : ∀ c, lookup signed f c ≠ .hang := by
    intro c
    unfold lookup
    simp only
    split
    · intro h; cases h
    · exact lookupAt_nohang f _
  have hfirst : lookup signed f f.first ≠ .ok none := by
    rw [lookup_eq (.inr (by omega)) (Nat.le_refl _) hfl hf.1 hf, Nat.sub_self]
    intro h
    have := lookupAt_none.1 h
    omega
  intro h
  simp only [getBitmap, getBitmapN] at h
  cases k : lookup signed f b with
  | ub => rw [k] at h; cases h
  | hang => exact nohang b k
  | ok o =>
    cases o with
    | some r => rw [k] at h; cases h
    | none =>
      rw [k] at h
      simp only [Res.bind_ok] at h
      cases k2 : lookup signed f f.first with
      | ub => rw [k2] at h; cases h
      | hang => exact nohang _ k2
      | ok o2 =>
        cases o2 with
        | some r => rw [k2] at h; cases h
        | none => exact hfirst k2

/-- Finding: a font whose first character is above '~' (for example a Latin-1 or Cyrillic page starting
at 0xA0, on a platform with unsigned `char`) recurses forever for every character outside it and for its
first 33 characters. -/
theorem high_font_hangs (f : Font) (b : Byte) (hf : 0x7F ≤ f.first.toNat)
    (h : b.toNat < f.first.toNat + 33) : getBitmap false f b = .hang := by
  have key : ∀ c : Byte, c.toNat < f.first.toNat + 33 → lookup false f c = .ok none := by
    intro c hc
    unfold lookup
    rw [charVal_of_ok (.inl rfl)]
    simp only
    by_cases h1 : (c.toNat : Int) < f.first.toNat ∨ (c.toNat : Int) > f.last.toNat
    · rw [if_pos h1]
    · rw [if_neg h1, if_pos (by omega), lookupAt_none]
      left; omega
  simp only [getBitmap, getBitmapN, key b h, key f.first (by omega), Res.bind_ok]

/-- Finding: with signed `char` every character of the upper half falls back. -/
theorem signed_upper_half_fallback (f : Font) (b : Byte) (h : 128 ≤ b.toNat) :
    getBitmap true f b = getBitmapN true f f.first 1 := by
  have hv : charVal true b < f.first.toNat := by
    unfold charVal
    rw [if_pos rfl, BitVec.toInt_eq_toNat_cond, if_neg (by omega)]
    have := b.isLt
    omega
  have := lookup_fallback (signed := true) (f := f) (b := b) (.inl hv)
  show getBitmapN true f b 2 = _
  simp only [getBitmapN, this, Res.bind_ok]

/-- Finding: the codes 0x7F-0x9F, which have no glyph, show the glyphs of 0x5E-0x7E. -/
theorem control_codes_alias (f : Font) (b : Byte) (hb : 0x7F ≤ b.toNat ∧ b.toNat ≤ 0x9F)
    (hf : inRepertoire f.first.toNat ∧ f.first.toNat ≤ 0x5E) (hl : 0x9F ≤ f.last.toNat) :
    getBitmap false f b = getBitmap false f (b - 33) := by
  have hsub : (b - 33).toNat = b.toNat - 33 := by
    rw [BitVec.toNat_sub]
    have := b.isLt
    show (2 ^ 8 - 33 + b.toNat) % 2 ^ 8 = _
    omega
  have hb2 : 0x5E ≤ (b - 33).toNat ∧ (b - 33).toNat ≤ 0x7E := by omega
  have hlk : lookup false f b = lookup false f (b - 33) := by
    unfold lookup
    rw [charVal_of_ok (.inl rfl), charVal_of_ok (.inl rfl), hsub]
    simp only
    rw [if_neg (by omega), if_pos (show (b.toNat : Int) > 126 by omega), if_neg (by omega),
      if_neg (show ¬ ((b.toNat - 33 : Nat) : Int) > 126 by omega)]
    congr 1
    omega
  simp only [getBitmap, getBitmapN, hlk]

/-! ## C44 -/

/-- **C44** (partial): what `getBitmap` returns for a glyph which is not the last lies inside the
bitmap, and it covers the bytes of the glyph if these are inside and less than 65536 bytes follow. -/
theorem glyph_view_inside_partial (signed : Bool) (f : Font) (b : Byte) (r : CharBitmap)
    (hr : getBitmap signed f b = .ok r) :
    r.start + r.size ≤ f.bitmap.length ∧ ∃ g, g ∈ f.glyph ∧ Shows g r ∧
      (f.bitmap.length - r.start < 65536 → GlyphInside f g → bitmapBytes r.width r.height ≤ r.size) := by
  have keyAt : ∀ pos : Int, lookupAt f pos = .ok (some r) →
      r.start + r.size ≤ f.bitmap.length ∧ ∃ g, g ∈ f.glyph ∧ Shows g r ∧
      (f.bitmap.length - r.start < 65536 → GlyphInside f g → bitmapBytes r.width r.height ≤ r.size) := by
    intro pos h
    by_cases hp : pos < 0 ∨ pos ≥ f.glyph.length
    · rw [lookupAt_none.2 hp] at h; cases h
    obtain ⟨p, rfl⟩ := Int.eq_ofNat_of_zero_le (show 0 ≤ pos by omega)
    by_cases hlast : p + 1 = f.glyph.length
    · rw [lookupAt_last hlast] at h; cases h
    · have hg := List.getElem?_eq_getElem (show p < f.glyph.length by omega)
      generalize f.glyph[p]'(by omega) = g at hg
      by_cases ho : g.bitmapOffset.toNat ≤ f.bitmap.length
      · rw [lookupAt_found hg (by omega) ho] at h
        cases h
        have hm := Nat.mod_le (f.bitmap.length - g.bitmapOffset.toNat) 65536
        refine ⟨by simp only; omega, g, List.mem_of_getElem? hg, ⟨rfl, rfl, rfl, rfl, rfl, rfl⟩, ?_⟩
        intro h1 h2
        simp only [GlyphInside] at *
        have := Nat.mod_eq_of_lt h1
        omega
      · unfold lookupAt at h
        rw [if_neg hp] at h
        simp only [Int.toNat_natCast, hg, Res.ofOption_some, Res.bind_ok] at h
        rw [if_pos (by omega)] at h
        cases h
  have key : ∀ c, lookup signed f c = .ok (some r) →
      r.start + r.size ≤ f.bitmap.length ∧ ∃ g, g ∈ f.glyph ∧ Shows g r ∧
      (f.bitmap.length - r.start < 65536 → GlyphInside f g → bitmapBytes r.width r.height ≤ r.size) := by
    intro c h
    unfold lookup at h
    simp only at h
    split at h
    · cases h
    · exact keyAt _ h
  simp only [getBitmap, getBitmapN] at hr
  cases k : lookup signed f b with
  | ub => rw [k] at hr; cases hr
  | hang => rw [k] at hr; cases hr
  | ok o =>
    cases o with
    | some r' =>
      rw [k] at hr
      simp only [Res.bind_ok] at hr
      cases hr
      exact key b k
    | none =>
      rw [k] at hr
      simp only [Res.bind_ok] at hr
      cases k2 : lookup signed f f.first with
      | ub => rw [k2] at hr; cases hr
      | hang => rw [k2] at hr; cases hr
      | ok o2 =>
        cases o2 with
        | some r' =>
          rw [k2] at hr
          simp only [Res.bind_ok] at hr
          cases hr
          exact key _ k2
        | none => rw [k2] at hr; cases hr

/-- **C44** is false for the last glyph: for every font, looking up the character of the last glyph reads
past the end of the glyph table. -/
theorem last_glyph_ub (signed : Bool) (f : Font) (b : Byte) (hs : signed = false ∨ b.toNat < 128)
    (h1 : f.first.toNat ≤ b.toNat) (h2 : b.toNat ≤ f.last.toNat) (hr : inRepertoire b.toNat)
    (hf : inRepertoire f.first.toNat ∧ f.first.toNat ≤ 0x7E)
    (hl : ordinal b.toNat - ordinal f.first.toNat + 1 = f.glyph.length) :
    getBitmap signed f b = .ub := by
  have h : lookup signed f b = .ub := by rw [lookup_eq hs h1 h2 hr hf, lookupAt_last hl]
  simp only [getBitmap, getBitmapN, h, Res.bind_ub]

/-! ## Examples -/

/-- A font of three glyphs, ' ' to '"'. -/
def tiny : Font := ⟨[0x00, 0xFF, 0x80, 0xA5], [⟨0, 1, 1, 4, 0, 0⟩, ⟨1, 3, 3, 4, 1, 0xFD⟩, ⟨3, 4, 2, 5, 0, 0⟩],
  0x20, 0x22⟩

example : getBitmap true tiny 0x21 = .ok ⟨1, 3, 3, 3, 1, -3, 4⟩ := by decide
example : getBitmap true tiny 0x41 = .ok ⟨0, 4, 1, 1, 0, 0, 4⟩ := by decide
example : getBitmap true tiny 0x22 = .ub := by decide
example : inRepertoire tiny.first.toNat ∧ tiny.first.toNat ≤ 0x7E := by unfold inRepertoire; decide
example : getBitmap false ⟨[], [⟨0, 0, 0, 0, 0, 0⟩], 0xA0, 0xFF⟩ 0xA0 = .hang := by decide

end Verif.Font
