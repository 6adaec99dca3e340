import Verif.Font.FreeSansData
import Verif.Font.Props
/-!
# C46: the shipped font table
-/
namespace Verif.Font
open Verif.Canvas

/-- Sum of the bitmap sizes of the glyphs. -/
def totalBytes (gs : List Glyph) : Nat := (gs.map fun g => bitmapBytes g.width.toNat g.height.toNat).sum

/-- Check of contiguous offsets from `at_` to `end_`. -/
def tiled : Nat → List Glyph → Nat → Bool
  | at_, [], end_ => at_ == end_
  | at_, g :: gs, end_ => g.bitmapOffset.toNat == at_ &&
      tiled (at_ + bitmapBytes g.width.toNat g.height.toNat) gs end_

theorem tiled_offsets {at_ : Nat} {gs : List Glyph} {end_ : Nat} (h : tiled at_ gs end_ = true) :
    at_ + totalBytes gs = end_ ∧
    ∀ i g, gs[i]? = some g → g.bitmapOffset.toNat = at_ + totalBytes (gs.take i) := by
  induction gs generalizing at_ with
  | nil =>
    simp only [tiled, beq_iff_eq] at h
    refine ⟨h, ?_⟩
    intro i g hg
    simp at hg
  | cons a gs ih =>
    simp only [tiled, Bool.and_eq_true, beq_iff_eq] at h
    obtain ⟨h1, h2⟩ := h
    obtain ⟨h3, h4⟩ := ih h2
    refine ⟨?_, ?_⟩
    · rw [← h3]; simp only [totalBytes, List.map_cons, List.sum_cons]; omega
    · intro i g hg
      cases i with
      | zero =>
        simp only [List.getElem?_cons_zero, Option.some.injEq] at hg
        subst hg
        simp only [List.take_zero, totalBytes, List.map_nil, List.sum_nil]
        omega
      | succ i =>
        rw [List.getElem?_cons_succ] at hg
        rw [h4 i g hg]
        simp only [List.take_succ_cons, totalBytes, List.map_cons, List.sum_cons]
        omega

theorem freeSans_length : freeSans.bitmap.length = 2876 := by
  show (List.map _ freeSansBytes).length = _
  rw [List.length_map]
  decide +kernel

theorem freeSans_glyphs : freeSans.glyph.length = 95 := by
  decide +kernel

theorem freeSans_tiled : tiled 0 freeSans.glyph 2876 = true := by decide +kernel

/-- **C46**: the bitmaps of the glyphs follow each other in table order without gap or overlap and fill
the bitmap array, and there is exactly one glyph for each character from `first` to `last`. -/
theorem freeSans_consistent :
    freeSans.bitmap.length = totalBytes freeSans.glyph ∧
    (∀ i g, freeSans.glyph[i]? = some g → g.bitmapOffset.toNat = totalBytes (freeSans.glyph.take i)) ∧
    freeSans.glyph.length = freeSans.last.toNat - freeSans.first.toNat + 1 := by
  obtain ⟨h1, h2⟩ := tiled_offsets freeSans_tiled
  refine ⟨by rw [freeSans_length]; omega, ?_, by rw [freeSans_glyphs]; decide⟩
  intro i g hg
  rw [h2 i g hg]
  omega

private theorem totalBytes_append (a b : List Glyph) : totalBytes (a ++ b) = totalBytes a + totalBytes b := by
  simp only [totalBytes, List.map_append, List.sum_append]

/-- **C46**: every pixel of every glyph is inside the bitmap array. -/
theorem freeSans_inside (g : Glyph) (hg : g ∈ freeSans.glyph) : GlyphInside freeSans g := by
  obtain ⟨i, hi, rfl⟩ := List.mem_iff_getElem.1 hg
  obtain ⟨h1, h2, _⟩ := freeSans_consistent
  unfold GlyphInside
  rw [h2 i _ (List.getElem?_eq_getElem hi), h1]
  have e : freeSans.glyph = freeSans.glyph.take i ++ freeSans.glyph[i] :: freeSans.glyph.drop (i + 1) := by
    rw [← List.drop_eq_getElem_cons hi, List.take_append_drop]
  have e2 : totalBytes freeSans.glyph = totalBytes (freeSans.glyph.take i) +
      totalBytes (freeSans.glyph[i] :: freeSans.glyph.drop (i + 1)) := by
    rw [← totalBytes_append, ← e]
  rw [e2]
  simp only [totalBytes, List.map_cons, List.sum_cons]
  omega

/-- Consequence for the lookup: every character shows its glyph or the blank's, except '~', which is
undefined behaviour (see `last_glyph_ub`). -/
theorem freeSans_lookup (signed : Bool) (b : Byte) :
    (0x20 ≤ b.toNat ∧ b.toNat < 0x7E → ∃ g r, freeSans.glyph[b.toNat - 0x20]? = some g ∧
      getBitmap signed freeSans b = .ok r ∧ Shows g r ∧ GlyphInside freeSans g) ∧
    (b.toNat < 0x20 ∨ 0x7E < b.toNat → ∃ g r, freeSans.glyph[0]? = some g ∧
      getBitmap signed freeSans b = .ok r ∧ Shows g r ∧ GlyphInside freeSans g) ∧
    (b.toNat = 0x7E → getBitmap signed freeSans b = .ub) := by
  have hfirst : freeSans.first.toNat = 0x20 := rfl
  have hlast : freeSans.last.toNat = 0x7E := rfl
  have hf : inRepertoire freeSans.first.toNat ∧ freeSans.first.toNat ≤ 0x7E := by
    rw [hfirst]; unfold inRepertoire; decide
  refine ⟨?_, ?_, ?_⟩
  · intro h
    have hi : b.toNat - 0x20 < freeSans.glyph.length := by rw [freeSans_glyphs]; omega
    have hin := freeSans_inside _ (List.getElem_mem hi)
    have ho : ordinal b.toNat - ordinal freeSans.first.toNat = b.toNat - 0x20 := by
      rw [hfirst]; unfold ordinal; rw [if_pos (by omega)]; rfl
    obtain ⟨r, k1, k2⟩ := getBitmap_finds_partial signed freeSans b (.inr (by omega)) (by omega) (by omega)
      (.inl (by omega)) hf _ (by rw [ho]; exact List.getElem?_eq_getElem hi)
      (by rw [ho, freeSans_glyphs]; omega) (by unfold GlyphInside at hin; omega)
    exact ⟨_, r, List.getElem?_eq_getElem hi, k1, k2, hin⟩
  · intro h
    have hi : 0 < freeSans.glyph.length := by rw [freeSans_glyphs]; omega
    have hin := freeSans_inside _ (List.getElem_mem hi)
    have hfb : charVal signed b < freeSans.first.toNat ∨ charVal signed b > freeSans.last.toNat := by
      rw [hfirst, hlast]
      unfold charVal
      cases signed
      · simp only [Bool.false_eq_true, if_false]; omega
      · simp only [if_true]
        rw [BitVec.toInt_eq_toNat_cond]
        have := b.isLt
        by_cases hb : 2 * b.toNat < 2 ^ 8
        · rw [if_pos hb]; omega
        · rw [if_neg hb]; omega
    obtain ⟨r, k1, _, k2⟩ := getBitmap_fallback_partial signed freeSans b hf (by rw [hfirst, hlast]; omega)
      (hfb.elim .inl (fun h => .inr (.inl h))) _
      (List.getElem?_eq_getElem hi) (by rw [freeSans_glyphs]; omega) (by unfold GlyphInside at hin; omega)
    exact ⟨_, r, List.getElem?_eq_getElem hi, k1, k2, hin⟩
  · intro h
    refine last_glyph_ub signed freeSans b (.inr (by omega)) (by omega) (by omega) (.inl (by omega)) hf ?_
    rw [h, hfirst, freeSans_glyphs]
    decide

end Verif.Font
