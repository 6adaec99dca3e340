import Verif.Text.LegibleLemmas
/-!
# C107: what is written with the shipped font can be read

Two texts in the shipped font look the same exactly if they are the same but for blanks at the end.
-/
namespace Verif.Text
open Verif.Canvas Verif.FrameBuffer Verif.Font

/-! ## Specification -/

/-- What is shown for a character: characters which are not in the font are shown as a blank (C43). -/
def shown (b : Byte) : Byte := if 0x20 ≤ b.toNat ∧ b.toNat < 0x7E then b else 0x20

/-- The same but for blanks at the end. -/
def SameText (s t : List Byte) : Prop :=
  ∃ u m n, s.map shown = u ++ List.replicate m 0x20 ∧ t.map shown = u ++ List.replicate n 0x20

/-! ## The glyphs of the shipped font as numbers -/

/-- The bits of some bytes, the most significant first. -/
def bits (bm : List Byte) : List Bool :=
  bm.flatMap fun b => [b.getLsbD 7, b.getLsbD 6, b.getLsbD 5, b.getLsbD 4, b.getLsbD 3, b.getLsbD 2, b.getLsbD 1, b.getLsbD 0]

/-- The number of the pixels `k`, …, `k + n - 1` of a glyph of width `w`, row by row. -/
def enc (w x0 y0 : Nat) : List Bool → Nat → Nat → Nat
  | b :: bs, k, n + 1 => (if b then 2 ^ ((x0 + k % w) * 32 + (y0 + k / w)) else 0) ||| enc w x0 y0 bs (k + 1) n
  | _, _, _ => 0

/-- A glyph as a number. -/
def entry (bm : List Byte) (g : Glyph) : Entry :=
  (g.shift.toNat, enc g.width.toNat (g.offX.toInt + 1).toNat (g.offY.toInt + 24).toNat (bits (bm.drop g.bitmapOffset.toNat)) 0
    (g.width.toNat * g.height.toNat))

/-- The glyphs of the shipped font but '~'. -/
def legTable : List Entry := [
  (7, 0),
  (10, 0x1C3FFF001CFFFF001C3FFF00000000000000000000000000000000000000000),
  (10, 0x1F0000007F0000001F00000000000000000000001F0000007F0000001F00000000000000000),
  (16, 0xC0000060C0000060CE000061FE00007FF8000FFFC0001FE0C0001860C0000060DE000063FE00007FF0001FFEC0001FE0C0001060C00000600000006000000000000),
  (16, 0x1E0000007F030000FF03C000E383E000C180E001C180700181C0300180C03007FFFFF80180C0300180E07001C070E000F87FE000783FC000381F000000000000000000),
  (26, 0x3C000000FF000000C300000181800001818000018180000181803000C300F000FF03C0003C0F0000003C00000070000001C00000078000001E0F0000783FC001E030C001806060000060600000606000006060000030C000003FC000000F000000000000000000),
  (19, 0x100000001C1800001E78000007F8000007C078000FE0FE000EF9FE001C3DC700180F030018078700180DFE001C0CFE001E3838000FF8000007F0000003E0000000000000000000000000000),
  (6, 0x1F0000007F0000001F0000000000000000000000000),
  (10, 0x40000010600000703C0001E01F801F8007FFFE0001FFF800003FC000000000000000000000000000),
  (10, 0x3FC00001FFF80007FFFE000F801F803C0001E060000070400000100000000000000000),
  (11, 0x80000000C000000C8000000780000001F00000078000000C80000000C0000000800000000000000000),
  (17, 0x60000000600000006000000060000000600000006000001FFF80001FFF8000006000000060000000600000006000000060000000600000000000000000000),
  (8, 0xFC0000019C0000011C0000000000000000000000000000000000000),
  (10, 0x300000003000000030000000300000003000000030000000300000000000000000000),
  (7, 0x1C0000001C0000001C00000000000000000000000000000),
  (8, 0x30000001F000000F8000007C000007C000003E000001F000000180000000000000),
  (16, 0x7FC00003FFF80007FFFC000F803E001C000700180003001800030018000300180003001C0007000F803E0007FFFC0003FFF800007FC000000000000000000),
  (17, 0x1FFFFF001FFFFE001FFFF80000003800000030000000300000003000000000000000000000000000000000000000000),
  (16, 0x1801F8001803FC001807FE00180F0E00181C0700181C030018380300183003001870030018E0070019C00E001F807E001E007C0000007000000000000000000),
  (16, 0x1F0000007F8F8000FF9FC000E1FFE001C0F0F00180707001806030018060300180603001C0003001E000F000F803E0007803C0001803800000000000000000),
  (16, 0xC0000000C000001FFFFF001FFFFF001FFFFF0000C01C0000C0780000C0E00000C3800000C7000000DC000000F8000000E00000000000000000000),
  (16, 0x1F8000003FE030007FF03000E0703001C038300180183001801830018018300180183001C0303000E073F000F07FF000707C00003000000000000000000000),
  (16, 0x1F0000007FC1C000FFE1E000E0E1E001C070700180303001803030018030300180303001C0606000E0E1E0007FFFC0003FFF00000FFC000000000000000000),
  (16, 0x30000000F0000003F0000007B000001E300000F8300007F030003FC03001FE003001F80030018000300000003000000030000000300000000000000000),
  (16, 0x1E0000007F0F8000FF9FC000E1FFE001C0F0600180603001806030018060300180603001C0F06000E1FFE000FF9FC0007F0F80001E00000000000000000000),
  (16, 0x7FE00001FFF80007FFFC000F0E0E000C0C0700181803001818030018180300181803001C1C07000E0E0E000F0FFE000707FC000001F000000000000000000),
  (7, 0x1C01C0001C01C0001C01C00000000000000000000000000),
  (7, 0xFC0000019C01C0011C01C0000001C00000000000000000000000000),
  (17, 0x1C0380000C0300000E0700000606000006060000030C0000030C0000039C0000019800000198000000F0000000F0000000F0000000600000000000000000000),
  (17, 0x318000003180000031800000318000003180000031800000318000003180000031800000318000003180000031800000318000003180000000000000000000),
  (17, 0x6000000070000000F0000000F000000198000001980000039C0000030C0000030C000006060000060600000E0700000C0300001C03800018018000000000000000000),
  (16, 0xF8000001FC000003FE0000078700000E03001C7C03001C7803001C7003000000030000000E0000003E0000003C000000380000000000000000000000000),
  (29, 0x3F800000FFE00001FFF00003E0F80003803C0007001C0006008E0086078600C63F8701C7FF070183E183018180C3018300C3018600C3018601C3018603830187078600C3FF0600C3FE0E00E0F80C0070001C00780038003C00F0001F03E0000FFFC00007FF000001FC0000000000000000000),
  (19, 0x100000001E0000001FC000000FF8000001FE0000003FC0000037F8000030FF0000301F000030070000303F000031FE000037F000003F800001FC00000FF000001F8000001C000000000000000000000),
  (19, 0x3E0000007F878000FF9FC001E1DFE001C0F8F0018070700180603001806030018060300180603001806030018060300180603001FFFFF001FFFFF001FFFFF0000000000000000000000000),
  (21, 0x60300003E0380007E03C000F801E000E0006001C00070018000300180003001800030018000300180003001C0003000C0006000E000E000F001E0007C07C0003FFF80001FFE000003F8000000000000000000),
  (20, 0x7FC00001FFF00003FFFC0007C07C000E000E001C0006001C000700180003001800030018000300180003001800030018000300180003001FFFFF001FFFFF001FFFFF0000000000000000000000000),
  (18, 0x1800000018060300180603001806030018060300180603001806030018060300180603001806030018060300180603001FFFFF001FFFFF001FFFFF0000000000000000000000000),
  (17, 0x300000003000006030000060300000603000006030000060300000603000006030000060300000603001FFFFF001FFFFF001FFFFF0000000000000000000000000),
  (22, 0x1FFC30000FFC380007FC3C00078C1E00060C0E000C0C07000C0C0300180C0300180003001800030018000300180003001C0007000C0006000E000E0007001C0007C07C0003FFF80000FFE000003F8000000000000000000),
  (21, 0x1FFFFF001FFFFF001FFFFF0000060000000600000006000000060000000600000006000000060000000600000006000000060000000600001FFFFF001FFFFF001FFFFF0000000000000000000000000),
  (8, 0x1FFFFF001FFFFF001FFFFF000000000000000000000000000000000),
  (15, 0x3FFFF0007FFFF000FFFFF001E000000180000001800000018000000180000001C0000000FC000000FC0000003C00000000000000000000),
  (20, 0x10000100180003001E0007000F000F0007C01E0003E01C0000F03800007C7000001EE000000FC0000003800000070000000E0000001C00001FFFFF001FFFFF001FFFFF0000000000000000000000000),
  (16, 0x180000001800000018000000180000001800000018000000180000001800000018000000180000001FFFFF001FFFFF001FFFFF0000000000000000000000000),
  (25, 0x1FFFFF001FFFFF001FFFFF0000001F000000FE000007F000003F800001FC000007E000001F8000001C0000001F80000007F0000000FE0000003F80000007F0000000FE0000001F001FFFFF001FFFFF001FFFFF0000000000000000000000000),
  (21, 0x1FFFFF001FFFFF001FFFFF001F0000000780000003E0000000F00000003C0000001F0000000780000003E0000000F80000003C0000001F001FFFFF001FFFFF001FFFFF0000000000000000000000000),
  (23, 0x3F800000FFE00003FFF80007C07C0007001C000E000E000C0006001C00070018000300180003001800030018000300180003001C0007000C0006000E000E0007001C0007C07C0003FFF80000FFE000003F8000000000000000000),
  (19, 0x1F8000003FC000007FE00000F0E00000E0700000C0300000C0300000C0300000C0300000C0300000C0300000C0300000C03001FFFFF001FFFFF001FFFFF0000000000000000000000000),
  (23, 0x3F800030FFE0003BFFF8001FC07C000F001C000E000E000F0006001F80070019000300180003001800030018000300180003001C0007000C0006000E000E0007001C0007C07C0003FFF80000FFE000003F8000000000000000000),
  (21, 0x100000001FE0F8001FF3FC001FFBFE00001F0F00000E0700000C0300000C0300000C0300000C0300000C0300000C0300000C0300000C03001FFFFF001FFFFF001FFFFF0000000000000000000000000),
  (19, 0x1E0000007F830000FF83C000E3C3E000C1C0E00180C0700180E0300180E0300180E030018060300180703001C0707000C038E000F03FE0007C1FC0003C0F80001C00000000000000000000),
  (18, 0x30000000300000003000000030000000300000003001FFFFF001FFFFF001FFFFF0000000300000003000000030000000300000003000000030000000000000000000000000),
  (21, 0x1FFFF0003FFFF0007FFFF000E0000000C0000001C00000018000000180000001800000018000000180000001C0000000C0000000E00000007FFFF0007FFFF0001FFFF0000000000000000000000000),
  (19, 0x30000001F000000FF000007F800003FC00001FE000007F000001F8000001C0000001F8000000FF0000001FE0000003FC0000007F8000000FF0000003F0000000700000000000000000),
  (27, 0x10000001F000001FF00001FFE0001FFE0001FFC00001FC000001F0000001FF0000003FE0000003FE0000007FC0000007F000000070000003F000003FC00003FC00001FC00001FE000001E0000001FE0000007FE000000FFF000000FFF000000FF0000000F00000000000000000),
  (19, 0x180001001C0007001E000F000F801E0003C07C0001F0F000007BE000003F8000000F0000003F8000007BE00001F0F00003C07C000F801F001E000F001C00030018000100000000000000000),
  (20, 0x1000000030000000F0000003F0000007C000001F0000003E000000F80001FFE00001FFC00001FFE0000000F80000003E0000001F00000007C0000003F0000000F000000070000000100000000000000000),
  (18, 0x1800070018000F0018001F0018007F001800FB001801E3001807C300180F8300181E0300187C030018F8030019E003001FC003001F8003001E0003001C000000000000000000000),
  (8, 0x60000030600000307FFFFFF07FFFFFF07FFFFFF0000000000000000000000000),
  (8, 0x180000001F00000003E00000007C00000007C0000000F80000001F00000003000000000),
  (8, 0x7FFFFFF07FFFFFF07FFFFFF060000030600000300000000000000000),
  (14, 0x60000000780000001F00000007C0000000F000000070000003F000000F8000007E0000007000000040000000000000000000),
  (16, 0x200000002000000020000000200000002000000020000000200000002000000020000000200000002000000020000000200000002000000020000000200000002000000020000000),
  (7, 0x80000000C0000000700000003000000010000000000000000000000000),
  (16, 0x18000000180000001FFF00001FFF80000FFFC0000631C0000C30C0001830C0001830C0001870C0001861C0001C6380000FE380000FC3000007800000000000000000000),
  (16, 0x1FC000003FF00000FFF80000F0780001C01C0001800C0001800C0001800C0001800C0000C018000070700001FFFFF001FFFFF001FFFFF0000000000000000000000000),
  (15, 0x3040000070700000F0780001E03C0001801C0001800C0001800C0001800C0001C01C0000E0380000FFF800007FF000001FC0000000000000000000),
  (16, 0x1FFFFF001FFFFF0007FFFF000F0780001C0180001800C0001800C0001800C0001800C0001C01C0000F0780000FFF800007FF000001FC0000000000000000000),
  (15, 0x13C0000073F00000F3F80000E3380001C31C0001830C0001830C0001830C0001830C0001C31C0000E3380000FFF800007FF000001FC0000000000000000000),
  (8, 0xC3001FFFFF001FFFFF001FFFFE000000C00000000000000000000000000),
  (16, 0x7FFFC001FFFFC003FFFFC003870700070C0180061800C0061800C0061800C0061800C0061C01C0070E0380038FFF800387FF000181FC0000000000000000000),
  (16, 0x1FFF00001FFF80001FFFC0000001C0000000C0000000C0000000C00000018000000300001FFFFF001FFFFF001FFFFF0000000000000000000000000),
  (6, 0x1FFFC7001FFFC7001FFFC70000000000000000000000000),
  (7, 0x3FFFFC703FFFFC707FFFFC7060000000600000006000000000000000),
  (15, 0x180000001C0040001F00C0000781C00003E3800000F70000007E0000001C000000380000007000001FFFFF001FFFFF001FFFFF0000000000000000000000000),
  (6, 0x1FFFFF001FFFFF001FFFFF0000000000000000000000000),
  (24, 0x1FFF00001FFF80001FFFC0000001C0000000C0000000C0000000C000000380001FFF00001FFF80001FFFC0000001C0000000C0000000C0000000C00000018000000300001FFFC0001FFFC0001FFFC00000000000000000000000000),
  (16, 0x1FFF00001FFF80001FFFC0000001C0000000C0000000C0000000C00000018000000300001FFFC0001FFFC0001FFFC00000000000000000000000000),
  (15, 0x1FC000007FF00000FFF80000F0780001C01C0001800C0001800C0001800C0001800C0001C01C0000F0780000FFF800007FF000001FC0000000000000000000),
  (16, 0x1FC000007FF00000FFF80000F0780001C01C0001800C0001800C0001800C0001800C0000C0180000F070003FFFFC003FFFFC003FFFFC00000000000000000000000000),
  (16, 0x3FFFFC003FFFFC003FFFF0000070780000C01C0001800C0001800C0001800C0001800C0001C01C0000F0780000FFF800007FF000001FC0000000000000000000),
  (10, 0xC0000000C0000000C00000018000000300001FFFC0001FFFC0001FFFC00000000000000000000000000),
  (14, 0x38000000FC300000FC380001CE380001861C0001860C0001860C0001830C0001830C0001C39C0000F3F80000F1F8000030F0000000000000000000),
  (8, 0x1800C0001FFFFC001FFFFC000FFFFC000000C00000000000000000000000000),
  (16, 0x1FFFC0001FFFC0001FFFC000060000000C0000001800000018000000180000001C0000001FFFC0000FFFC00007FFC00000000000000000000000000),
  (14, 0xC0000003C000001FC000007F000003F800000FC000001E0000001F0000001FE0000003FC0000007F8000000FC0000001C000000040000000000),
  (21, 0x40000003C000001FC00001FF00000FF000001F8000001F0000001FF0000001FF0000003FC0000003C000001FC00001FF00001FF000001F0000001F8000000FF0000001FF0000001FC0000003C000000040000000000),
  (14, 0x180040001C01C0001E03C000078F000003DE000000F8000000F8000001DE0000078F00000F03C0001C01C00018004000000000000000000),
  (14, 0x1C0000007C000003F800001FC000007E000003F800001FE000003FFC0000783F8000600FF0006001FC0060003C000000040000000000),
  (14, 0x1800C0001803C0001807C000180EC000181CC0001878C00018F0C00019E0C0001B80C0001F00C0001E00C0001C00C000000000000000000),
  (10, 0x600000307FF8FFF07FFDFFF03FFFFFE0000F800000070000000000000000000000000000),
  (7, 0x7FFFFFF000000000000000000000000000000000),
  (10, 0x70000000F80003FFFFFE07FFDFFF07FF8FFF06000003000000000000000000000000000000000)]

theorem bits_get (bm : List Byte) (k : Nat) :
    (bits bm)[k]? = some true ↔ ∃ b, bm[k / 8]? = some b ∧ b.getLsbD (7 - k % 8) = true := by
  induction bm generalizing k with
  | nil => simp [bits]
  | cons a bm ih =>
    have e : bits (a :: bm) = [a.getLsbD 7, a.getLsbD 6, a.getLsbD 5, a.getLsbD 4, a.getLsbD 3, a.getLsbD 2, a.getLsbD 1,
      a.getLsbD 0] ++ bits bm := rfl
    rw [e]
    by_cases hk : k < 8
    · rw [List.getElem?_append_left (by simpa using hk), show k / 8 = 0 by omega, show k % 8 = k by omega]
      have : k = 0 ∨ k = 1 ∨ k = 2 ∨ k = 3 ∨ k = 4 ∨ k = 5 ∨ k = 6 ∨ k = 7 := by omega
      rcases this with rfl | rfl | rfl | rfl | rfl | rfl | rfl | rfl <;> simp
    · rw [List.getElem?_append_right (by simp; omega)]
      have h1 : k / 8 = (k - 8) / 8 + 1 := by omega
      have h2 : k % 8 = (k - 8) % 8 := by omega
      rw [h1, h2, List.getElem?_cons_succ]
      exact ih (k - 8)

theorem enc_bit (w x0 y0 : Nat) (bs : List Bool) (k n m : Nat) :
    (enc w x0 y0 bs k n).testBit m = true ↔
      ∃ d, d < n ∧ bs[d]? = some true ∧ m = (x0 + (k + d) % w) * 32 + (y0 + (k + d) / w) := by
  induction bs generalizing k n with
  | nil =>
    have : enc w x0 y0 [] k n = 0 := by unfold enc; rfl
    rw [this]
    simp
  | cons b bs ih =>
    cases n with
    | zero =>
      have : enc w x0 y0 (b :: bs) k 0 = 0 := by unfold enc; rfl
      rw [this]
      simp
    | succ n =>
      unfold enc
      rw [Nat.testBit_or, Bool.or_eq_true, ih]
      have h0 : (if b then 2 ^ ((x0 + k % w) * 32 + (y0 + k / w)) else 0).testBit m = true ↔
          b = true ∧ m = (x0 + k % w) * 32 + (y0 + k / w) := by
        cases b
        · simp
        · simp only [if_true, Nat.testBit_two_pow, decide_eq_true_eq, true_and]
          exact eq_comm
      rw [h0]
      constructor
      · rintro (⟨h1, h2⟩ | ⟨d, h1, h2, h3⟩)
        · exact ⟨0, by omega, by rw [h1]; rfl, by rw [h2]; rfl⟩
        · exact ⟨d + 1, by omega, h2, by rw [h3, show k + 1 + d = k + (d + 1) by omega]⟩
      · rintro ⟨d, h1, h2, h3⟩
        cases d with
        | zero => exact .inl ⟨by simpa using h2, h3⟩
        | succ d => exact .inr ⟨d, by omega, h2, by rw [h3, show k + 1 + d = k + (d + 1) by omega]⟩

/-- The numbers describe the pixels of C40. -/
theorem ink_glyph (bm : List Byte) (g : Glyph) (r : CharBitmap) (hs : Shows g r) (h1 : -1 ≤ g.offX.toInt)
    (h2 : -24 ≤ g.offY.toInt) (h3 : g.offY.toInt + g.height.toNat ≤ 8) (pos p : Pt) :
    glyphSet bm r pos p ↔ Ink (entry bm g) (p.x - pos.x) (p.y - pos.y) := by
  unfold glyphSet Ink entry
  simp only [enc_bit, hs.start, hs.width, hs.height, hs.ox, hs.oy, bits_get]
  have gb : ∀ i j, glyphBit bm g.bitmapOffset.toNat g.width.toNat i j = true ↔
      ∃ b, (bm.drop g.bitmapOffset.toNat)[(i + j * g.width.toNat) / 8]? = some b ∧
        b.getLsbD (7 - (i + j * g.width.toNat) % 8) = true := by
    intro i j
    unfold glyphBit
    rw [List.getElem?_drop]
    cases bm[g.bitmapOffset.toNat + (i + j * g.width.toNat) / 8]? <;> simp
  simp only [gb]
  generalize hw : g.width.toNat = w at *
  generalize hh : g.height.toNat = h at *
  generalize g.offX.toInt = ox at *
  generalize g.offY.toInt = oy at *
  constructor
  · rintro ⟨i, j, k1, k2, k3, rfl⟩
    have hlt : i + j * w < w * h := by
      have : (j + 1) * w ≤ h * w := Nat.mul_le_mul_right w k2
      rw [Nat.add_mul, Nat.one_mul, Nat.mul_comm h w] at this
      omega
    have hm : (i + j * w) % w = i := by rw [Nat.add_mul_mod_self_right, Nat.mod_eq_of_lt k1]
    have hd : (i + j * w) / w = j := by
      rw [Nat.add_mul_div_right _ _ (by omega), Nat.div_eq_of_lt k1, Nat.zero_add]
    refine ⟨by simp only; omega, by simp only; omega, i + j * w, hlt, k3, ?_⟩
    rw [Nat.zero_add, hm, hd]
    simp only
    omega
  · rintro ⟨k1, k2, d, k3, k4, k5⟩
    rw [Nat.zero_add] at k5
    have hw0 : 0 < w := by
      rcases Nat.eq_zero_or_pos w with h0 | h0
      · rw [h0, Nat.zero_mul] at k3; omega
      · exact h0
    have hi : d % w < w := Nat.mod_lt _ hw0
    have hj : d / w < h := Nat.div_lt_of_lt_mul k3
    have hd : d % w + d / w * w = d := by rw [Nat.mul_comm]; exact Nat.mod_add_div d w
    refine ⟨d % w, d / w, hi, hj, by rw [hd]; exact k4, ?_⟩
    obtain ⟨px, py⟩ := p
    simp only [Pt.mk.injEq] at *
    generalize d % w = i at *
    generalize d / w = j at *
    omega

set_option maxRecDepth 100000 in
/-- The table is computed from the font. -/
theorem legTable_eq : (freeSans.glyph.take 94).map (entry freeSans.bitmap) = legTable := by
  decide +kernel

theorem legTable_readable : Readable legTable (7, 0) := by
  constructor <;> decide +kernel

theorem legTable_nodup : legTable.Nodup := by decide +kernel

theorem legTable_length : legTable.length = 94 := by decide +kernel

theorem legTable_bounds : ∀ g ∈ freeSans.glyph.take 94, -1 ≤ g.offX.toInt ∧ -24 ≤ g.offY.toInt ∧
    g.offY.toInt + g.height.toNat ≤ 8 ∧ g.shift.toNat ≤ 29 := by
  decide +kernel

theorem shown_range (b : Byte) : 0x20 ≤ (shown b).toNat ∧ (shown b).toNat < 0x7E := by
  unfold shown
  split
  · assumption
  · decide

/-- The glyph shown for a character. -/
def entryOf (b : Byte) : Entry :=
  legTable[(shown b).toNat - 0x20]'(by rw [legTable_length]; have := shown_range b; omega)

theorem entryOf_mem (b : Byte) : entryOf b ∈ legTable := List.getElem_mem _

theorem entryOf_inj {a b : Byte} (h : entryOf a = entryOf b) : shown a = shown b := by
  have := List.getElem_inj legTable_nodup |>.1 h
  have h1 := shown_range a
  have h2 := shown_range b
  apply BitVec.eq_of_toNat_eq
  omega

theorem entryOf_congr {a b : Byte} (h : shown a = shown b) : entryOf a = entryOf b := by
  unfold entryOf
  simp only [h]

theorem entryOf_blank : entryOf 0x20 = (7, 0) := by decide +kernel

/-- What the font answers for a character is its entry. -/
theorem entryOf_shows (signed : Bool) (b : Byte) (hb : b.toNat ≠ 0x7E) (r : CharBitmap)
    (hr : getBitmap signed freeSans b = .ok r) :
    r.shift = (entryOf b).1 ∧ r.shift ≤ 29 ∧
      ∀ pos p, glyphSet freeSans.bitmap r pos p ↔ Ink (entryOf b) (p.x - pos.x) (p.y - pos.y) := by
  obtain ⟨l1, l2, -⟩ := freeSans_lookup signed b
  have : ∃ g, freeSans.glyph[(shown b).toNat - 0x20]? = some g ∧ Shows g r := by
    by_cases hc : 0x20 ≤ b.toNat ∧ b.toNat < 0x7E
    · obtain ⟨g, r', m1, m2, m3, -⟩ := l1 hc
      rw [m2] at hr
      cases hr
      unfold shown
      rw [if_pos hc]
      exact ⟨g, m1, m3⟩
    · obtain ⟨g, r', m1, m2, m3, -⟩ := l2 (by omega)
      rw [m2] at hr
      cases hr
      unfold shown
      rw [if_neg hc]
      exact ⟨g, m1, m3⟩
  obtain ⟨g, h1, h2⟩ := this
  have hlt : (shown b).toNat - 0x20 < 94 := by have := shown_range b; omega
  have h3 : (freeSans.glyph.take 94)[(shown b).toNat - 0x20]? = some g := by
    rw [List.getElem?_take, if_pos hlt, h1]
  have h4 : entryOf b = entry freeSans.bitmap g := by
    have : legTable[(shown b).toNat - 0x20]? = some (entry freeSans.bitmap g) := by
      rw [← legTable_eq, List.getElem?_map, h3]; rfl
    unfold entryOf
    exact (List.getElem_eq_iff _).2 this
  obtain ⟨b1, b2, b3, b4⟩ := legTable_bounds g (List.mem_of_getElem? h3)
  refine ⟨by rw [h4, h2.shift]; rfl, by rw [h2.shift]; exact b4, fun pos p => ?_⟩
  rw [h4]
  exact ink_glyph freeSans.bitmap g r h2 b1 b2 b3 pos p

theorem textSet_cons (bm : List Byte) (r : CharBitmap) (rs : List CharBitmap) (pos p : Pt) :
    textSet bm (r :: rs) pos p ↔ glyphSet bm r pos p ∨ textSet bm rs ⟨pos.x + r.shift, pos.y⟩ p := by
  unfold textSet
  constructor
  · rintro ⟨n, r', h1, h2⟩
    cases n with
    | zero =>
      simp only [List.getElem?_cons_zero, Option.some.injEq] at h1
      subst h1
      exact .inl (by simpa using h2)
    | succ n =>
      refine .inr ⟨n, r', h1, ?_⟩
      rw [List.take_succ_cons, List.map_cons, List.sum_cons] at h2
      rw [show pos.x + (r.shift : Int) + (((rs.take n).map CharBitmap.shift).sum : Nat) =
        pos.x + ((r.shift + ((rs.take n).map CharBitmap.shift).sum : Nat) : Int) by push_cast; omega]
      exact h2
  · rintro (h | ⟨n, r', h1, h2⟩)
    · exact ⟨0, r, rfl, by simpa using h⟩
    · refine ⟨n + 1, r', h1, ?_⟩
      rw [List.take_succ_cons, List.map_cons, List.sum_cons]
      rw [show pos.x + (r.shift : Int) + (((rs.take n).map CharBitmap.shift).sum : Nat) =
        pos.x + ((r.shift + ((rs.take n).map CharBitmap.shift).sum : Nat) : Int) by push_cast; omega] at h2
      exact h2

theorem textSet_inks (signed : Bool) (t : List Byte) (ht : ∀ b ∈ t, b.toNat ≠ 0x7E) (rs : List CharBitmap)
    (hr : t.map (getBitmap signed freeSans) = rs.map .ok) (pos p : Pt) :
    textSet freeSans.bitmap rs pos p ↔ Inks (t.map entryOf) (p.x - pos.x) (p.y - pos.y) := by
  induction t generalizing rs pos with
  | nil =>
    cases rs with
    | cons r rs => simp at hr
    | nil => simp [textSet, Inks]
  | cons b t ih =>
    cases rs with
    | nil => simp at hr
    | cons r rs =>
      simp only [List.map_cons, List.cons.injEq] at hr
      obtain ⟨h1, -, h3⟩ := entryOf_shows signed b (ht b (List.mem_cons_self ..)) r hr.1
      rw [textSet_cons, h3, ih (fun b' h' => ht b' (List.mem_cons_of_mem _ h')) rs hr.2, h1]
      simp only [List.map_cons, Inks]
      rw [show p.x - (pos.x + ((entryOf b).1 : Int)) = p.x - pos.x - ((entryOf b).1 : Int) by omega]

theorem inks_append_blanks (u : List Entry) (n : Nat) (x y : Int) :
    Inks (u ++ List.replicate n (7, 0)) x y ↔ Inks u x y := by
  induction u generalizing x with
  | nil =>
    rw [List.nil_append]
    exact ⟨fun h => inks_blanks legTable_readable n x y h, fun h => h.elim⟩
  | cons e u ih => simp only [List.cons_append, Inks, ih]

theorem shown_shown (b : Byte) : shown (shown b) = shown b := by
  have := shown_range b
  generalize shown b = c at *
  unfold shown
  rw [if_pos this]

theorem map_entryOf_shown (t : List Byte) : (t.map shown).map entryOf = t.map entryOf := by
  rw [List.map_map]
  apply List.map_congr_left
  intro b _
  exact entryOf_congr (shown_shown b)

/-- **C107**: two texts in the shipped font cover the same pixels exactly if they are the same but for blanks at the
end. -/
theorem same_pixels_iff (signed : Bool) (s t : List Byte) (hs : ∀ b ∈ s, b.toNat ≠ 0x7E) (ht : ∀ b ∈ t, b.toNat ≠ 0x7E)
    (rs rt : List CharBitmap) (hrs : s.map (getBitmap signed freeSans) = rs.map .ok)
    (hrt : t.map (getBitmap signed freeSans) = rt.map .ok) (pos : Pt) :
    (∀ p, textSet freeSans.bitmap rs pos p ↔ textSet freeSans.bitmap rt pos p) ↔ SameText s t := by
  constructor
  · intro h
    have he : ∀ x y, False ∨ Inks (s.map entryOf) x y ↔ False ∨ Inks (t.map entryOf) x y := by
      intro x y
      have := h ⟨pos.x + x, pos.y + y⟩
      rw [textSet_inks signed s hs rs hrs, textSet_inks signed t ht rt hrt] at this
      simp only [show pos.x + x - pos.x = x by omega, show pos.y + y - pos.y = y by omega] at this
      simpa using this
    obtain ⟨u, m, n, h1, h2⟩ := inks_decode legTable_readable (s.map entryOf) (t.map entryOf)
      (by intro e he; obtain ⟨b, -, rfl⟩ := List.mem_map.1 he; exact entryOf_mem b)
      (by intro e he; obtain ⟨b, -, rfl⟩ := List.mem_map.1 he; exact entryOf_mem b)
      (fun _ _ => False) (fun _ _ h => h.elim) he
    clear he h hrs hrt hs ht
    induction u generalizing s t with
    | nil =>
      have key : ∀ (v : List Byte) (k : Nat), v.map entryOf = [] ++ List.replicate k (7, 0) →
          v.map shown = [] ++ List.replicate k 0x20 := by
        intro v k hv
        rw [List.nil_append] at *
        rw [List.eq_replicate_iff] at *
        refine ⟨by simpa using hv.1, ?_⟩
        intro b hb
        obtain ⟨c, hc, rfl⟩ := List.mem_map.1 hb
        have := hv.2 _ (List.mem_map.2 ⟨c, hc, rfl⟩)
        rw [← entryOf_blank] at this
        rw [entryOf_inj this]
        rfl
      exact ⟨[], m, n, key s m h1, key t n h2⟩
    | cons e u ih =>
      cases s with
      | nil => cases h1
      | cons a s =>
        cases t with
        | nil => cases h2
        | cons b t =>
          simp only [List.map_cons, List.cons_append, List.cons.injEq] at h1 h2
          obtain ⟨v, i, j, k1, k2⟩ := ih s t h1.2 h2.2
          have hab := entryOf_inj (h1.1.trans h2.1.symm)
          exact ⟨shown a :: v, i, j, by rw [List.map_cons, k1]; rfl, by rw [List.map_cons, k2, hab]; rfl⟩
  · rintro ⟨u, m, n, h1, h2⟩ p
    rw [textSet_inks signed s hs rs hrs, textSet_inks signed t ht rt hrt, ← map_entryOf_shown s, ← map_entryOf_shown t, h1,
      h2]
    simp only [List.map_append, List.map_replicate, entryOf_blank, inks_append_blanks]

theorem inks_extent (t : List Byte) (x y : Int) (h : Inks (t.map entryOf) x y)
    (hadv : ∀ b ∈ t, (entryOf b).1 ≤ 29) : (-1 ≤ x ∧ x ≤ 29 * t.length) ∧ -24 ≤ y ∧ y < 8 := by
  induction t generalizing x with
  | nil => exact h.elim
  | cons b t ih =>
    have hb := hadv b (List.mem_cons_self ..)
    simp only [List.length_cons]
    push_cast
    rcases h with h | h
    · have h1 := ink_right legTable_readable (entryOf_mem b) h
      exact ⟨⟨h.1, by omega⟩, h.2.1⟩
    · obtain ⟨h1, h2⟩ := ih _ h (fun b' h' => hadv b' (List.mem_cons_of_mem _ h'))
      exact ⟨⟨by omega, by omega⟩, h2⟩

/-- Room for `n` characters of the shipped font on the screen. -/
structure Room (c : Canvas) (pos : Pt) (n : Nat) : Prop where
  left : 1 ≤ pos.x
  right : pos.x + 29 * n < c.getSize.width
  top : 24 ≤ pos.y
  bottom : pos.y + 8 ≤ c.getSize.height
  /-- the arithmetic does not overflow -/
  scale : pos.x + 255 * n ≤ 134217728 ∧ pos.y ≤ 134217728

/-- **C107**: on a screen without a pixel of the pen's colour, two texts drawn at the same place, where there is room for
them, look the same exactly if they are the same but for blanks at the end. -/
theorem legible (c : Canvas) (g : Geom) (fb : FB) (h : Ready c g fb) (signed : Bool) (pos : Pt) (s t : List Byte)
    (hs : ∀ b ∈ s, b.toNat ≠ 0x7E) (ht : ∀ b ∈ t, b.toNat ≠ 0x7E) (fs : Room c pos s.length) (ft : Room c pos t.length)
    (hpen : ∀ p, OnScreen c p → readPixel c g fb p ≠ some (storedValue g.depth fb.sel)) :
    ∃ fb1 fb2, drawStringAt c g signed freeSans fb pos s = .ok fb1 ∧ drawStringAt c g signed freeSans fb pos t = .ok fb2 ∧
      ((∀ p, OnScreen c p → readPixel c g fb1 p = readPixel c g fb2 p) ↔ SameText s t) := by
  obtain ⟨rs, hrs, hds⟩ := freeSans_drawable signed s hs
  obtain ⟨rt, hrt, hdt⟩ := freeSans_drawable signed t ht
  obtain ⟨fb1, k1, k2⟩ := drawStringAt_exact c g fb h signed freeSans pos s rs
    (by have := fs.left; have := fs.top; have := fs.scale; omega) hrs hds
  obtain ⟨fb2, k3, k4⟩ := drawStringAt_exact c g fb h signed freeSans pos t rt
    (by have := ft.left; have := ft.top; have := ft.scale; omega) hrt hdt
  refine ⟨fb1, fb2, k1, k3, ?_⟩
  have adv : ∀ (v : List Byte) (rv : List CharBitmap), (∀ b ∈ v, b.toNat ≠ 0x7E) →
      v.map (getBitmap signed freeSans) = rv.map .ok → ∀ b ∈ v, (entryOf b).1 ≤ 29 := by
    intro v rv hv hrv b hb
    have : getBitmap signed freeSans b ∈ rv.map Res.ok := by rw [← hrv]; exact List.mem_map.2 ⟨b, hb, rfl⟩
    obtain ⟨r, -, hr⟩ := List.mem_map.1 this
    obtain ⟨e1, e2, -⟩ := entryOf_shows signed b (hv b hb) r hr.symm
    omega
  have vis : ∀ (v : List Byte) (rv : List CharBitmap), (∀ b ∈ v, b.toNat ≠ 0x7E) →
      v.map (getBitmap signed freeSans) = rv.map .ok → Room c pos v.length →
      ∀ p, textSet freeSans.bitmap rv pos p → OnScreen c p := by
    intro v rv hv hrv fv p hp
    rw [textSet_inks signed v hv rv hrv] at hp
    obtain ⟨e1, e2⟩ := inks_extent v _ _ hp (adv v rv hv hrv)
    have := fv.left; have := fv.right; have := fv.top; have := fv.bottom
    constructor <;> omega
  rw [← same_pixels_iff signed s t hs ht rs rt hrs hrt pos]
  constructor
  · intro he p
    have hcase : ∀ {rv rw : List CharBitmap} {a b : FB},
        (Paints c g fb a fun p => textSet freeSans.bitmap rv pos p) →
        (Paints c g fb b fun p => textSet freeSans.bitmap rw pos p) →
        (∀ p, OnScreen c p → readPixel c g a p = readPixel c g b p) →
        (∀ p, textSet freeSans.bitmap rv pos p → OnScreen c p) →
        textSet freeSans.bitmap rv pos p → textSet freeSans.bitmap rw pos p := by
      intro rv rw a b ha hb hab hv hp
      have hp' := hv p hp
      by_contra hn
      have e1 := ha.inside p hp' hp
      have e2 := hb.outside p hp' hn
      rw [hab p hp', e2] at e1
      exact hpen p hp' e1
    exact ⟨hcase k2 k4 he (vis s rs hs hrs fs), hcase k4 k2 (fun p hp => (he p hp).symm) (vis t rt ht hrt ft)⟩
  · intro he p hp
    by_cases hin : textSet freeSans.bitmap rs pos p
    · rw [k2.inside p hp hin, k4.inside p hp ((he p).1 hin)]
    · rw [k2.outside p hp hin, k4.outside p hp (fun hh => hin ((he p).2 hh))]

theorem sameText_last {s t : List Byte} (h : SameText s t) (hs : ∃ u b, s = u ++ [b] ∧ shown b ≠ 0x20)
    (ht : ∃ u b, t = u ++ [b] ∧ shown b ≠ 0x20) : s.map shown = t.map shown := by
  obtain ⟨u, m, n, h1, h2⟩ := h
  have key : ∀ (v : List Byte) (k : Nat), (∃ u b, v = u ++ [b] ∧ shown b ≠ 0x20) →
      v.map shown = u ++ List.replicate k 0x20 → k = 0 := by
    rintro _ k ⟨w, b, rfl, hb⟩ he
    cases k with
    | zero => rfl
    | succ k =>
      rw [List.replicate_succ', ← List.append_assoc, List.map_append] at he
      have := List.append_inj_right' he rfl
      simp only [List.map_cons, List.map_nil, List.cons.injEq, and_true] at this
      exact absurd this hb
  rw [key s m hs h1] at h1
  rw [key t n ht h2] at h2
  rw [h1, h2]

/-- **C107**: in particular texts which do not end with blanks and consist of characters of the font look the same exactly
if they are the same. -/
theorem legible_visible (c : Canvas) (g : Geom) (fb : FB) (h : Ready c g fb) (signed : Bool) (pos : Pt) (s t : List Byte)
    (hs : ∀ b ∈ s, 0x20 ≤ b.toNat ∧ b.toNat < 0x7E) (ht : ∀ b ∈ t, 0x20 ≤ b.toNat ∧ b.toNat < 0x7E)
    (hs' : ∃ u b, s = u ++ [b] ∧ b ≠ 0x20) (ht' : ∃ u b, t = u ++ [b] ∧ b ≠ 0x20)
    (fs : Room c pos s.length) (ft : Room c pos t.length)
    (hpen : ∀ p, OnScreen c p → readPixel c g fb p ≠ some (storedValue g.depth fb.sel)) :
    ∃ fb1 fb2, drawStringAt c g signed freeSans fb pos s = .ok fb1 ∧ drawStringAt c g signed freeSans fb pos t = .ok fb2 ∧
      ((∀ p, OnScreen c p → readPixel c g fb1 p = readPixel c g fb2 p) ↔ s = t) := by
  obtain ⟨fb1, fb2, h1, h2, h3⟩ := legible c g fb h signed pos s t (fun b hb => by have := hs b hb; omega)
    (fun b hb => by have := ht b hb; omega) fs ft hpen
  have hid : ∀ v : List Byte, (∀ b ∈ v, 0x20 ≤ b.toNat ∧ b.toNat < 0x7E) → v.map shown = v := by
    intro v hv
    conv_rhs => rw [← List.map_id v]
    apply List.map_congr_left
    intro b hb
    unfold shown
    rw [if_pos (hv b hb)]; rfl
  have hend : ∀ v : List Byte, (∀ b ∈ v, 0x20 ≤ b.toNat ∧ b.toNat < 0x7E) → (∃ u b, v = u ++ [b] ∧ b ≠ 0x20) →
      ∃ u b, v = u ++ [b] ∧ shown b ≠ 0x20 := by
    rintro _ hv ⟨u, b, rfl, hb⟩
    refine ⟨u, b, rfl, ?_⟩
    unfold shown
    rw [if_pos (hv b (by simp))]
    exact hb
  refine ⟨fb1, fb2, h1, h2, h3.trans ⟨fun hh => ?_, fun hh => ?_⟩⟩
  · have := sameText_last hh (hend s hs hs') (hend t ht ht')
    rwa [hid s hs, hid t ht] at this
  · exact ⟨s.map shown, 0, 0, by simp, by simp [hh]⟩

end Verif.Text
