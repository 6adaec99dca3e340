import Verif.FrameBuffer.Props
import Mathlib.Tactic.LinearCombination
/-!
# C144: pixels outside of the frame buffer

`SimpleFrameBuffer::drawPixel` does not look at the size: for any position it is either undefined behaviour or draws some
pixel of the screen.  Exactly which, for every depth.
-/
namespace Verif.FrameBuffer

/-! ## Specification -/

/-- How many pixels share a byte, for the depths of less than a byte. -/
def perByte (d : Nat) : Int := if d = 1 then 8 else if d = 2 then 4 else if d = 4 then 2 else 1

/-- The number of the pixel which is drawn for a position: rows follow each other, and the division by 8 rounds towards
zero, so the positions just before the screen belong to its first byte. -/
def drawnNo (g : Geom) (x y : Int) : Int :=
  let i := y * g.getWidth + x
  if -perByte g.depth < i ∧ i < 0 then i + perByte g.depth else i

/-- Drawing at the position is undefined, whatever the colour. -/
def PixelBad (g : Geom) (x y : Int) : Prop :=
  ¬ InInt (y * g.getWidth) ∨ ¬ InInt (y * g.getWidth + x) ∨ ¬ InInt ((y * g.getWidth + x) * g.depth) ∨
    (x < 0 ∧ ¬ perByte g.depth ∣ x) ∨ ¬ (0 ≤ drawnNo g x y ∧ drawnNo g x y < g.getWidth * g.getHeight)

/-! ## Proof -/

theorem chk_iff {v w : Int} : chk v = .ok w ↔ InInt v ∧ w = v := by
  unfold chk
  split
  · rename_i hv
    constructor
    · intro h
      injection h with h
      exact ⟨hv, h.symm⟩
    · rintro ⟨_, rfl⟩
      rfl
  · rename_i hv
    constructor
    · intro h
      cases h
    · rintro ⟨h, _⟩
      exact absurd h hv

/-- The truncated division in terms of the floor. -/
theorem tdiv8 (v : Int) : (0 ≤ v ∧ v.tdiv 8 = v / 8) ∨ (v < 0 ∧ v.tdiv 8 = -(-v / 8)) := by
  by_cases h : 0 ≤ v
  · exact .inl ⟨h, Int.tdiv_eq_ediv_of_nonneg h⟩
  · refine .inr ⟨by omega, ?_⟩
    have h1 : (-v).tdiv 8 = -v / 8 := Int.tdiv_eq_ediv_of_nonneg (by omega)
    rw [Int.neg_tdiv] at h1
    omega

theorem upd_ends {img : List Byte} {k : Int} {f : Byte → Byte} : upd img k f ≠ .hang := by
  unfold upd
  split
  · split <;> simp
  · simp

theorem upd_inside {img img' : List Byte} {k : Int} {f : Byte → Byte} (h : upd img k f = .ok img') :
    0 ≤ k ∧ k < img.length := by
  unfold upd at h
  split at h
  · rename_i hk
    split at h
    · rename_i b hb
      obtain ⟨h1, _⟩ := List.getElem?_eq_some_iff.1 hb
      omega
    · cases h
  · cases h

theorem bind_ends {α β : Type} {x : Res α} {f : α → Res β} (hx : x ≠ .hang) (hf : ∀ a, f a ≠ .hang) : x >>= f ≠ .hang := by
  cases x with
  | ok a => exact hf a
  | ub => intro h; cases h
  | hang => exact absurd rfl hx

theorem chk_ends {v : Int} : chk v ≠ .hang := by unfold chk; split <;> simp

theorem shiftCount_ends {v : Int} : shiftCount v ≠ .hang := by unfold shiftCount; split <;> simp

theorem drawPixelC_ends (g : Geom) (img : List Byte) (x y : Int) (color : BitVec 32) :
    drawPixelC g img x y color ≠ .hang := by
  unfold drawPixelC
  refine bind_ends chk_ends fun _ => bind_ends chk_ends fun _ => bind_ends chk_ends fun _ => ?_
  split
  · refine bind_ends shiftCount_ends fun _ => ?_
    dsimp only
    split <;> exact upd_ends
  split
  · exact bind_ends shiftCount_ends fun _ => bind_ends upd_ends fun _ => bind_ends shiftCount_ends fun _ => upd_ends
  split
  · exact bind_ends shiftCount_ends fun _ => bind_ends upd_ends fun _ => bind_ends shiftCount_ends fun _ => upd_ends
  split
  · exact upd_ends
  split
  · exact bind_ends upd_ends fun _ => bind_ends chk_ends fun _ => upd_ends
  split
  · exact bind_ends upd_ends fun _ => bind_ends chk_ends fun _ => bind_ends upd_ends fun _ => bind_ends chk_ends fun _ =>
      upd_ends
  split
  · exact bind_ends upd_ends fun _ => bind_ends chk_ends fun _ => bind_ends upd_ends fun _ => bind_ends chk_ends fun _ =>
      bind_ends upd_ends fun _ => bind_ends chk_ends fun _ => upd_ends
  · simp

/-- The first access of the call. -/
theorem drawPixelC_first {g : Geom} (hg : g.Compiles) {img img' : List Byte} {x y : Int} {color : BitVec 32}
    (h : drawPixelC g img x y color = .ok img') :
    InInt (y * g.effW) ∧ InInt (y * g.effW + x) ∧ InInt ((y * g.effW + x) * g.depth) ∧
      0 ≤ ((y * g.effW + x) * g.depth).tdiv 8 ∧ ((y * g.effW + x) * g.depth).tdiv 8 < img.length ∧
      0 ≤ x.tmod (perByte g.depth) := by
  unfold drawPixelC at h
  obtain ⟨_, e1, h⟩ := Res.bind_eq_ok.1 h
  obtain ⟨k1, rfl⟩ := chk_iff.1 e1
  obtain ⟨_, e2, h⟩ := Res.bind_eq_ok.1 h
  obtain ⟨k2, rfl⟩ := chk_iff.1 e2
  obtain ⟨_, e3, h⟩ := Res.bind_eq_ok.1 h
  obtain ⟨k3, rfl⟩ := chk_iff.1 e3
  refine ⟨k1, k2, k3, ?_⟩
  have hs : ∀ {s : Int} {n : Nat}, shiftCount s = .ok n → 0 ≤ s := by
    intro s n hsn
    unfold shiftCount at hsn
    split at hsn
    · omega
    · cases hsn
  have hone : (0 : Int) ≤ x.tmod 1 := by simp
  dsimp only at h
  unfold perByte
  rcases hg.depth_ok with hd | hd | hd | hd | hd | hd | hd <;> rw [hd] at h ⊢ <;>
    simp only [Nat.reduceEqDiff, if_false, if_true, OfNat.ofNat_ne_one] at h ⊢
  · obtain ⟨_, e4, h⟩ := Res.bind_eq_ok.1 h
    split at h
    · exact ⟨(upd_inside h).1, (upd_inside h).2, hs e4⟩
    · exact ⟨(upd_inside h).1, (upd_inside h).2, hs e4⟩
  · obtain ⟨_, e4, h⟩ := Res.bind_eq_ok.1 h
    obtain ⟨_, e5, h⟩ := Res.bind_eq_ok.1 h
    have := hs e4
    exact ⟨(upd_inside e5).1, (upd_inside e5).2, by omega⟩
  · obtain ⟨_, e4, h⟩ := Res.bind_eq_ok.1 h
    obtain ⟨_, e5, h⟩ := Res.bind_eq_ok.1 h
    have := hs e4
    exact ⟨(upd_inside e5).1, (upd_inside e5).2, by omega⟩
  · exact ⟨(upd_inside h).1, (upd_inside h).2, hone⟩
  · obtain ⟨_, e5, h⟩ := Res.bind_eq_ok.1 h
    exact ⟨(upd_inside e5).1, (upd_inside e5).2, hone⟩
  · obtain ⟨_, e5, h⟩ := Res.bind_eq_ok.1 h
    exact ⟨(upd_inside e5).1, (upd_inside e5).2, hone⟩
  · obtain ⟨_, e5, h⟩ := Res.bind_eq_ok.1 h
    exact ⟨(upd_inside e5).1, (upd_inside e5).2, hone⟩

/-- A truncated remainder is negative for the negative numbers which are no multiples. -/
theorem tmod_neg_iff {x m : Int} : 0 ≤ x.tmod m ↔ ¬ (x < 0 ∧ ¬ m ∣ x) := by
  rw [Int.dvd_iff_tmod_eq_zero]
  rcases Int.le_total 0 x with h | h
  · have := Int.tmod_nonneg m h
    constructor
    · intro _ hh; omega
    · intro _; exact this
  · have := Int.tmod_nonneg m (show 0 ≤ -x by omega)
    rw [Int.neg_tmod] at this
    constructor
    · rintro h1 ⟨_, h3⟩; omega
    · intro hh
      by_cases hx : x < 0
      · by_contra hc
        exact hh ⟨hx, by omega⟩
      · have : x = 0 := by omega
        subst this
        simp

/-- Calls with the same byte and the same place in the byte do the same. -/
theorem drawPixelC_congr {g : Geom} (hg : g.Compiles) (img : List Byte) {x y x' y' : Int} (color : BitVec 32)
    (a1 : InInt (y * g.effW)) (a2 : InInt (y * g.effW + x)) (a3 : InInt ((y * g.effW + x) * g.depth))
    (b1 : InInt (y' * g.effW)) (b2 : InInt (y' * g.effW + x')) (b3 : InInt ((y' * g.effW + x') * g.depth))
    (ho : ((y * g.effW + x) * g.depth).tdiv 8 = ((y' * g.effW + x') * g.depth).tdiv 8)
    (hm : x.tmod (perByte g.depth) = x'.tmod (perByte g.depth)) :
    drawPixelC g img x y color = drawPixelC g img x' y' color := by
  unfold drawPixelC
  rw [chk_iff.2 ⟨a1, rfl⟩, chk_iff.2 ⟨b1, rfl⟩]; simp only [Res.bind_ok]
  rw [chk_iff.2 ⟨a2, rfl⟩, chk_iff.2 ⟨b2, rfl⟩]; simp only [Res.bind_ok]
  rw [chk_iff.2 ⟨a3, rfl⟩, chk_iff.2 ⟨b3, rfl⟩]; simp only [Res.bind_ok]
  rw [ho]
  unfold perByte at hm
  rcases hg.depth_ok with hd | hd | hd | hd | hd | hd | hd <;> rw [hd] at hm ⊢ <;>
    simp only [Nat.reduceEqDiff, if_false, if_true, OfNat.ofNat_ne_one] at hm ⊢ <;>
    rw [hm]

/-- The first byte of a pixel is in the image exactly for the numbers of pixels, and the ones just before. -/
theorem first_byte {g : Geom} (hg : g.Compiles) {img : List Byte} (hl : (img.length : Int) = g.bufSize) (x y : Int) :
    (0 ≤ ((y * g.effW + x) * g.depth).tdiv 8 ∧ ((y * g.effW + x) * g.depth).tdiv 8 < img.length) ↔
      0 ≤ drawnNo g x y ∧ drawnNo g x y < g.getWidth * g.getHeight := by
  have hb := bufSize_eq g
  have h8 : ∃ k, g.effW * g.height = 8 * k := ⟨(g.width * g.depth).tdiv 8 * g.height, by unfold Geom.effW; ring⟩
  rw [hl]
  unfold drawnNo perByte Geom.getWidth Geom.getHeight
  generalize g.bufSize = B at *
  generalize g.effW * g.height = N at *
  generalize y * g.effW + x = i at *
  obtain ⟨k, rfl⟩ := h8
  have ht := tdiv8 (i * g.depth)
  dsimp only
  rcases hg.depth_ok with hd | hd | hd | hd | hd | hd | hd <;> rw [hd] at hb ht ⊢ <;>
    simp only [Nat.reduceEqDiff, if_false, if_true, OfNat.ofNat_ne_one,
      Nat.cast_ofNat, Nat.cast_one] at hb ht ⊢ <;>
    split <;> omega

/-- **C144**: every call of `drawPixel` is undefined, or does the same as drawing one pixel of the screen. -/
theorem drawPixel_anywhere (g : Geom) (hg : g.Compiles) (hw : 0 ≤ g.getWidth) (img : List Byte)
    (hl : (img.length : Int) = g.bufSize) (x y : Int) (color : BitVec 32) :
    (PixelBad g x y → drawPixelC g img x y color = .ub) ∧
    (¬ PixelBad g x y → ∃ x' y', InRange g x' y' ∧ y' * g.getWidth + x' = drawnNo g x y ∧
      drawPixelC g img x y color = drawPixelC g img x' y' color) := by
  have hper : 0 < perByte g.depth := by unfold perByte; split <;> [skip; split <;> [skip; split]] <;> decide
  constructor
  · intro hbad
    cases hcall : drawPixelC g img x y color with
    | ub => rfl
    | hang => exact absurd hcall (drawPixelC_ends g img x y color)
    | ok img' =>
      exfalso
      obtain ⟨k1, k2, k3, k4, k5, k6⟩ := drawPixelC_first hg hcall
      rcases hbad with h | h | h | h | h
      · exact h k1
      · exact h k2
      · exact h k3
      · exact (tmod_neg_iff).1 k6 h
      · exact h ((first_byte hg hl x y).1 ⟨k4, k5⟩)
  · intro hok
    have k1 : InInt (y * g.effW) := by by_contra hb; exact hok (.inl hb)
    have k2 : InInt (y * g.effW + x) := by by_contra hb; exact hok (.inr (.inl hb))
    have k3 : InInt ((y * g.effW + x) * g.depth) := by by_contra hb; exact hok (.inr (.inr (.inl hb)))
    have k4 : 0 ≤ x.tmod (perByte g.depth) := (tmod_neg_iff).2 fun hb => hok (.inr (.inr (.inr (.inl hb))))
    have k5 : 0 ≤ drawnNo g x y ∧ drawnNo g x y < g.getWidth * g.getHeight := by
      by_contra hb; exact hok (.inr (.inr (.inr (.inr hb))))
    obtain ⟨p0, p1⟩ := k5
    have hw' : 0 < g.getWidth := by
      by_contra hc
      have : g.getWidth = 0 := by omega
      rw [this, Int.zero_mul] at p1
      omega
    have hdec := Int.emod_add_mul_ediv (drawnNo g x y) g.getWidth
    have hr : InRange g (drawnNo g x y % g.getWidth) (drawnNo g x y / g.getWidth) :=
      ⟨Int.emod_nonneg _ (by omega), Int.emod_lt_of_pos _ hw', Int.ediv_nonneg p0 (by omega),
        Int.ediv_lt_of_lt_mul hw' (by rw [Int.mul_comm]; exact p1)⟩
    have hidx : drawnNo g x y / g.getWidth * g.getWidth + drawnNo g x y % g.getWidth = drawnNo g x y := by
      linear_combination hdec
    refine ⟨_, _, hr, hidx, ?_⟩
    obtain ⟨W, hI⟩ := inRange_index hg hl hr
    have b1 := (chk_iff.1 hI.row_chk).1
    have b2 := (chk_iff.1 hI.idx_chk).1
    have b3 := (chk_iff.1 hI.bits_chk).1
    have bp := hI.p_eq
    rw [← bp] at b3
    have hW8 : ∃ q, g.effW = 8 * q := ⟨(g.width * g.depth).tdiv 8, by unfold Geom.effW; ring⟩
    refine drawPixelC_congr hg img color k1 k2 k3 b1 b2 b3 ?_ ?_
    · change _ = ((drawnNo g x y / g.getWidth * g.getWidth + drawnNo g x y % g.getWidth) * (g.depth : Int)).tdiv 8
      rw [hidx]
      revert p0
      have t2 := tdiv8 (drawnNo g x y * g.depth)
      revert t2
      unfold drawnNo perByte Geom.getWidth
      have t1 := tdiv8 ((y * g.effW + x) * g.depth)
      revert t1
      generalize y * g.effW + x = i
      clear * - hg
      dsimp only
      rcases hg.depth_ok with hd | hd | hd | hd | hd | hd | hd <;> rw [hd] <;>
        simp only [Nat.reduceEqDiff, if_false, if_true, OfNat.ofNat_ne_one,
          Nat.cast_ofNat, Nat.cast_one] <;>
        split <;> omega
    · have hx' : 0 ≤ (drawnNo g x y % g.getWidth).tmod (perByte g.depth) := Int.tmod_nonneg _ hr.x0
      obtain ⟨q, hq⟩ := hW8
      -- both remainders are those of the number
      have hdiv : perByte g.depth ∣ (x - drawnNo g x y % g.getWidth) := by
        have e8 : perByte g.depth ∣ 8 := by
          unfold perByte; split <;> [skip; split <;> [skip; split]] <;> decide
        have hW : perByte g.depth ∣ g.getWidth := by
          change _ ∣ g.effW
          rw [hq]; exact Dvd.dvd.mul_right e8 q
        have e2 : perByte g.depth ∣ (y * g.getWidth + x) - drawnNo g x y := by
          unfold drawnNo
          dsimp only
          split
          · exact ⟨-1, by ring⟩
          · exact ⟨0, by ring⟩
        have e3 : x - drawnNo g x y % g.getWidth = ((y * g.getWidth + x) - drawnNo g x y) +
            g.getWidth * (drawnNo g x y / g.getWidth - y) := by linear_combination -hdec
        rw [e3]
        exact Int.dvd_add e2 (Dvd.dvd.mul_right hW _)
      generalize drawnNo g x y % g.getWidth = x' at *
      generalize perByte g.depth = m at *
      obtain ⟨t, ht⟩ := hdiv
      have l1 := Int.tmod_lt_of_pos x hper
      have l2 := Int.tmod_lt_of_pos x' hper
      have f1 := Int.tmod_add_mul_tdiv x m
      have f2 := Int.tmod_add_mul_tdiv x' m
      have key : x.tmod m - x'.tmod m = m * (t - x.tdiv m + x'.tdiv m) := by linear_combination f1 - f2 + ht
      generalize t - x.tdiv m + x'.tdiv m = z at key
      have hz : z = 0 := by
        have u1 : m * z < m * 1 := by omega
        have u2 : m * (-1) < m * z := by omega
        have v1 := Int.lt_of_mul_lt_mul_left u1 (by omega)
        have v2 := Int.lt_of_mul_lt_mul_left u2 (by omega)
        omega
      rw [hz] at key
      omega

/-- On the screen itself nothing is undefined but what C25 says for two bits: the number is that of the pixel. -/
theorem inRange_fine (g : Geom) (hg : g.Compiles) (img : List Byte) (hl : (img.length : Int) = g.bufSize) (x y : Int)
    (hr : InRange g x y) : ¬ PixelBad g x y ∧ drawnNo g x y = y * g.getWidth + x := by
  obtain ⟨W, hI⟩ := inRange_index hg hl hr
  have hp := hI.p_eq
  have e : drawnNo g x y = y * g.getWidth + x := by
    unfold drawnNo Geom.getWidth
    dsimp only
    rw [if_neg (by omega)]
  refine ⟨?_, e⟩
  have hx := hr.x0
  have b3 := (chk_iff.1 hI.bits_chk).1
  rintro (h | h | h | h | h)
  · exact h (chk_iff.1 hI.row_chk).1
  · exact h (chk_iff.1 hI.idx_chk).1
  · refine h ?_
    change InInt ((y * g.effW + x) * (g.depth : Int))
    rw [hp]; rw [← Nat.cast_mul]; rw [(chk_iff.1 hI.bits_chk).2]; exact b3
  · omega
  · refine h ?_
    rw [e]
    have h1 := hr.x1
    have h2 := hr.y0
    have h3 := hr.y1
    constructor
    · change 0 ≤ y * g.effW + x
      omega
    · nlinarith

/-- **C144**: for every depth but 2 the calls which are not undefined change exactly the bits of the pixel `drawnNo`. -/
theorem drawPixel_anywhere_exact (g : Geom) (hg : g.Compiles) (hd : g.depth ≠ 2) (hw : 0 ≤ g.getWidth) (img : List Byte)
    (hl : (img.length : Int) = g.bufSize) (x y : Int) (color : BitVec 32) :
    (PixelBad g x y ∧ drawPixelC g img x y color = .ub) ∨
    (¬ PixelBad g x y ∧ ∃ img', drawPixelC g img x y color = .ok img' ∧ img'.length = img.length ∧
      ∀ i, i < 8 * img.length → imgBit img' i =
        if ((i / g.depth : Nat) : Int) = drawnNo g x y then some (colorBit g.depth color (i % g.depth))
        else imgBit img i) := by
  obtain ⟨h1, h2⟩ := drawPixel_anywhere g hg hw img hl x y color
  by_cases hbad : PixelBad g x y
  · exact .inl ⟨hbad, h1 hbad⟩
  · obtain ⟨x', y', hr, hn, he⟩ := h2 hbad
    obtain ⟨img', k1, k2, k3⟩ := drawPixel_exact g hg hd img hl x' y' hr color
    refine .inr ⟨hbad, img', he.trans k1, k2, ?_⟩
    intro i hi
    rw [k3 i hi]
    have e : (i / g.depth = pixelNo g x' y') ↔ (((i / g.depth : Nat) : Int) = drawnNo g x y) := by
      have hp : ((pixelNo g x' y' : Nat) : Int) = drawnNo g x y := by
        rw [← hn]
        unfold pixelNo
        have := hr.x0
        have := hr.y0
        have : 0 ≤ y' * g.getWidth := Int.mul_nonneg hr.y0 hw
        omega
      rw [← hp]
      omega
    simp only [e]

/-- Finding: with less than 8 bits for a pixel, drawing at the end of the row above the screen is not undefined, as a
position outside of the image might suggest, but draws the last pixel of the first byte. -/
theorem drawPixel_above (g : Geom) (hg : g.Compiles) (hd : g.depth = 1 ∨ g.depth = 4) (hw : 0 < g.getWidth)
    (hh : 0 < g.getHeight) (img : List Byte) (hl : (img.length : Int) = g.bufSize) (color : BitVec 32) :
    drawPixelC g img (g.getWidth - 1) (-1) color = drawPixelC g img (perByte g.depth - 1) 0 color ∧
      ∃ img', drawPixelC g img (g.getWidth - 1) (-1) color = .ok img' := by
  have hW8 : ∃ q, g.getWidth = 8 * q := ⟨(g.width * g.depth).tdiv 8, by unfold Geom.getWidth Geom.effW; ring⟩
  obtain ⟨q, hq⟩ := hW8
  have hi : -1 * g.getWidth + (g.getWidth - 1) = -1 := by ring
  have hp : 1 < perByte g.depth ∧ perByte g.depth ≤ 8 := by unfold perByte; rcases hd with hd | hd <;> rw [hd] <;> decide
  have hno : drawnNo g (g.getWidth - 1) (-1) = perByte g.depth - 1 := by
    unfold drawnNo
    dsimp only
    rw [hi, if_pos ⟨by omega, by omega⟩]
    omega
  have hr0 : InRange g (perByte g.depth - 1) 0 := ⟨by omega, by omega, by omega, hh⟩
  have hlast : InRange g (g.getWidth - 1) 0 := ⟨by omega, by omega, by omega, hh⟩
  have hint : InInt (g.getWidth - 1) := by
    obtain ⟨W, hI⟩ := inRange_index hg hl hlast
    have := (chk_iff.1 hI.idx_chk).1
    have e := hI.p_eq
    rw [Int.zero_mul, Int.zero_add] at e
    rw [e]
    have h2 := (chk_iff.1 hI.idx_chk).2
    omega
  have hgood : ¬ PixelBad g (g.getWidth - 1) (-1) := by
    have hm : g.getWidth * 1 ≤ g.getWidth * g.getHeight := Int.mul_le_mul_of_nonneg_left (by omega) (by omega)
    rintro (h | h | h | h | h)
    · exact h ⟨by have := hint.2; omega, by omega⟩
    · rw [hi] at h; exact h (by decide)
    · rw [hi] at h
      rcases hd with hd | hd <;> rw [hd] at h <;> exact h (by decide)
    · omega
    · rw [hno] at h
      exact h ⟨by omega, by omega⟩
  obtain ⟨x', y', hr, hn, he⟩ := (drawPixel_anywhere g hg (by omega) img hl _ _ color).2 hgood
  rw [hno] at hn
  have hy : y' = 0 := by
    have h0 := hr.x0
    have h1 := hr.y0
    by_contra hne
    have : 1 * g.getWidth ≤ y' * g.getWidth := Int.mul_le_mul_of_nonneg_right (by omega) (by omega)
    omega
  subst hy
  have hx : x' = perByte g.depth - 1 := by omega
  subst hx
  obtain ⟨img', k1, _⟩ := drawPixel_exact g hg (by omega) img hl _ _ hr color
  exact ⟨he, img', he.trans k1⟩

/-! ## Concrete cases -/

/-- With four bits for a pixel the position left of the first row's end is drawn on the screen, one further left is
undefined; a position behind a row is the begin of the next one. -/
example : drawPixelC ⟨4, 2, 4⟩ (List.replicate 16 0) 15 (-1) 7 = drawPixelC ⟨4, 2, 4⟩ (List.replicate 16 0) 1 0 7 ∧
    drawPixelC ⟨4, 2, 4⟩ (List.replicate 16 0) (-1) 0 7 = .ub ∧
    drawPixelC ⟨4, 2, 4⟩ (List.replicate 16 0) 16 0 7 = drawPixelC ⟨4, 2, 4⟩ (List.replicate 16 0) 0 1 7 := by decide

example : drawnNo ⟨4, 2, 4⟩ 15 (-1) = 1 ∧ ¬ PixelBad ⟨4, 2, 4⟩ 15 (-1) ∧ PixelBad ⟨4, 2, 4⟩ (-1) 0 := by
  unfold PixelBad; decide

end Verif.FrameBuffer
