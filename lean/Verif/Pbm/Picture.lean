import Verif.Pbm.Props
import Verif.Text.Picture
/-!
# C101: what the drawing tests decide

`tests/MonochromeFrameBufferTest.cpp` draws on a monochrome frame buffer and compares the image with a file.  The test
passes exactly if every pixel of the file is what the last command covering it made of it.
-/
namespace Verif.Pbm
open Verif.FrameBuffer Verif.Canvas Verif.Text

/-- `checkBuffer`, MonochromeFrameBufferTest.cpp:58-79: no assertion and no expectation fails.  `ASSERT_…` returns at
once; `&data[0]` (line 78) is undefined for an empty vector. -/
def checkBuffer (file : Option (List Byte)) (c : Canvas) (img : List Byte) : Res Bool := do
  match ← readPBM file with
  | none => .ok false
  | some (w, h, data) =>
    let dims := match c.rotate with
      | .r0 | .r180 => w == c.getSize.width && h == c.getSize.height
      | .r90 | .r270 => w == c.getSize.height && h == c.getSize.width
    if data.length ≠ img.length then .ok false
    else if data = [] then .ub
    else .ok (dims && data == img)

theorem pixel_bit (img : List Byte) (p : Nat) (h : p / 8 < img.length) :
    ∃ b, pixel? img p = some b ∧ FrameBuffer.pixel img 1 p = some b.toNat := by
  refine ⟨img[p / 8].getLsbD (7 - p % 8), by simp [pixel?, h], ?_⟩
  unfold FrameBuffer.pixel
  simp only [List.range_succ, List.range_zero, List.nil_append, List.foldl_cons, List.foldl_nil, Nat.mul_one, Nat.add_zero]
  rw [imgBit, List.getElem?_eq_getElem h]
  have : img[p / 8].getMsbD (p % 8) = img[p / 8].getLsbD (7 - p % 8) := by
    rw [BitVec.getMsbD]
    simp [show p % 8 < 8 by omega]
  simp [this]

/-- Images of the same length are equal if their pixels are. -/
theorem eq_of_pixels {a b : List Byte} (hl : a.length = b.length)
    (h : ∀ i, i < 8 * a.length → pixel? a i = pixel? b i) : a = b := by
  apply List.ext_getElem hl
  intro k hk hk'
  apply byte_ext
  intro j
  have e := h (8 * k + j) (by omega)
  simp only [pixel?, show (8 * k + j.val) / 8 = k by omega, show (8 * k + j.val) % 8 = j.val by omega,
    List.getElem?_eq_getElem hk, List.getElem?_eq_getElem hk', Option.map_some, Option.some.injEq] at e
  exact e

/-- The size of a monochrome image. -/
theorem mono_size {g : Geom} (hd : g.depth = 1) (hw : 0 ≤ g.getWidth) (hh : 0 ≤ g.getHeight) :
    g.bufSize = g.getWidth * g.getHeight / 8 ∧ g.getWidth * g.getHeight % 8 = 0 := by
  have he : g.getWidth = g.effW := rfl
  have hy : g.getHeight = g.height := rfl
  have h8 : g.effW % 8 = 0 := by unfold Geom.effW; omega
  constructor
  · unfold Geom.bufSize
    rw [hd, he, hy]
    simp only [Nat.cast_one, Int.mul_one]
    rw [Int.tdiv_eq_ediv_of_nonneg]
    rw [← he, ← hy]
    exact Int.mul_nonneg hw hh
  · rw [he, Int.mul_emod, h8]
    simp

/-- Without pixels there is nothing to take the address of. -/
theorem checkBuffer_empty (w h : Int) (file : Option (List Byte)) (c : Canvas) (hf : readPBM file = .ok (some (w, h, []))) :
    checkBuffer file c [] = .ub := by
  unfold checkBuffer; rw [hf]; rfl

/-- The comparison is the one of the dimensions and the pixels of the physical screen. -/
theorem checkBuffer_iff (file : Option (List Byte)) (c : Canvas) (g : Geom) (fb : FB) (hr : Ready c g fb)
    (hd : g.depth = 1) :
    checkBuffer file c fb.img = .ok true ↔
      ∃ data, readPBM file = .ok (some (g.getWidth, g.getHeight, data)) ∧
        ∀ x y : Nat, x < g.getWidth → y < g.getHeight →
          ∃ b, pixel? data (y * g.getWidth.toNat + x) = some b ∧ physPixel g fb ⟨x, y⟩ = some b.toNat := by
  obtain ⟨hsz, h8⟩ := mono_size hd hr.wlo hr.hlo
  have himg := hr.img
  -- a pixel of the screen is a pixel of the image
  obtain ⟨W, hW⟩ : ∃ W : Nat, g.getWidth = W := ⟨g.getWidth.toNat, by have := hr.wlo; omega⟩
  obtain ⟨H, hH⟩ : ∃ H : Nat, g.getHeight = H := ⟨g.getHeight.toNat, by have := hr.hlo; omega⟩
  have hlen : 8 * fb.img.length = W * H := by
    rw [hsz, hW, hH] at himg
    rw [hW, hH] at h8
    have : ((W * H : Nat) : Int) = W * H := by push_cast; rfl
    omega
  have hidx : ∀ x y : Nat, x < W → y < H → y * W + x < W * H := by
    intro x y hx hy
    calc y * W + x < y * W + W := by omega
      _ = (y + 1) * W := by ring
      _ ≤ H * W := Nat.mul_le_mul_right _ hy
      _ = W * H := Nat.mul_comm _ _
  have hno : ∀ x y : Nat, pixelNo g x y = y * W + x := by
    intro x y
    unfold pixelNo
    rw [hW]
    have : ((y * W + x : Nat) : Int) = y * W + x := by push_cast; rfl
    omega
  have hall : ∀ i, i < W * H → ∃ x y : Nat, x < W ∧ y < H ∧ i = y * W + x := by
    intro i hi
    have hW0 : 0 < W := by
      rcases Nat.eq_zero_or_pos W with h | h
      · rw [h] at hi; simp at hi
      · exact h
    refine ⟨i % W, i / W, Nat.mod_lt _ hW0, ?_, ?_⟩
    · exact Nat.div_lt_of_lt_mul hi
    · rw [Nat.mul_comm]; exact (Nat.div_add_mod i W).symm
  have hdims : ∀ w h : Int, ((match c.rotate with
      | .r0 | .r180 => w == c.getSize.width && h == c.getSize.height
      | .r90 | .r270 => w == c.getSize.height && h == c.getSize.width) = true) ↔ w = g.getWidth ∧ h = g.getHeight := by
    intro w h
    have e1 : c.size.width = g.getWidth := by rw [hr.size]
    have e2 : c.size.height = g.getHeight := by rw [hr.size]
    unfold Canvas.getSize
    cases c.rotate <;> simp [e1, e2]
  unfold checkBuffer
  constructor
  · intro h
    cases hp : readPBM file with
    | ub => rw [hp] at h; simp at h
    | hang => rw [hp] at h; simp at h
    | ok r =>
      rw [hp] at h
      cases r with
      | none => simp at h
      | some r =>
        obtain ⟨w, hh, data⟩ := r
        simp only [Res.bind_ok] at h
        split at h
        · simp at h
        · rename_i hne
          split at h
          · simp at h
          · rw [Res.ok.injEq, Bool.and_eq_true, hdims, beq_iff_eq] at h
            obtain ⟨⟨rfl, rfl⟩, rfl⟩ := h
            refine ⟨_, rfl, ?_⟩
            intro x y hx hy
            have := hidx x y (by omega) (by omega)
            obtain ⟨b, h1, h2⟩ := pixel_bit fb.img (y * W + x) (by omega)
            refine ⟨b, by rw [hW]; exact h1, ?_⟩
            unfold physPixel
            rw [hd]
            simp only [hno]
            exact h2
  · rintro ⟨data, hp, hpx⟩
    rw [hp]
    simp only [Res.bind_ok]
    cases file with
    | none => simp [readPBM] at hp
    | some s =>
      obtain ⟨-, -, -, hpos, hl, -⟩ := read_sound s _ _ data hp
      have hl' : data.length = fb.img.length := by
        rw [hl]
        unfold imageBytes
        rw [hW, hH]
        have : ((W * H : Nat) : Int) = W * H := by push_cast; rfl
        omega
      have heq : data = fb.img := by
        apply eq_of_pixels hl'
        intro i hi
        obtain ⟨x, y, hx, hy, rfl⟩ := hall i (by omega)
        obtain ⟨b, h1, h2⟩ := hpx x y (by omega) (by omega)
        rw [hW] at h1
        have h1' : pixel? data (y * W + x) = some b := h1
        obtain ⟨b', h3, h4⟩ := pixel_bit fb.img (y * W + x) (by omega)
        unfold physPixel at h2
        rw [hd] at h2
        simp only [hno] at h2
        rw [h2] at h4
        rw [h1', h3]
        cases b <;> cases b' <;> simp_all
      have hne : data ≠ [] := by
        intro h0
        rw [h0] at hl'
        simp only [List.length_nil] at hl'
        have : ((W * H : Nat) : Int) = W * H := by push_cast; rfl
        rw [hW, hH] at hpos
        omega
      rw [if_neg (by omega), if_neg hne, Res.ok.injEq, Bool.and_eq_true, hdims, beq_iff_eq]
      exact ⟨⟨rfl, rfl⟩, heq⟩

/-- **C101.** A drawing test — a new monochrome frame buffer, a new canvas, any drawing program, a comparison with a
file — passes exactly if the file is an image of the size of the frame buffer in which every pixel is what is seen of
the commands drawn: the value of the last one covering it. -/
theorem drawing_test_exact (signed : Bool) (g : Geom) (hg : g.Compiles) (hd : g.depth = 1)
    (hw : 0 ≤ g.getWidth ∧ g.getWidth ≤ 2 ^ 28) (hh : 0 ≤ g.getHeight ∧ g.getHeight ≤ 2 ^ 28) (mem : List Byte)
    (hm : (mem.length : Int) = g.bufSize) (cmds : List Cmd) (hv : ∀ cmd ∈ cmds, cmd.Valid signed) :
    ∃ fb c' fb', FB.new g mem = .ok fb ∧ execAll signed g (Canvas.new g) fb cmds = .ok (c', fb') ∧
      ∀ file, checkBuffer file c' fb'.img = .ok true ↔
        ∃ data, readPBM file = .ok (some (g.getWidth, g.getHeight, data)) ∧
          ∀ x y : Nat, x < g.getWidth → y < g.getHeight →
            ∃ b, pixel? data (y * g.getWidth.toNat + x) = some b ∧
              Seen ⟨x, y⟩ (physPixel g ⟨mem, 0⟩ ⟨x, y⟩) (layers signed g ⟨.r0, 1⟩ cmds) (some b.toNat) := by
  obtain ⟨fb, c', fb', h1, h2, h3, h5⟩ :=
    fresh_picture signed g hg (by omega) (by omega) hw hh mem hm cmds hv
  rw [show 2 ^ g.depth - 1 = 1 by rw [hd]; rfl] at h5
  refine ⟨fb, c', fb', h1, h2, ?_⟩
  intro file
  rw [checkBuffer_iff file c' g fb' h3 hd]
  have key : ∀ (x y : Nat) (b : Bool), x < g.getWidth → y < g.getHeight →
      (physPixel g fb' ⟨x, y⟩ = some b.toNat ↔
        Seen ⟨x, y⟩ (physPixel g ⟨mem, 0⟩ ⟨x, y⟩) (layers signed g ⟨.r0, 1⟩ cmds) (some b.toNat)) := by
    intro x y b hx hy
    have hs := h5 ⟨x, y⟩ ⟨by simp, hx, by simp, hy⟩
    constructor
    · intro e; rw [e] at hs; exact hs
    · intro e; exact seen_unique hs e
  constructor
  · rintro ⟨data, e, hp⟩
    refine ⟨data, e, fun x y hx hy => ?_⟩
    obtain ⟨b, e1, e2⟩ := hp x y hx hy
    exact ⟨b, e1, (key x y b hx hy).1 e2⟩
  · rintro ⟨data, e, hp⟩
    refine ⟨data, e, fun x y hx hy => ?_⟩
    obtain ⟨b, e1, e2⟩ := hp x y hx hy
    exact ⟨b, e1, (key x y b hx hy).2 e2⟩

/-- A test with a frame of 8 x 2 pixels: it passes with the right file, and fails with another pixel. -/
def tinyTest (file : List Byte) : Res Bool := do
  let fb ← FB.new ⟨8, 2, 1⟩ [0, 0]
  let (c, fb) ← execAll false ⟨8, 2, 1⟩ (Canvas.new ⟨8, 2, 1⟩) fb
    [.rotate .r180, .clear 0, .shape (.line ⟨0, 0⟩ ⟨2, 0⟩)]
  checkBuffer (some file) c fb.img

example : tinyTest b!"P1\n8 2\n00000000\n00000111\n" = .ok true := by decide +kernel
example : tinyTest b!"P1\n8 2\n00000000\n00001111\n" = .ok false := by decide +kernel
example : tinyTest b!"P1\n16 1\n0000000000000111\n" = .ok false := by decide +kernel

end Verif.Pbm
