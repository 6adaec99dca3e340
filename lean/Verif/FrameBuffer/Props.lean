import Verif.FrameBuffer.Lemmas
/-!
# C24-C28: the frame buffer
-/
namespace Verif.FrameBuffer

/-- A position inside the image, in terms of the size the buffer reports. -/
structure InRange (g : Geom) (x y : Int) : Prop where
  x0 : 0 ≤ x
  x1 : x < g.getWidth
  y0 : 0 ≤ y
  y1 : y < g.getHeight

/-- The number of the pixel at a position. -/
def pixelNo (g : Geom) (x y : Int) : Nat := (y * g.getWidth + x).toNat

theorem inRange_index {g : Geom} (hg : g.Compiles) {img : List Byte} (hl : (img.length : Int) = g.bufSize)
    {x y : Int} (hr : InRange g x y) : ∃ W, Index g img x y W (pixelNo g x y) := by
  obtain ⟨W, P, h⟩ := index_ok hg hl ⟨hr.x0, hr.x1⟩ ⟨hr.y0, hr.y1⟩
  have : pixelNo g x y = P := by
    have := h.p_eq
    unfold pixelNo Geom.getWidth; omega
  exact ⟨W, this ▸ h⟩

/-! ## C24 -/

/-- **C24**: for every depth but 2, drawing an in-range pixel completes without undefined behaviour
and every bit of the image is as before, except the bits of the addressed pixel, which are those of
the colour (most significant first). -/
theorem drawPixel_exact (g : Geom) (hg : g.Compiles) (hd : g.depth ≠ 2) (img : List Byte)
    (hl : (img.length : Int) = g.bufSize) (x y : Int) (hr : InRange g x y) (color : BitVec 32) :
    ∃ img', drawPixelC g img x y color = .ok img' ∧ img'.length = img.length ∧
      ∀ i, i < 8 * img.length →
        imgBit img' i = if i / g.depth = pixelNo g x y then some (colorBit g.depth color (i % g.depth))
          else imgBit img i := by
  obtain ⟨W, h⟩ := inRange_index hg hl hr
  obtain ⟨img', h1, h2⟩ := draw_index hg hd h color
  exact ⟨img', h1, h2.len, fun i hi => h2.bit i (by omega)⟩

private theorem pixel_congr {img img' : List Byte} {d p : Nat}
    (h : ∀ k, k < d → imgBit img' (p * d + k) = imgBit img (p * d + k)) : pixel img' d p = pixel img d p := by
  unfold pixel
  have : ∀ (ks : List Nat) (a : Option Nat), (∀ k ∈ ks, k < d) →
      ks.foldl (fun acc k => do let a ← acc; let b ← imgBit img' (p * d + k); some (2 * a + b.toNat)) a =
      ks.foldl (fun acc k => do let a ← acc; let b ← imgBit img (p * d + k); some (2 * a + b.toNat)) a := by
    intro ks
    induction ks with
    | nil => intros; rfl
    | cons k ks ih =>
      intro a hk
      simp only [List.mem_cons, forall_eq_or_imp] at hk
      simp only [List.foldl_cons, h k hk.1]
      exact ih _ hk.2
  exact this _ _ (fun k hk => List.mem_range.1 hk)

private theorem pixel_value {img : List Byte} {d p v : Nat} (hv : v < 2 ^ d)
    (h : ∀ k, k < d → imgBit img (p * d + k) = some (v.testBit (d - 1 - k))) : pixel img d p = some v := by
  unfold pixel
  have key : ∀ n, n ≤ d →
      (List.range n).foldl (fun acc k => do let a ← acc; let b ← imgBit img (p * d + k); some (2 * a + b.toNat))
        (some 0) = some (v / 2 ^ (d - n)) := by
    intro n
    induction n with
    | zero => intro _; simp [Nat.div_eq_of_lt hv]
    | succ n ih =>
      intro hn
      rw [List.range_succ, List.foldl_append, ih (by omega)]
      simp only [List.foldl_cons, List.foldl_nil, Option.bind_eq_bind, Option.bind_some, h n (by omega),
        Option.some.injEq]
      rw [show d - (n + 1) = d - 1 - n by omega, show d - n = (d - 1 - n) + 1 by omega, Nat.pow_succ,
        ← Nat.div_div_eq_div_mul, Nat.testBit_eq_decide_div_mod_eq]
      have := Nat.div_add_mod (v / 2 ^ (d - 1 - n)) 2
      rcases Nat.mod_two_eq_zero_or_one (v / 2 ^ (d - 1 - n)) with h0 | h0 <;> simp [h0] <;> omega
  have := key d (Nat.le_refl _)
  simpa using this

theorem pixel_of_bits {img : List Byte} {d p : Nat} (color : BitVec 32)
    (h : ∀ k, k < d → imgBit img (p * d + k) = some (colorBit d color k)) :
    pixel img d p = some (storedValue d color) := by
  by_cases h1 : d = 1
  · subst h1
    have := h 0 (by omega)
    have he : storedValue 1 color < 2 ^ 1 := by
      unfold storedValue
      rw [if_pos rfl]
      split <;> decide
    refine pixel_value he ?_
    intro k hk
    have : k = 0 := by omega
    subst this
    rw [h 0 (by omega)]
    unfold colorBit storedValue
    rw [if_pos rfl, if_pos rfl]
    by_cases hc : color = 0
    · rw [if_pos hc]; simp [hc]
    · rw [if_neg hc]; simp only [ne_eq, hc, not_false_eq_true, decide_true]; rfl
  · have he : storedValue d color = color.toNat % 2 ^ d := if_neg h1
    refine pixel_value (by rw [he]; exact Nat.mod_lt _ (Nat.two_pow_pos _)) ?_
    intro k hk
    rw [h k hk, colorBit_deep h1, he, Nat.testBit_mod_two_pow]
    simp only [BitVec.getLsbD]
    have : d - 1 - k < d := by omega
    simp [this]

/-- **C24**, pixel by pixel: the addressed pixel reads the colour, every other pixel reads as
before. -/
theorem drawPixel_pixels (g : Geom) (hg : g.Compiles) (hd : g.depth ≠ 2) (img : List Byte)
    (hl : (img.length : Int) = g.bufSize) (x y : Int) (hr : InRange g x y) (color : BitVec 32) :
    ∃ img', drawPixelC g img x y color = .ok img' ∧
      pixel img' g.depth (pixelNo g x y) = some (storedValue g.depth color) ∧
      ∀ x' y', InRange g x' y' → (x', y') ≠ (x, y) →
        pixel img' g.depth (pixelNo g x' y') = pixel img g.depth (pixelNo g x' y') := by
  obtain ⟨W, h⟩ := inRange_index hg hl hr
  have hD : 0 < g.depth := by rcases hg.depth_ok with h | h | h | h | h | h | h <;> omega
  obtain ⟨img', h1, h2, h3⟩ := drawPixel_exact g hg hd img hl x y hr color
  refine ⟨img', h1, ?_, ?_⟩
  · apply pixel_of_bits
    intro k hk
    have hlast := h.last
    rw [Nat.add_mul, Nat.one_mul] at hlast
    rw [h3 _ (by omega), if_pos]
    · congr 2
      rw [Nat.add_comm, Nat.add_mul_mod_self_right, Nat.mod_eq_of_lt hk]
    · rw [Nat.add_comm, Nat.add_mul_div_right _ _ hD, Nat.div_eq_of_lt hk, Nat.zero_add]
  · intro x' y' hr' hne
    obtain ⟨W', h'⟩ := inRange_index hg hl hr'
    apply pixel_congr
    intro k hk
    have hlast := h'.last
    rw [Nat.add_mul, Nat.one_mul] at hlast
    rw [h3 _ (by omega), if_neg]
    rw [Nat.add_comm, Nat.add_mul_div_right _ _ hD, Nat.div_eq_of_lt hk, Nat.zero_add]
    -- the numbering is injective
    intro he
    apply hne
    have e1 := h.p_eq
    have e2 := h'.p_eq
    have hx := hr.x1; have hx0 := hr.x0; have hy0 := hr.y0
    have hx' := hr'.x1; have hx0' := hr'.x0; have hy0' := hr'.y0
    unfold Geom.getWidth at hx hx'
    rw [he] at e2
    have hW : 0 < g.effW := by omega
    have e3 : y * g.effW + x = y' * g.effW + x' := by omega
    have d1 : (y * g.effW + x) / g.effW = y := by
      rw [Int.add_comm, Int.add_mul_ediv_right _ _ (by omega), Int.ediv_eq_zero_of_lt hx0 hx, Int.zero_add]
    have d2 : (y' * g.effW + x') / g.effW = y' := by
      rw [Int.add_comm, Int.add_mul_ediv_right _ _ (by omega), Int.ediv_eq_zero_of_lt hx0' hx', Int.zero_add]
    have hy : y = y' := by rw [← d1, ← d2, e3]
    subst hy
    exact Prod.ext (by simp only; omega) rfl

/-- Decision procedure for the side conditions of a concrete geometry. -/
theorem compiles_8x4_16 : (⟨8, 4, 16⟩ : Geom).Compiles := by
  constructor <;> decide

theorem compiles_200x200_1 : (⟨200, 200, 1⟩ : Geom).Compiles := by
  constructor <;> decide

example : InRange ⟨8, 4, 16⟩ 5 3 ∧ (⟨8, 4, 16⟩ : Geom).bufSize = 1024 := ⟨by constructor <;> decide, by decide⟩
example : InRange ⟨200, 200, 1⟩ 199 100 ∧ (⟨200, 200, 1⟩ : Geom).bufSize = 5000 := ⟨by constructor <;> decide, by decide⟩
example : drawPixelC ⟨8, 2, 1⟩ [0x0F, 0xFF] 2 1 0 = .ok [0x0F, 0xDF] := by decide

/-! ## C25 -/

private theorem byte_two (b : Byte) (c : BitVec 32) (r : Nat) (hr : r < 2) (j : Nat) (hj : j < 8) :
    ((b &&& ~~~((0xC0 : Byte) >>> (r * 2))) ||| ((c &&& 3) <<< (2 - r * 2)).truncate 8).getMsbD j =
      (if j / 2 = r then false else if j / 2 = r + 2 then b.getMsbD j || c.getLsbD (1 - j % 2)
       else b.getMsbD j) := by
  have h1 : r = 0 ∨ r = 1 := by omega
  have h2 : j = 0 ∨ j = 1 ∨ j = 2 ∨ j = 3 ∨ j = 4 ∨ j = 5 ∨ j = 6 ∨ j = 7 := by omega
  rcases h1 with rfl | rfl <;> rcases h2 with rfl | rfl | rfl | rfl | rfl | rfl | rfl | rfl <;>
    simp [BitVec.getMsbD]

/-- **C25** is false: in every 2-bit buffer, drawing in columns 2 and 3 of each group of four is
undefined behaviour (negative shift count). -/
theorem depth2_negative_shift (g : Geom) (hg : g.Compiles) (hd : g.depth = 2) (img : List Byte)
    (hl : (img.length : Int) = g.bufSize) (x y : Int) (hr : InRange g x y) (hx : 2 ≤ x % 4)
    (color : BitVec 32) : drawPixelC g img x y color = .ub := by
  obtain ⟨W, h⟩ := inRange_index hg hl hr
  have hx0 := hr.x0
  have htm : x.tmod 4 = x % 4 := by rw [Int.tmod_eq_emod_of_nonneg hx0]
  unfold drawPixelC
  rw [h.row_chk]; simp only [Res.bind_ok]
  rw [h.idx_chk]; simp only [Res.bind_ok]
  rw [h.bits_chk]; simp only [Res.bind_ok]
  rw [if_neg (by omega), if_pos hd, htm]
  have hs2 : shiftCount (2 - x % 4 * 2) = .ub := by rw [shiftCount, if_neg (by omega)]
  rw [hs2]
  rw [shiftCount, if_pos (by omega)]
  simp only [Res.bind_ok, Res.bind_ub]
  unfold upd
  split
  · split <;> rfl
  · rfl

/-- **C25** is false: in the other two columns the pixel always becomes 0, whatever the colour, and the
colour is or-ed into the pixel two columns to the right. -/
theorem depth2_wrong_pixel (g : Geom) (hg : g.Compiles) (hd : g.depth = 2) (img : List Byte)
    (hl : (img.length : Int) = g.bufSize) (x y : Int) (hr : InRange g x y) (hx : x % 4 < 2)
    (color : BitVec 32) :
    ∃ img', drawPixelC g img x y color = .ok img' ∧ img'.length = img.length ∧
      pixel img' 2 (pixelNo g x y) = some 0 ∧
      ∀ i, i < 8 * img.length → imgBit img' i =
        if i / 2 = pixelNo g x y then some false
        else if i / 2 = pixelNo g x y + 2 then (imgBit img i).map (fun b => b || color.getLsbD (1 - i % 2))
        else imgBit img i := by
  obtain ⟨W, h⟩ := inRange_index hg hl hr
  generalize pixelNo g x y = P at h ⊢
  have hlast := h.last
  rw [hd] at hlast
  have hx0 := hr.x0
  have hk : P / 4 < img.length := by omega
  have hx8 := h.xmod8
  have hx4 : x.toNat % 4 = P % 4 := by omega
  have hxr : P % 4 < 2 := by omega
  suffices hmain : ∃ img', drawPixelC g img x y color = .ok img' ∧ img'.length = img.length ∧
      ∀ i, i < 8 * img.length → imgBit img' i =
        if i / 2 = P then some false
        else if i / 2 = P + 2 then (imgBit img i).map (fun b => b || color.getLsbD (1 - i % 2))
        else imgBit img i by
    obtain ⟨img', h1, h2, h3⟩ := hmain
    refine ⟨img', h1, h2, ?_, h3⟩
    apply pixel_value (by decide)
    intro k hk
    rw [h3 _ (by omega), if_pos (by omega)]
    simp
  unfold drawPixelC
  rw [h.row_chk]; simp only [Res.bind_ok]
  rw [h.idx_chk]; simp only [Res.bind_ok]
  rw [h.bits_chk]; simp only [Res.bind_ok]
  have htm : x.tmod 4 = ((P % 4 : Nat) : Int) := by
    rw [h.x_nat, ← hx4]; rfl
  rw [if_neg (by omega), if_pos hd, htm]
  have s1 : shiftCount (((P % 4 : Nat) : Int) * 2) = .ok (P % 4 * 2) := by
    rw [shiftCount, if_pos (by omega)]; congr 1
  have s2 : shiftCount (2 - ((P % 4 : Nat) : Int) * 2) = .ok (2 - P % 4 * 2) := by
    rw [shiftCount, if_pos (by omega)]; congr 1; omega
  have ho : ((P * g.depth : Nat) : Int).tdiv 8 = ((P / 4 : Nat) : Int) := by
    rw [hd, show ((P / 4 : Nat) : Int) = ((P * 2 / 8 : Nat) : Int) by congr 1; omega]; rfl
  rw [s1, s2, ho]
  simp only [Res.bind_ok]
  rw [upd_ok hk]
  simp only [Res.bind_ok]
  rw [upd_ok (by simpa using hk)]
  refine ⟨_, rfl, by simp, ?_⟩
  intro i hi
  simp only [List.set_set, List.getElem_set_self]
  rw [imgBit_set _ _ _ hk]
  have hj : i % 8 < 8 := Nat.mod_lt _ (by decide)
  have hi8 : i / 8 < img.length := by omega
  by_cases hb : i / 8 = P / 4
  · rw [if_pos hb, byte_two _ _ _ hxr _ hj, imgBit_some hi8]
    simp only [hb]
    by_cases h0 : i % 8 / 2 = P % 4
    · rw [if_pos h0, if_pos (by omega)]
    · rw [if_neg h0, if_neg (show ¬ i / 2 = P by omega)]
      by_cases h2 : i % 8 / 2 = P % 4 + 2
      · rw [if_pos h2, if_pos (by omega), show i % 8 % 2 = i % 2 by omega]; rfl
      · rw [if_neg h2, if_neg (by omega)]
  · rw [if_neg hb, if_neg (by omega), if_neg (by omega)]

/-- **C25**, what holds: a 2-bit pixel is drawn as C24 demands exactly in the first two columns of each group of four and
with a colour whose two bits are 0. -/
theorem depth2_exact_partial (g : Geom) (hg : g.Compiles) (hd : g.depth = 2) (img : List Byte)
    (hl : (img.length : Int) = g.bufSize) (x y : Int) (hr : InRange g x y) (color : BitVec 32) :
    (∃ img', drawPixelC g img x y color = .ok img' ∧ img'.length = img.length ∧
      ∀ i, i < 8 * img.length → imgBit img' i =
        if i / 2 = pixelNo g x y then some (colorBit 2 color (i % 2)) else imgBit img i) ↔
    x % 4 < 2 ∧ color.toNat % 4 = 0 := by
  have hbits : color.toNat % 4 = 0 ↔ ∀ k < 2, colorBit 2 color k = false := by
    have hb : ∀ k, colorBit 2 color k = decide (color.toNat / 2 ^ (2 - 1 - k) % 2 = 1) := fun k => by
      rw [colorBit, if_neg (by decide), BitVec.getLsbD, Nat.testBit_eq_decide_div_mod_eq]
    simp only [hb, decide_eq_false_iff_not]
    constructor
    · intro h k hk
      have : k = 0 ∨ k = 1 := by omega
      rcases this with rfl | rfl <;> simp only [Nat.reduceSub, Nat.reducePow] <;> omega
    · intro h
      have h0 := h 0 (by omega)
      have h1 := h 1 (by omega)
      simp only [Nat.reduceSub, Nat.reducePow] at h0 h1
      omega
  obtain ⟨W, hix⟩ := inRange_index hg hl hr
  have hlast := hix.last
  rw [hd] at hlast
  constructor
  · rintro ⟨img', h1, -, h3⟩
    by_cases hx : x % 4 < 2
    · refine ⟨hx, hbits.2 fun k hk => ?_⟩
      obtain ⟨img2, k1, -, -, k4⟩ := depth2_wrong_pixel g hg hd img hl x y hr hx color
      rw [h1] at k1
      cases k1
      have e1 := h3 (2 * pixelNo g x y + k) (by omega)
      have e2 := k4 (2 * pixelNo g x y + k) (by omega)
      rw [e1, if_pos (by omega), if_pos (by omega), show (2 * pixelNo g x y + k) % 2 = k by omega] at e2
      exact Option.some.inj e2
    · rw [depth2_negative_shift g hg hd img hl x y hr (by omega) color] at h1
      cases h1
  · rintro ⟨hx, hc⟩
    obtain ⟨img2, k1, k2, -, k4⟩ := depth2_wrong_pixel g hg hd img hl x y hr hx color
    refine ⟨img2, k1, k2, fun i hi => ?_⟩
    rw [k4 i hi]
    split
    · rw [hbits.1 hc _ (by omega)]
    · split
      · have := hbits.1 hc (i % 2) (by omega)
        simp only [colorBit, if_neg (show ¬ (2 = 1) by decide)] at this
        rw [this]
        cases imgBit img i <;> simp
      · rfl

theorem compiles_8x1_2 : (⟨8, 1, 2⟩ : Geom).Compiles := by constructor <;> decide

/-- Drawing colour 3 at (0,0) of an empty image colours (2,0) instead. -/
theorem depth2_witness : drawPixelC ⟨8, 1, 2⟩ [0, 0, 0, 0] 0 0 3 = .ok [0x0C, 0, 0, 0] ∧
    drawPixelC ⟨8, 1, 2⟩ [0, 0, 0, 0] 3 0 3 = .ub := by decide

example : drawPixelC ⟨8, 1, 2⟩ [0xFF, 0, 0, 0] 1 0 4 = .ok [0xCF, 0, 0, 0] := by decide

/-! ## C26 -/

/-- Drawing a list of in-range pixels. -/
def drawAllC (g : Geom) (color : BitVec 32) : List Byte → List (Int × Int) → Res (List Byte)
  | img, [] => .ok img
  | img, (x, y) :: ps => do
    let img' ← drawPixelC g img x y color
    drawAllC g color img' ps

theorem drawAllC_append (g : Geom) (color : BitVec 32) (img : List Byte) (ps qs : List (Int × Int)) :
    drawAllC g color img (ps ++ qs) = (drawAllC g color img ps >>= fun i => drawAllC g color i qs) := by
  induction ps generalizing img with
  | nil => rfl
  | cons p ps ih =>
    obtain ⟨x, y⟩ := p
    simp only [List.cons_append, drawAllC]
    cases drawPixelC g img x y color with
    | ok v => simp only [Res.bind_ok]; exact ih v
    | ub => rfl
    | hang => rfl

/-- Drawing in-range pixels sets exactly these pixels. -/
theorem drawAllC_exact (g : Geom) (hg : g.Compiles) (hd : g.depth ≠ 2) (color : BitVec 32) (img : List Byte)
    (hl : (img.length : Int) = g.bufSize) (ps : List (Int × Int)) (hr : ∀ p ∈ ps, InRange g p.1 p.2) :
    ∃ img', drawAllC g color img ps = .ok img' ∧ img'.length = img.length ∧
      ∀ i, i < 8 * img.length →
        imgBit img' i = if (∃ p ∈ ps, i / g.depth = pixelNo g p.1 p.2)
          then some (colorBit g.depth color (i % g.depth)) else imgBit img i := by
  induction ps generalizing img with
  | nil => exact ⟨img, rfl, rfl, by intro i _; simp⟩
  | cons p ps ih =>
    simp only [List.mem_cons, forall_eq_or_imp] at hr
    obtain ⟨img1, h1, h2, h3⟩ := drawPixel_exact g hg hd img hl p.1 p.2 hr.1 color
    obtain ⟨img2, e1, e2, e3⟩ := ih img1 (by rw [h2]; exact hl) hr.2
    refine ⟨img2, by simp only [drawAllC, h1, Res.bind_ok]; exact e1, e2.trans h2, ?_⟩
    intro i hi
    rw [e3 i (by rw [h2]; exact hi), h3 i hi]
    by_cases ha : ∃ q ∈ ps, i / g.depth = pixelNo g q.1 q.2
    · rw [if_pos ha, if_pos]
      obtain ⟨q, hq, he⟩ := ha
      exact ⟨q, List.mem_cons_of_mem _ hq, he⟩
    · rw [if_neg ha]
      by_cases hb : i / g.depth = pixelNo g p.1 p.2
      · rw [if_pos hb, if_pos ⟨p, List.mem_cons_self, hb⟩]
      · rw [if_neg hb, if_neg]
        rintro ⟨q, hq, he⟩
        rcases List.mem_cons.1 hq with rfl | hq
        · exact hb he
        · exact ha ⟨q, hq, he⟩

private theorem clearCol_eq (g : Geom) (color : BitVec 32) (x : Int) (img : List Byte) (y : Int) (n : Nat) :
    clearCol g color x img y n = drawAllC g color img ((List.range n).map fun (k : Nat) => (x, y + k)) := by
  induction n generalizing img y with
  | zero => rfl
  | succ n ih =>
    rw [List.range_succ_eq_map]
    simp only [List.map_cons, List.map_map, clearCol, drawAllC, Int.natCast_zero, Int.add_zero]
    congr 1
    funext i
    rw [ih]
    congr 1
    apply List.map_congr_left
    intro k _
    simp only [Function.comp]
    push_cast
    congr 1; omega

private theorem clearRows_eq (g : Geom) (color : BitVec 32) (img : List Byte) (x : Int) (n : Nat) :
    clearRows g color img x n = drawAllC g color img
      ((List.range n).flatMap fun (j : Nat) => (List.range g.height.toNat).map fun (k : Nat) => (x + (j : Int), (k : Int))) := by
  induction n generalizing img x with
  | zero => rfl
  | succ n ih =>
    rw [List.range_succ_eq_map]
    simp only [List.flatMap_cons, clearRows]
    rw [drawAllC_append, clearCol_eq]
    simp only [Int.natCast_zero, Int.add_zero, Int.zero_add, List.flatMap_map]
    congr 1
    funext i
    rw [ih]
    congr 1
    congr 1
    funext j
    apply List.map_congr_left
    intro k _
    push_cast
    congr 1; omega

/-- The buffer has exactly as many bits as its pixels need. -/
theorem bufSize_eq (g : Geom) : 8 * g.bufSize = g.effW * g.height * g.depth := by
  unfold Geom.bufSize
  have : g.effW * g.height * g.depth = (g.width * g.depth).tdiv 8 * g.height * g.depth * 8 := by
    unfold Geom.effW; ring
  rw [this, Int.mul_tdiv_cancel _ (by decide)]; ring

/-- **C26**: after `clear(color)` every pixel of the image — hence every bit — is that of the colour,
whatever the image held, without undefined behaviour; the selected colour is untouched. -/
theorem clear_fills (g : Geom) (hg : g.Compiles) (hd : g.depth ≠ 2) (hh : 0 ≤ g.height) (fb : FB)
    (hl : (fb.img.length : Int) = g.bufSize) (color : BitVec 32) :
    ∃ fb', fb.clear g color = .ok fb' ∧ fb'.img.length = fb.img.length ∧ fb'.sel = fb.sel ∧
      (∀ i, i < 8 * fb.img.length → imgBit fb'.img i = some (colorBit g.depth color (i % g.depth))) ∧
      ∀ x y, InRange g x y → pixel fb'.img g.depth (pixelNo g x y) = some (storedValue g.depth color) := by
  have hD : 0 < g.depth := by rcases hg.depth_ok with h | h | h | h | h | h | h <;> omega
  have hrr : ∀ p ∈ ((List.range g.effW.toNat).flatMap fun (j : Nat) =>
      (List.range g.height.toNat).map fun (k : Nat) => ((0 : Int) + (j : Int), (k : Int))), InRange g p.1 p.2 := by
    intro p hp
    simp only [List.mem_flatMap, List.mem_map, List.mem_range] at hp
    obtain ⟨j, hj, k, hk, rfl⟩ := hp
    constructor <;> (simp only [Geom.getWidth, Geom.getHeight]; omega)
  obtain ⟨img', h1, h2, h3⟩ := drawAllC_exact g hg hd color fb.img hl _ hrr
  rw [← clearRows_eq] at h1
  have hbits : ∀ i, i < 8 * fb.img.length → imgBit img' i = some (colorBit g.depth color (i % g.depth)) := by
    intro i hi
    rw [h3 i hi, if_pos]
    have htot := bufSize_eq g
    have hpos : 0 < g.effW * g.height * g.depth := by rw [← htot]; omega
    have hh0 : 0 < g.height := by
      rcases Int.lt_or_eq_of_le hh with h | h
      · exact h
      · rw [← h] at hpos; simp at hpos
    obtain ⟨H, hH⟩ := Int.eq_ofNat_of_zero_le hh
    have hw : 0 < g.effW := by
      by_contra hc
      have h1 : g.effW * g.height ≤ 0 := Int.mul_nonpos_of_nonpos_of_nonneg (by omega) hh
      have h2 : g.effW * g.height * g.depth ≤ 0 := Int.mul_nonpos_of_nonpos_of_nonneg h1 (by omega)
      omega
    obtain ⟨W, hW⟩ := Int.eq_ofNat_of_zero_le (Int.le_of_lt hw)
    have hlen : 8 * fb.img.length = W * H * g.depth := by
      have : ((8 * fb.img.length : Nat) : Int) = ((W * H * g.depth : Nat) : Int) := by
        push_cast; rw [hl, htot, hW, hH]
      exact_mod_cast this
    rw [hlen] at hi
    have hW0 : 0 < W := by omega
    have hp : i / g.depth < W * H := by rwa [Nat.div_lt_iff_lt_mul hD]
    refine ⟨(((i / g.depth % W : Nat) : Int), ((i / g.depth / W : Nat) : Int)), ?_, ?_⟩
    · simp only [List.mem_flatMap, List.mem_map, List.mem_range]
      refine ⟨i / g.depth % W, ?_, i / g.depth / W, ?_, by simp⟩
      · rw [hW]; exact Nat.mod_lt _ hW0
      · rw [hH]; exact Nat.div_lt_of_lt_mul hp
    · unfold pixelNo Geom.getWidth
      rw [hW]
      have := Nat.div_add_mod (i / g.depth) W
      have e : ((i / g.depth / W : Nat) : Int) * ((W : Nat) : Int) + ((i / g.depth % W : Nat) : Int) =
          ((i / g.depth : Nat) : Int) := by
        rw [← Int.natCast_mul, ← Int.natCast_add, Nat.mul_comm, this]
      simp only
      rw [e, Int.toNat_natCast]
  refine ⟨⟨img', fb.sel⟩, by simp [FB.clear, h1], h2, rfl, hbits, ?_⟩
  intro x y hr
  obtain ⟨W, h⟩ := inRange_index hg hl hr
  apply pixel_of_bits
  intro k hk
  have hlast := h.last
  rw [Nat.add_mul, Nat.one_mul] at hlast
  rw [hbits _ (by omega), Nat.add_comm, Nat.add_mul_mod_self_right, Nat.mod_eq_of_lt hk]

example : (⟨8, 2, 4⟩ : Geom).Compiles ∧
    (FB.clear ⟨2, 2, 4⟩ ⟨List.replicate 8 0x5A, 0⟩ 0x123).isOk = true := by
  refine ⟨by constructor <;> decide, by decide⟩

/-- For depth 2 `clear` of an image which is not empty is undefined behaviour, as it draws in every column (C25). -/
theorem clear_depth2_ub (g : Geom) (hg : g.Compiles) (hd : g.depth = 2) (hh : 0 ≤ g.height) (fb : FB)
    (hl : (fb.img.length : Int) = g.bufSize) (hne : fb.img ≠ []) (color : BitVec 32) : fb.clear g color = .ub := by
  have hlen : 0 < fb.img.length := List.length_pos_iff.2 hne
  have htot := bufSize_eq g
  have hpos : 0 < g.effW * g.height * g.depth := by rw [← htot]; omega
  have hh0 : 0 < g.height := by
    rcases Int.lt_or_eq_of_le hh with h | h
    · exact h
    · rw [← h] at hpos; simp at hpos
  have hw : 0 < g.effW := by
    by_contra hc
    have h1 : g.effW * g.height ≤ 0 := Int.mul_nonpos_of_nonpos_of_nonneg (by omega) hh
    have h2 : g.effW * g.height * g.depth ≤ 0 := Int.mul_nonpos_of_nonpos_of_nonneg h1 (by omega)
    omega
  have hw8 : 8 ≤ g.effW := by
    have : g.effW = (g.width * g.depth).tdiv 8 * 8 := rfl
    omega
  have hcol : ∀ (x : Int), 0 ≤ x → x < 2 → ∀ (n : Nat) (y : Int) (img : List Byte), 0 ≤ y → y + n ≤ g.height →
      (img.length : Int) = g.bufSize → ∃ img', clearCol g color x img y n = .ok img' ∧ (img'.length : Int) = g.bufSize := by
    intro x hx0 hx2 n
    induction n with
    | zero => intro y img _ _ hi; exact ⟨img, rfl, hi⟩
    | succ n ih =>
      intro y img hy hyn hi
      obtain ⟨img1, h1, h2, -⟩ := depth2_wrong_pixel g hg hd img hi x y
        ⟨by omega, show _ < g.effW by omega, by omega, show _ < g.height by omega⟩ (by omega) color
      obtain ⟨img2, h3, h4⟩ := ih (y + 1) img1 (by omega) (by omega) (by rw [h2]; exact hi)
      exact ⟨img2, by simp [clearCol, h1, h3], h4⟩
  obtain ⟨H, hH⟩ : ∃ H : Nat, g.height.toNat = H + 1 := ⟨g.height.toNat - 1, by omega⟩
  obtain ⟨W, hW⟩ : ∃ W : Nat, g.effW.toNat = W + 1 + 1 + 1 := ⟨g.effW.toNat - 3, by omega⟩
  obtain ⟨i0, a1, a2⟩ := hcol 0 (by omega) (by omega) g.height.toNat 0 fb.img (by omega) (by omega) hl
  obtain ⟨i1, b1, b2⟩ := hcol (0 + 1) (by omega) (by omega) g.height.toNat 0 i0 (by omega) (by omega) a2
  have hub : clearCol g color (0 + 1 + 1) i1 0 g.height.toNat = .ub := by
    rw [hH, clearCol, depth2_negative_shift g hg hd i1 b2 (0 + 1 + 1) 0
      ⟨by omega, show _ < g.effW by omega, by omega, show _ < g.height by omega⟩ (by omega) color]
    rfl
  unfold FB.clear
  rw [hW]
  simp only [clearRows, a1, b1, hub, Res.bind_ok, Res.bind_ub]

example : (⟨8, 2, 2⟩ : Geom).Compiles ∧ (⟨8, 2, 2⟩ : Geom).bufSize = 8 := by
  refine ⟨by constructor <;> decide, by decide⟩

/-! ## C27 -/

/-- **C27**, the part that holds: depth 1. -/
theorem dims_depth1_partial (g : Geom) (hg : g.Compiles) (hd : g.depth = 1) :
    g.getWidth = g.width ∧ g.getHeight = g.height ∧ 8 * g.bufSize = g.width * g.height * g.depth := by
  have ha := hg.align
  rw [hd] at ha
  simp only [Nat.reduceEqDiff, if_false, Nat.sub_self, Int.pow_zero, Int.mul_one] at ha
  have hw : g.effW = g.width := by
    unfold Geom.effW
    rw [hd]
    have := Int.mul_tdiv_add_tmod g.width 8
    rw [Int.natCast_one, Int.mul_one]
    omega
  exact ⟨hw, rfl, by rw [bufSize_eq, hw]⟩

/-- **C27** is false of deeper buffers: the reported width is the declared one times the depth (for
depth 4: of the declared width rounded down to an even number).  The number of bytes is
correspondingly too large. -/
theorem dims_deep (g : Geom) (hg : g.Compiles) (hw : 0 < g.width) (hd : g.depth ≠ 1) :
    g.getWidth = (if g.depth = 4 then 8 * (g.width / 2) else g.width * g.depth) ∧
    (1 < g.width ∨ g.depth ≠ 4 → g.getWidth ≠ g.width) ∧
    8 * g.bufSize = g.getWidth * g.height * g.depth := by
  have ha := hg.align
  have key : g.getWidth = (if g.depth = 4 then 8 * (g.width / 2) else g.width * g.depth) := by
    unfold Geom.getWidth Geom.effW
    rcases hg.depth_ok with h | h | h | h | h | h | h
    · exact absurd h hd
    · rw [h] at ha ⊢
      simp only [Nat.reduceEqDiff, if_false] at ha ⊢
      norm_num at ha
      rw [Int.tdiv_eq_ediv_of_nonneg (by push_cast; omega)]
      rw [Int.tmod_eq_emod_of_nonneg (by omega)] at ha
      push_cast
      omega
    all_goals
      rw [h]
      simp only [Nat.reduceEqDiff, if_false, if_true]
      rw [Int.tdiv_eq_ediv_of_nonneg (by push_cast; omega)]
      push_cast
      omega
  refine ⟨key, ?_, bufSize_eq g⟩
  intro hor
  rw [key]
  rcases hg.depth_ok with h | h | h | h | h | h | h
  · exact absurd h hd
  all_goals
    rw [h] at hor ⊢
    simp only [Nat.reduceEqDiff, if_false, if_true, ne_eq, not_true_eq_false, or_false] at hor ⊢
    push_cast
    omega

example : (⟨200, 100, 16⟩ : Geom).Compiles ∧ (⟨200, 100, 16⟩ : Geom).getWidth = 3200 := by
  refine ⟨by constructor <;> decide, by decide⟩

/-! ## C28 -/

/-- **C28**: for every instantiation that compiles, the index arithmetic of an in-range pixel stays in
`int` and all bytes of the pixel lie inside the image. -/
theorem index_in_bounds (g : Geom) (hg : g.Compiles) (x y : Int) (hr : InRange g x y) :
    InInt (y * g.effW) ∧ InInt (y * g.effW + x) ∧ InInt ((y * g.effW + x) * g.depth) ∧
    0 ≤ (y * g.effW + x) * g.depth ∧ (y * g.effW + x) * g.depth + g.depth ≤ 8 * g.bufSize := by
  obtain ⟨n, hn⟩ := Int.eq_ofNat_of_zero_le hg.size_ok
  obtain ⟨W, h⟩ := inRange_index hg (img := List.replicate n 0) (by rw [List.length_replicate, hn]) hr
  have e := h.p_eq
  have h1 := h.row_chk
  have h2 := h.idx_chk
  have h3 := h.bits_chk
  have h4 := h.last
  rw [List.length_replicate, Nat.add_mul, Nat.one_mul] at h4
  have chk_in : ∀ v w, chk v = .ok w → InInt v := by
    intro v w hv
    unfold chk at hv
    split at hv
    · assumption
    · cases hv
  refine ⟨chk_in _ _ h1, chk_in _ _ h2, ?_, ?_, ?_⟩
  · rw [e]; exact chk_in _ _ h3
  · rw [e, ← Int.natCast_mul]; omega
  · rw [e, ← Int.natCast_mul, hn]
    omega

/-- Finding: a 32-bit buffer cannot be constructed (nor its colour set) without undefined behaviour:
`1 << 32`. -/
theorem depth32_constructor_ub (g : Geom) (hd : g.depth = 32) (mem : List Byte) (fb : FB) (c : BitVec 32) :
    FB.new g mem = .ub ∧ fb.setColor g c = .ub := by
  have : colorMask g = .ub := by rw [colorMask, if_neg (by omega)]
  exact ⟨by simp [FB.new, this], by simp [FB.setColor, this]⟩

/-- For all other depths construction succeeds, with all colour bits selected, and `setColor` keeps
exactly the colour modulo 2^depth. -/
theorem setColor_masks (g : Geom) (hg : g.Compiles) (hd : g.depth ≠ 32) (mem : List Byte) (fb : FB) (c : BitVec 32) :
    ∃ fb0 fb', FB.new g mem = .ok fb0 ∧ fb0.img = mem ∧ fb0.sel.toNat = 2 ^ g.depth - 1 ∧
      fb.setColor g c = .ok fb' ∧ fb'.img = fb.img ∧ fb'.sel.toNat = c.toNat % 2 ^ g.depth := by
  have hlt : g.depth < 32 := by rcases hg.depth_ok with h | h | h | h | h | h | h <;> omega
  have hm : colorMask g = .ok (BitVec.ofNat 32 (2 ^ g.depth - 1)) := by rw [colorMask, if_pos hlt]
  have hp : 2 ^ g.depth - 1 < 2 ^ 32 := by
    have := Nat.pow_lt_pow_right (show 1 < 2 by decide) hlt
    omega
  refine ⟨⟨mem, BitVec.ofNat 32 (2 ^ g.depth - 1)⟩, ⟨fb.img, c &&& BitVec.ofNat 32 (2 ^ g.depth - 1)⟩,
    by rw [FB.new, hm]; rfl, rfl, ?_, by rw [FB.setColor, hm]; rfl, rfl, ?_⟩
  · simp only [BitVec.toNat_ofNat]
    exact Nat.mod_eq_of_lt hp
  · simp only [BitVec.toNat_and, BitVec.toNat_ofNat]
    rw [Nat.mod_eq_of_lt hp, Nat.and_two_pow_sub_one_eq_mod]

end Verif.FrameBuffer
