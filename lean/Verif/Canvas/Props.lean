import Verif.Canvas.Lemmas
/-!
# C29-C31, C34-C36: clipping, rotation, pixels and rectangles
-/
set_option linter.dupNamespace false
namespace Verif.Canvas
open Verif.FrameBuffer

/-- A canvas for examples: 16 x 8 pixels of depth 4 (declared width 4), turned by 90 degrees. -/
theorem example_ready (r : Rotation) :
    Ready ⟨⟨16, 8⟩, r⟩ ⟨4, 8, 4⟩ ⟨List.replicate 64 0, 5⟩ := by
  constructor
  · constructor <;> decide
  all_goals first | decide | (simp only; decide)

/-! ## C29 -/

/-- The shapes. -/
inductive Shape where
  | pixel (p : Pt)
  | line (a b : Pt)
  | rect (r : Rect)
  | fillRect (r : Rect)
  | circle (p : Pt) (radius : Int) (filled : Bool)

/-- The call drawing a shape. -/
def Canvas.draw (c : Canvas) (g : Geom) (fb : FB) : Shape → Res FB
  | .pixel p => c.drawPixel g fb p
  | .line a b => c.drawLine g fb a b
  | .rect r => c.drawRectangle g fb r
  | .fillRect r => c.drawFilledRectangle g fb r
  | .circle p r f => c.drawCircle g fb p r f

/-- The coordinate computations of the call. -/
def Canvas.points (c : Canvas) : Shape → Res (List Pt)
  | .pixel p => c.pixelPts p
  | .line a b => c.linePts a b
  | .rect r => c.rectPts r
  | .fillRect r => c.fillRectPts r
  | .circle p r f => c.circlePts p r f

theorem draw_eq (c : Canvas) (g : Geom) (fb : FB) (s : Shape) :
    c.draw g fb s = (c.points s >>= fun ps => c.paint g fb ps) := by
  cases s <;> rfl

/-- Painting changes pixels to the current colour only. -/
theorem paint_clipped {c : Canvas} {g : Geom} {fb : FB} (h : Ready c g fb) (ps : List Pt) :
    ∃ fb', c.paint g fb ps = .ok fb' ∧ Ready c g fb' ∧ fb'.sel = fb.sel ∧ fb'.img.length = fb.img.length ∧
      ∀ p, OnScreen c p → readPixel c g fb' p = readPixel c g fb p ∨
        readPixel c g fb' p = some (storedValue g.depth fb.sel) := by
  obtain ⟨fb', h1, h2⟩ := paint_paints h ps (fun p => phys c.rotate g.getWidth g.getHeight p ∈ ps)
    (fun p _ => Iff.rfl)
  refine ⟨fb', h1, ⟨h.compiles, h.depth, by rw [h2.len]; exact h.img, h.size, h.wlo, h.hlo, h.whi, h.hhi⟩,
    h2.sel, h2.len, ?_⟩
  intro p hp
  by_cases hs : phys c.rotate g.getWidth g.getHeight p ∈ ps
  · exact .inr (h2.inside p hp hs)
  · exact .inl (h2.outside p hp hs)

/-- **C29**: for arbitrary arguments, once the coordinates could be computed without integer overflow,
the drawing call stays inside the image (an access outside would be `ub`), keeps the size and the
colour, and changes pixels to the current colour only. -/
theorem drawing_clipped (c : Canvas) (g : Geom) (fb : FB) (h : Ready c g fb) (s : Shape)
    (hs : (c.points s).isOk = true) :
    ∃ fb', c.draw g fb s = .ok fb' ∧ Ready c g fb' ∧ fb'.sel = fb.sel ∧ fb'.img.length = fb.img.length ∧
      ∀ p, OnScreen c p → readPixel c g fb' p = readPixel c g fb p ∨
        readPixel c g fb' p = some (storedValue g.depth fb.sel) := by
  rw [draw_eq]
  cases hp : c.points s with
  | ok ps => exact paint_clipped h ps
  | ub => rw [hp] at hs; cases hs
  | hang => rw [hp] at hs; cases hs

example : (Canvas.points ⟨⟨16, 8⟩, .r90⟩ (.line ⟨-100, 3⟩ ⟨1000, 70⟩)).isOk = true := by decide +kernel

/-! ## C30 -/

/-- **C30**: the point transformation computes `phys` (for points up to 2^30 in magnitude). -/
theorem transform_is_phys (c : Canvas) (g : Geom) (fb : FB) (h : Ready c g fb) (p : Pt)
    (hp : (-1073741824 ≤ p.x ∧ p.x ≤ 1073741824) ∧ -1073741824 ≤ p.y ∧ p.y ≤ 1073741824) :
    c.transformPt p = .ok (phys c.rotate g.getWidth g.getHeight p) :=
  transformPt_ok h.size ⟨h.wlo, h.whi⟩ ⟨h.hlo, h.hhi⟩ hp

/-- **C30**: `phys` maps the logical screen one-to-one onto the frame buffer. -/
theorem rotation_bijective (c : Canvas) (g : Geom) (fb : FB) (h : Ready c g fb) :
    (∀ p, OnScreen c p ↔ InRange g (phys c.rotate g.getWidth g.getHeight p).x
      (phys c.rotate g.getWidth g.getHeight p).y) ∧
    (∀ p q, phys c.rotate g.getWidth g.getHeight p = phys c.rotate g.getWidth g.getHeight q → p = q) ∧
    (∀ q, InRange g q.x q.y → ∃ p, OnScreen c p ∧ phys c.rotate g.getWidth g.getHeight p = q) := by
  have key : ∀ p, OnScreen c p ↔ InRange g (phys c.rotate g.getWidth g.getHeight p).x
      (phys c.rotate g.getWidth g.getHeight p).y := by
    intro p
    rw [onScreen_iff, visible_iff, h.size]
    simp only
    exact ⟨fun ⟨a, b, d, e⟩ => ⟨a, b, d, e⟩, fun ⟨a, b, d, e⟩ => ⟨a, b, d, e⟩⟩
  refine ⟨key, fun p q => phys_inj _ _ _, ?_⟩
  intro q hq
  refine ⟨unphys c.rotate g.getWidth g.getHeight q, ?_, phys_unphys _ _ _ _⟩
  rw [key, phys_unphys]
  exact hq

/-- **C30**: `phys` turns the plane by a multiple of a quarter turn: each unit step of the logical
screen is a unit step of the physical one, with the orientation kept (determinant 1) and a
quarter, half or three-quarter turn according to the rotation. -/
theorem rotation_isometry (r : Rotation) (W H : Int) :
    ∃ a b : Int, (∀ p : Pt,
      phys r W H ⟨p.x + 1, p.y⟩ = ⟨(phys r W H p).x + a, (phys r W H p).y + b⟩ ∧
      phys r W H ⟨p.x, p.y + 1⟩ = ⟨(phys r W H p).x - b, (phys r W H p).y + a⟩) ∧
      (a, b) = (match r with | .r0 => (1, 0) | .r90 => (0, 1) | .r180 => (-1, 0) | .r270 => (0, -1)) := by
  cases r
  · exact ⟨1, 0, fun p => by constructor <;> simp only [phys] <;> congr 1 <;> omega, rfl⟩
  · exact ⟨0, 1, fun p => by constructor <;> simp only [phys] <;> congr 1 <;> omega, rfl⟩
  · exact ⟨-1, 0, fun p => by constructor <;> simp only [phys] <;> congr 1 <;> omega, rfl⟩
  · exact ⟨0, -1, fun p => by constructor <;> simp only [phys] <;> congr 1 <;> omega, rfl⟩

/-- **C30**: the matrix form used for text is the same mapping. -/
theorem matrix_form_agrees (c : Canvas) (g : Geom) (fb : FB) (h : Ready c g fb) (p : Pt)
    (hp : (-1073741824 ≤ p.x ∧ p.x ≤ 1073741824) ∧ -1073741824 ≤ p.y ∧ p.y ≤ 1073741824) :
    (do let v ← c.matrix.mul p; let s ← c.shifts; v.add s : Res Pt) =
      .ok (phys c.rotate g.getWidth g.getHeight p) := by
  have hs := h.size
  have hw := h.wlo; have hw' := h.whi; have hh := h.hlo; have hh' := h.hhi
  obtain ⟨s, r⟩ := c
  simp only at hs
  subst hs
  obtain ⟨x, y⟩ := p
  simp only at hp
  generalize g.getWidth = W at *
  generalize g.getHeight = H at *
  cases r <;> simp only [Canvas.matrix, Canvas.shifts, Mat.mul, Pt.add, phys, Int.zero_mul, Int.one_mul,
      Int.neg_mul]
  · repeat (first | rw [chk_ok (by constructor <;> omega)] | simp only [Res.bind_ok, Int.add_zero, Int.zero_add])
  · repeat (first | rw [chk_ok (by constructor <;> omega)] | simp only [Res.bind_ok, Int.add_zero, Int.zero_add])
    congr 2; omega
  · repeat (first | rw [chk_ok (by constructor <;> omega)] | simp only [Res.bind_ok, Int.add_zero, Int.zero_add])
    congr 2 <;> omega
  · repeat (first | rw [chk_ok (by constructor <;> omega)] | simp only [Res.bind_ok, Int.add_zero, Int.zero_add])
    congr 2; omega

/-! ## C31 -/

/-- **C31**: `drawPixel(p)` paints exactly the logical pixel `p` if it is on screen. -/
theorem drawPixel_paints (c : Canvas) (g : Geom) (fb : FB) (h : Ready c g fb) (p : Pt)
    (hp : (-1073741824 ≤ p.x ∧ p.x ≤ 1073741824) ∧ -1073741824 ≤ p.y ∧ p.y ≤ 1073741824) :
    ∃ fb', c.drawPixel g fb p = .ok fb' ∧ Paints c g fb fb' (fun q => q = p) := by
  unfold Canvas.drawPixel Canvas.pixelPts
  rw [transform_is_phys c g fb h p hp]
  simp only [Res.bind_ok]
  apply paint_paints h
  intro q _
  rw [List.mem_singleton]
  exact ⟨fun e => phys_inj _ _ _ e, fun e => by rw [e]⟩

/-! ## C34 -/

/-- The lines of a rectangle, whatever the signs of its sizes. -/
def outline (r : Rect) (p : Pt) : Prop :=
  (r.topLeft.x ≤ p.x ∧ p.x < r.topLeft.x + r.size.width ∧
    (p.y = r.topLeft.y ∨ p.y = r.topLeft.y + r.size.height - 1)) ∨
  (r.topLeft.y ≤ p.y ∧ p.y < r.topLeft.y + r.size.height ∧
    (p.x = r.topLeft.x ∨ p.x = r.topLeft.x + r.size.width - 1))

private theorem outline_phys (rot : Rotation) (W H : Int) (r : Rect) (p : Pt) :
    outline (physRect rot W H r) (phys rot W H p) ↔ outline r p := by
  obtain ⟨⟨x, y⟩, ⟨w, h⟩⟩ := r
  obtain ⟨a, b⟩ := p
  cases rot <;> simp only [outline, physRect, phys] <;> omega

/-- What `drawRectangle` paints for every rectangle of screen scale, also with non-positive sizes. -/
theorem drawRectangle_outline (c : Canvas) (g : Geom) (fb : FB) (h : Ready c g fb) (r : Rect)
    (hr : SmallRect r) :
    ∃ fb', c.drawRectangle g fb r = .ok fb' ∧ Paints c g fb fb' (outline r) := by
  have hW : 0 ≤ g.getWidth ∧ g.getWidth ≤ 2 ^ 28 := ⟨h.wlo, h.whi⟩
  have hH : 0 ≤ g.getHeight ∧ g.getHeight ≤ 2 ^ 28 := ⟨h.hlo, h.hhi⟩
  have hb := physRect_small hW hH c.rotate hr
  have key : ∃ ps, c.rectPts r = .ok ps ∧ ∀ q, q ∈ ps ↔ outline (physRect c.rotate g.getWidth g.getHeight r) q := by
    unfold Canvas.rectPts
    rw [transformRect_ok h.size hW hH hr]
    simp only [Res.bind_ok]
    generalize physRect c.rotate g.getWidth g.getHeight r = t at *
    obtain ⟨a, a1, a2⟩ := hLine_ok t.topLeft t.size.width (by omega)
    obtain ⟨b, b1, b2⟩ := hLine_ok ⟨t.topLeft.x, t.topLeft.y + t.size.height - 1⟩ t.size.width (by simp only; omega)
    obtain ⟨d, d1, d2⟩ := vLine_ok t.topLeft t.size.height (by omega)
    obtain ⟨e, e1, e2⟩ := vLine_ok ⟨t.topLeft.x + t.size.width - 1, t.topLeft.y⟩ t.size.height (by simp only; omega)
    rw [a1]; simp only [Res.bind_ok]
    rw [bottomLeft_ok (by omega)]; simp only [Res.bind_ok]
    rw [b1]; simp only [Res.bind_ok]
    rw [d1]; simp only [Res.bind_ok]
    rw [topRight_ok (by omega)]; simp only [Res.bind_ok]
    rw [e1]; simp only [Res.bind_ok]
    refine ⟨_, rfl, ?_⟩
    intro q
    simp only [List.mem_append, a2, b2, d2, e2, outline]
    omega
  obtain ⟨ps, k1, k2⟩ := key
  unfold Canvas.drawRectangle
  rw [k1]
  apply paint_paints h
  intro p _
  rw [k2, outline_phys]

/-- **C34**: for positive sizes `drawRectangle` paints exactly the on-screen border pixels. -/
theorem drawRectangle_border (c : Canvas) (g : Geom) (fb : FB) (h : Ready c g fb) (r : Rect)
    (hr : SmallRect r) (hw : 0 < r.size.width) (hh : 0 < r.size.height) :
    ∃ fb', c.drawRectangle g fb r = .ok fb' ∧ Paints c g fb fb' (onBorder r) := by
  obtain ⟨fb', h1, h2⟩ := drawRectangle_outline c g fb h r hr
  have he : outline r = onBorder r := by
    funext p
    apply propext
    simp only [outline, onBorder, inRect]
    omega
  exact ⟨fb', h1, he ▸ h2⟩

/-- Finding: an empty rectangle of width 0 and positive height is not drawn as nothing: the columns
`x` and `x - 1` are painted. -/
theorem drawRectangle_empty_stray (c : Canvas) (g : Geom) (fb : FB) (h : Ready c g fb) (r : Rect)
    (hr : SmallRect r) (hw : r.size.width = 0) :
    ∃ fb', c.drawRectangle g fb r = .ok fb' ∧
      Paints c g fb fb' (fun p => (p.x = r.topLeft.x ∨ p.x = r.topLeft.x - 1) ∧
        r.topLeft.y ≤ p.y ∧ p.y < r.topLeft.y + r.size.height) := by
  obtain ⟨fb', h1, h2⟩ := drawRectangle_outline c g fb h r hr
  have he : outline r = (fun p => (p.x = r.topLeft.x ∨ p.x = r.topLeft.x - 1) ∧
        r.topLeft.y ≤ p.y ∧ p.y < r.topLeft.y + r.size.height) := by
    funext p
    apply propext
    simp only [outline]
    omega
  exact ⟨fb', h1, he ▸ h2⟩

example : SmallRect ⟨⟨2, 1⟩, ⟨3, 4⟩⟩ ∧ onBorder ⟨⟨2, 1⟩, ⟨3, 4⟩⟩ ⟨2, 3⟩ ∧ ¬ onBorder ⟨⟨2, 1⟩, ⟨3, 4⟩⟩ ⟨3, 3⟩ := by
  simp only [onBorder, inRect]; decide

/-! ## C35 -/

theorem fillLoop_ok (p : Pt) (w : Int) (n : Nat) (h : -2147483648 ≤ p.x ∧ p.x + max w 0 ≤ 2147483647)
    (h' : -2147483648 ≤ p.y ∧ p.y + n ≤ 2147483647) :
    ∃ ps, fillLoop p w n = .ok ps ∧
      ∀ q : Pt, q ∈ ps ↔ p.x ≤ q.x ∧ q.x < p.x + w ∧ p.y ≤ q.y ∧ q.y < p.y + n := by
  induction n generalizing p with
  | zero => exact ⟨[], rfl, by intro q; simp only [List.not_mem_nil, Int.natCast_zero, false_iff]; omega⟩
  | succ n ih =>
    push_cast at h'
    obtain ⟨row, h1, h2⟩ := hLine_ok p w h
    obtain ⟨ps, h3, h4⟩ := ih { p with y := p.y + 1 } h (by simp only; omega)
    refine ⟨row ++ ps, ?_, ?_⟩
    · simp only [fillLoop]
      rw [h1]; simp only [Res.bind_ok]
      rw [chk_ok (by constructor <;> omega)]; simp only [Res.bind_ok]
      rw [h3]; rfl
    · intro q
      rw [List.mem_append, h2, h4]
      simp only
      push_cast
      omega

/-- **C35**: `drawFilledRectangle` paints exactly the on-screen pixels of the rectangle; none when the
width or height is not positive. -/
theorem drawFilledRectangle_exact (c : Canvas) (g : Geom) (fb : FB) (h : Ready c g fb) (r : Rect)
    (hr : SmallRect r) :
    ∃ fb', c.drawFilledRectangle g fb r = .ok fb' ∧ Paints c g fb fb' (inRect r) := by
  have hW : 0 ≤ g.getWidth ∧ g.getWidth ≤ 2 ^ 28 := ⟨h.wlo, h.whi⟩
  have hH : 0 ≤ g.getHeight ∧ g.getHeight ≤ 2 ^ 28 := ⟨h.hlo, h.hhi⟩
  have hb := physRect_small hW hH c.rotate hr
  have key : ∃ ps, c.fillRectPts r = .ok ps ∧ ∀ q, InRange g q.x q.y →
      (q ∈ ps ↔ inRect (physRect c.rotate g.getWidth g.getHeight r) q) := by
    unfold Canvas.fillRectPts
    rw [transformRect_ok h.size hW hH hr]
    simp only [Res.bind_ok]
    generalize physRect c.rotate g.getWidth g.getHeight r = t at *
    rw [bottomRight_ok (by omega) (by omega), h.size]
    simp only [Res.bind_ok]
    rw [chk_ok (v := g.getWidth - 1) (by constructor <;> omega),
      chk_ok (v := g.getHeight - 1) (by constructor <;> omega)]
    simp only [Res.bind_ok]
    rw [chk_ok (v := min (t.topLeft.x + (t.size.width - 1)) (g.getWidth - 1) - max t.topLeft.x 0)
      (by constructor <;> omega)]
    simp only [Res.bind_ok]
    rw [chk_ok (v := min (t.topLeft.x + (t.size.width - 1)) (g.getWidth - 1) - max t.topLeft.x 0 + 1)
      (by constructor <;> omega)]
    simp only [Res.bind_ok]
    obtain ⟨ps, h1, h2⟩ := fillLoop_ok ⟨max t.topLeft.x 0, max t.topLeft.y 0⟩
      (min (t.topLeft.x + (t.size.width - 1)) (g.getWidth - 1) - max t.topLeft.x 0 + 1)
      (min (t.topLeft.y + (t.size.height - 1)) (g.getHeight - 1) - max t.topLeft.y 0 + 1).toNat
      (by simp only; omega) (by simp only; omega)
    refine ⟨ps, h1, ?_⟩
    intro q hq
    obtain ⟨q1, q2, q3, q4⟩ := hq
    rw [h2]
    simp only [inRect]
    omega
  obtain ⟨ps, k1, k2⟩ := key
  unfold Canvas.drawFilledRectangle
  rw [k1]
  apply paint_paints h
  intro p hp
  rw [k2 _ (((rotation_bijective c g fb h).1 p).1 hp), physRect_mem]

theorem empty_rect_paints_nothing (r : Rect) (h : r.size.width ≤ 0 ∨ r.size.height ≤ 0) (p : Pt) :
    ¬ inRect r p := by
  simp only [inRect]; omega

/-! ## C36 -/

/-- **C36**: the transformed rectangle consists of exactly the physical pixels showing the pixels of
the logical rectangle. -/
theorem transformRect_agrees (c : Canvas) (g : Geom) (fb : FB) (h : Ready c g fb) (r : Rect)
    (hr : SmallRect r) :
    ∃ t, c.transformRect r = .ok t ∧
      ∀ q, inRect t q ↔ ∃ p, inRect r p ∧ phys c.rotate g.getWidth g.getHeight p = q := by
  refine ⟨_, transformRect_ok h.size ⟨h.wlo, h.whi⟩ ⟨h.hlo, h.hhi⟩ hr, ?_⟩
  intro q
  constructor
  · intro hq
    refine ⟨unphys c.rotate g.getWidth g.getHeight q, ?_, phys_unphys _ _ _ _⟩
    rw [← physRect_mem c.rotate g.getWidth g.getHeight, phys_unphys]
    exact hq
  · rintro ⟨p, hp, rfl⟩
    rwa [physRect_mem]

example : Canvas.transformRect ⟨⟨16, 8⟩, .r90⟩ ⟨⟨1, 2⟩, ⟨3, 4⟩⟩ = .ok ⟨⟨10, 1⟩, ⟨4, 3⟩⟩ := by decide

end Verif.Canvas
