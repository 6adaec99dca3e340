import Verif.Canvas.Spec
/-!
# Helper lemmas for drawing
-/
namespace Verif.Canvas
open Verif.FrameBuffer

theorem chk_ok {v : Int} (h : InInt v) : chk v = .ok v := if_pos h

theorem phys_unphys (r : Rotation) (W H : Int) (q : Pt) : phys r W H (unphys r W H q) = q := by
  obtain ⟨x, y⟩ := q
  cases r <;> simp [phys, unphys]

theorem unphys_phys (r : Rotation) (W H : Int) (p : Pt) : unphys r W H (phys r W H p) = p := by
  obtain ⟨x, y⟩ := p
  cases r <;> simp [phys, unphys]

theorem phys_inj (r : Rotation) (W H : Int) {p q : Pt} (h : phys r W H p = phys r W H q) : p = q := by
  rw [← unphys_phys r W H p, h, unphys_phys]

theorem visible_iff (c : Canvas) (p : Pt) :
    c.visible p = true ↔ 0 ≤ p.x ∧ p.x < c.size.width ∧ 0 ≤ p.y ∧ p.y < c.size.height := by
  simp [Canvas.visible, and_assoc]

theorem onScreen_iff (c : Canvas) (p : Pt) :
    OnScreen c p ↔ c.visible (phys c.rotate c.size.width c.size.height p) = true := by
  obtain ⟨x, y⟩ := p
  obtain ⟨⟨W, H⟩, r⟩ := c
  rw [visible_iff]
  constructor
  · rintro ⟨h1, h2, h3, h4⟩
    cases r <;> simp only [phys, Canvas.getSize] at * <;> omega
  · intro h
    cases r <;> simp only [phys] at h <;>
      (constructor <;> simp only [Canvas.getSize] <;> omega)

theorem paint_append (c : Canvas) (g : Geom) (fb : FB) (ps qs : List Pt) :
    c.paint g fb (ps ++ qs) = (c.paint g fb ps >>= fun f => c.paint g f qs) := by
  induction ps generalizing fb with
  | nil => rfl
  | cons p ps ih =>
    simp only [List.cons_append, Canvas.paint]
    cases c.setIfVisible g fb p with
    | ok v => simp only [Res.bind_ok]; exact ih v
    | ub => rfl
    | hang => rfl

/-- Painting a list of points sets exactly the physical pixels in the list. -/
theorem paint_exact {c : Canvas} {g : Geom} {fb : FB} (h : Ready c g fb) (ps : List Pt) :
    ∃ fb', c.paint g fb ps = .ok fb' ∧ fb'.sel = fb.sel ∧ fb'.img.length = fb.img.length ∧
      ∀ q : Pt, InRange g q.x q.y →
        pixel fb'.img g.depth (pixelNo g q.x q.y) =
          if q ∈ ps then some (storedValue g.depth fb.sel) else pixel fb.img g.depth (pixelNo g q.x q.y) := by
  induction ps generalizing fb with
  | nil => exact ⟨fb, rfl, rfl, rfl, by intro q _; simp⟩
  | cons p ps ih =>
    simp only [Canvas.paint, Canvas.setIfVisible]
    by_cases hv : c.visible p = true
    · rw [if_pos hv]
      have hr : InRange g p.x p.y := by
        have hs := h.size
        simp only [Canvas.visible, Bool.and_eq_true, decide_eq_true_eq, hs] at hv
        exact ⟨hv.1.1.1, hv.1.1.2, hv.1.2, hv.2⟩
      obtain ⟨img1, e1, e2, e3⟩ := drawPixel_pixels g h.compiles h.depth fb.img h.img p.x p.y hr fb.sel
      obtain ⟨img1', f1, f2, -⟩ := drawPixel_exact g h.compiles h.depth fb.img h.img p.x p.y hr fb.sel
      rw [e1] at f1
      cases f1
      simp only [FB.drawPixel, e1, Res.bind_ok]
      obtain ⟨fb', g1, g2, g3, g4⟩ := ih (fb := ⟨img1, fb.sel⟩)
        ⟨h.compiles, h.depth, by rw [f2]; exact h.img, h.size, h.wlo, h.hlo, h.whi, h.hhi⟩
      refine ⟨fb', g1, g2, g3.trans f2, ?_⟩
      intro q hq
      rw [g4 q hq]
      by_cases hm : q ∈ ps
      · rw [if_pos hm, if_pos (List.mem_cons_of_mem _ hm)]
      · rw [if_neg hm]
        by_cases he : q = p
        · subst he
          rw [if_pos List.mem_cons_self]
          exact e2
        · rw [if_neg (by simp [he, hm])]
          apply e3 q.x q.y hq
          intro hc
          apply he
          obtain ⟨qx, qy⟩ := q
          obtain ⟨px, py⟩ := p
          simp only [Prod.mk.injEq] at hc
          rw [hc.1, hc.2]
    · rw [if_neg hv]
      simp only [Res.bind_ok]
      obtain ⟨fb', g1, g2, g3, g4⟩ := ih h
      refine ⟨fb', g1, g2, g3, ?_⟩
      intro q hq
      rw [g4 q hq]
      have hne : q ≠ p := by
        intro he
        subst he
        apply hv
        have hs := h.size
        simp only [Canvas.visible, Bool.and_eq_true, decide_eq_true_eq, hs]
        exact ⟨⟨⟨hq.x0, hq.x1⟩, hq.y0⟩, hq.y1⟩
      by_cases hm : q ∈ ps
      · rw [if_pos hm, if_pos (List.mem_cons_of_mem _ hm)]
      · rw [if_neg hm, if_neg (by simp [hne, hm])]

/-- From the list of physical points to the logical picture. -/
theorem paint_paints {c : Canvas} {g : Geom} {fb : FB} (h : Ready c g fb) (ps : List Pt) (S : Pt → Prop)
    (hS : ∀ p, OnScreen c p → (phys c.rotate g.getWidth g.getHeight p ∈ ps ↔ S p)) :
    ∃ fb', c.paint g fb ps = .ok fb' ∧ Paints c g fb fb' S := by
  obtain ⟨fb', h1, h2, h3, h4⟩ := paint_exact h ps
  have hr : ∀ p, OnScreen c p →
      InRange g (phys c.rotate g.getWidth g.getHeight p).x (phys c.rotate g.getWidth g.getHeight p).y := by
    intro p hp
    have hs := h.size
    have := (onScreen_iff c p).1 hp
    simp only [Canvas.visible, Bool.and_eq_true, decide_eq_true_eq, hs] at this
    exact ⟨this.1.1.1, this.1.1.2, this.1.2, this.2⟩
  refine ⟨fb', h1, ⟨?_, ?_, h2, h3⟩⟩
  · intro p hp hs
    unfold readPixel
    rw [h4 _ (hr p hp), if_pos ((hS p hp).2 hs)]
  · intro p hp hs
    unfold readPixel
    rw [h4 _ (hr p hp), if_neg (fun hc => hs ((hS p hp).1 hc))]

theorem transformPt_ok {c : Canvas} {W H : Int} (hs : c.size = ⟨W, H⟩) (hW : 0 ≤ W ∧ W ≤ 2 ^ 28)
    (hH : 0 ≤ H ∧ H ≤ 2 ^ 28) {p : Pt} (hp : (-1073741824 ≤ p.x ∧ p.x ≤ 1073741824) ∧ -1073741824 ≤ p.y ∧ p.y ≤ 1073741824) :
    c.transformPt p = .ok (phys c.rotate W H p) := by
  obtain ⟨x, y⟩ := p
  obtain ⟨s, r⟩ := c
  simp only at hs
  subst hs
  simp only at hp
  cases r
  · rfl
  · simp only [Canvas.transformPt, phys]
    rw [chk_ok (by constructor <;> omega)]
    simp only [Res.bind_ok]
    rw [chk_ok (by constructor <;> omega)]
    rfl
  · simp only [Canvas.transformPt, phys]
    rw [chk_ok (v := W - 1) (by constructor <;> omega), chk_ok (v := H - 1) (by constructor <;> omega)]
    simp only [Res.bind_ok]
    rw [chk_ok (v := W - 1 - x) (by constructor <;> omega), chk_ok (v := H - 1 - y) (by constructor <;> omega)]
    rfl
  · simp only [Canvas.transformPt, phys]
    rw [chk_ok (by constructor <;> omega)]
    simp only [Res.bind_ok]
    rw [chk_ok (by constructor <;> omega)]
    rfl

theorem hLoop_ok (p : Pt) (n : Nat) (h : -2147483648 ≤ p.x ∧ p.x + n ≤ 2147483647) :
    ∃ ps, hLoop p n = .ok ps ∧ ∀ q : Pt, q ∈ ps ↔ q.y = p.y ∧ p.x ≤ q.x ∧ q.x < p.x + n := by
  induction n generalizing p with
  | zero => exact ⟨[], rfl, by intro q; simp only [List.not_mem_nil, Int.natCast_zero, false_iff]; omega⟩
  | succ n ih =>
    push_cast at h
    obtain ⟨ps, h1, h2⟩ := ih { p with x := p.x + 1 } (by simp only; omega)
    refine ⟨p :: ps, ?_, ?_⟩
    · simp only [hLoop]
      rw [chk_ok (by constructor <;> omega)]
      simp only [Res.bind_ok]
      rw [h1]; rfl
    · intro q
      rw [List.mem_cons, h2]
      obtain ⟨qx, qy⟩ := q
      obtain ⟨px, py⟩ := p
      simp only [Pt.mk.injEq]
      push_cast
      omega

theorem hLine_ok (p : Pt) (w : Int) (h : -2147483648 ≤ p.x ∧ p.x + max w 0 ≤ 2147483647) :
    ∃ ps, hLine p w = .ok ps ∧ ∀ q : Pt, q ∈ ps ↔ q.y = p.y ∧ p.x ≤ q.x ∧ q.x < p.x + w := by
  obtain ⟨ps, h1, h2⟩ := hLoop_ok p w.toNat (by omega)
  exact ⟨ps, h1, fun q => by rw [h2]; omega⟩

theorem vLoop_ok (p : Pt) (n : Nat) (h : -2147483648 ≤ p.y ∧ p.y + n ≤ 2147483647) :
    ∃ ps, vLoop p n = .ok ps ∧ ∀ q : Pt, q ∈ ps ↔ q.x = p.x ∧ p.y ≤ q.y ∧ q.y < p.y + n := by
  induction n generalizing p with
  | zero => exact ⟨[], rfl, by intro q; simp only [List.not_mem_nil, Int.natCast_zero, false_iff]; omega⟩
  | succ n ih =>
    push_cast at h
    obtain ⟨ps, h1, h2⟩ := ih { p with y := p.y + 1 } (by simp only; omega)
    refine ⟨p :: ps, ?_, ?_⟩
    · simp only [vLoop]
      rw [chk_ok (by constructor <;> omega)]
      simp only [Res.bind_ok]
      rw [h1]; rfl
    · intro q
      rw [List.mem_cons, h2]
      obtain ⟨qx, qy⟩ := q
      obtain ⟨px, py⟩ := p
      simp only [Pt.mk.injEq]
      push_cast
      omega

theorem vLine_ok (p : Pt) (w : Int) (h : -2147483648 ≤ p.y ∧ p.y + max w 0 ≤ 2147483647) :
    ∃ ps, vLine p w = .ok ps ∧ ∀ q : Pt, q ∈ ps ↔ q.x = p.x ∧ p.y ≤ q.y ∧ q.y < p.y + w := by
  obtain ⟨ps, h1, h2⟩ := vLoop_ok p w.toNat (by omega)
  exact ⟨ps, h1, fun q => by rw [h2]; omega⟩

/-! ## Rectangles -/

/-- The transformed rectangle, unbounded. -/
def physRect (r : Rotation) (W H : Int) (a : Rect) : Rect :=
  match r with
  | .r0 => a
  | .r90 => ⟨⟨W - 1 - (a.topLeft.y + a.size.height - 1), a.topLeft.x⟩, ⟨a.size.height, a.size.width⟩⟩
  | .r180 => ⟨⟨W - 1 - (a.topLeft.x + (a.size.width - 1)), H - 1 - (a.topLeft.y + (a.size.height - 1))⟩, a.size⟩
  | .r270 => ⟨⟨a.topLeft.y, H - 1 - (a.topLeft.x + a.size.width - 1)⟩, ⟨a.size.height, a.size.width⟩⟩

theorem physRect_mem (r : Rotation) (W H : Int) (a : Rect) (p : Pt) :
    inRect (physRect r W H a) (phys r W H p) ↔ inRect a p := by
  obtain ⟨⟨ax, ay⟩, ⟨aw, ah⟩⟩ := a
  obtain ⟨x, y⟩ := p
  cases r <;> simp [inRect, physRect, phys] <;> omega

theorem bottomLeft_ok {r : Rect} (h : -1073741824 ≤ r.topLeft.y ∧ r.topLeft.y ≤ 1073741824 ∧ Small r.size.height) :
    r.bottomLeft = .ok ⟨r.topLeft.x, r.topLeft.y + r.size.height - 1⟩ := by
  unfold Rect.bottomLeft
  rw [chk_ok (by constructor <;> omega)]
  simp only [Res.bind_ok]
  rw [chk_ok (by constructor <;> omega)]
  rfl

theorem topRight_ok {r : Rect} (h : -1073741824 ≤ r.topLeft.x ∧ r.topLeft.x ≤ 1073741824 ∧ Small r.size.width) :
    r.topRight = .ok ⟨r.topLeft.x + r.size.width - 1, r.topLeft.y⟩ := by
  unfold Rect.topRight
  rw [chk_ok (by constructor <;> omega)]
  simp only [Res.bind_ok]
  rw [chk_ok (by constructor <;> omega)]
  rfl

theorem bottomRight_ok {r : Rect} (h : -1073741824 ≤ r.topLeft.x ∧ r.topLeft.x ≤ 1073741824 ∧ Small r.size.width)
    (h' : -1073741824 ≤ r.topLeft.y ∧ r.topLeft.y ≤ 1073741824 ∧ Small r.size.height) :
    r.bottomRight = .ok ⟨r.topLeft.x + (r.size.width - 1), r.topLeft.y + (r.size.height - 1)⟩ := by
  unfold Rect.bottomRight Sz.sub Pt.add
  rw [chk_ok (v := r.size.width - 1) (by constructor <;> omega), chk_ok (v := r.size.height - 1) (by constructor <;> omega)]
  simp only [Res.bind_ok]
  rw [chk_ok (v := r.topLeft.x + (r.size.width - 1)) (by constructor <;> omega),
    chk_ok (v := r.topLeft.y + (r.size.height - 1)) (by constructor <;> omega)]
  rfl

theorem transformRect_ok {c : Canvas} {W H : Int} (hs : c.size = ⟨W, H⟩) (hW : 0 ≤ W ∧ W ≤ 2 ^ 28)
    (hH : 0 ≤ H ∧ H ≤ 2 ^ 28) {r : Rect} (hr : SmallRect r) :
    c.transformRect r = .ok (physRect c.rotate W H r) := by
  obtain ⟨⟨h1, h2⟩, h3, h4⟩ := hr
  unfold Canvas.transformRect
  have hbl := bottomLeft_ok (r := r) (by omega)
  have htr := topRight_ok (r := r) (by omega)
  have hbr := bottomRight_ok (r := r) (by omega) (by omega)
  have t1 := transformPt_ok hs hW hH (p := ⟨r.topLeft.x, r.topLeft.y + r.size.height - 1⟩) (by simp only; omega)
  have t2 := transformPt_ok hs hW hH (p := ⟨r.topLeft.x + r.size.width - 1, r.topLeft.y⟩) (by simp only; omega)
  have t3 := transformPt_ok hs hW hH
    (p := ⟨r.topLeft.x + (r.size.width - 1), r.topLeft.y + (r.size.height - 1)⟩) (by simp only; omega)
  cases hrot : c.rotate <;> simp only
  · rfl
  · rw [hbl]; simp only [Res.bind_ok]; rw [t1, hrot]; rfl
  · rw [hbr]; simp only [Res.bind_ok]; rw [t3, hrot]; rfl
  · rw [htr]; simp only [Res.bind_ok]; rw [t2, hrot]; rfl

theorem physRect_small {W H : Int} (hW : 0 ≤ W ∧ W ≤ 2 ^ 28) (hH : 0 ≤ H ∧ H ≤ 2 ^ 28) (rot : Rotation) {r : Rect}
    (hr : SmallRect r) :
    (-805306370 ≤ (physRect rot W H r).topLeft.x ∧ (physRect rot W H r).topLeft.x ≤ 805306370) ∧
    (-805306370 ≤ (physRect rot W H r).topLeft.y ∧ (physRect rot W H r).topLeft.y ≤ 805306370) ∧
    Small (physRect rot W H r).size.width ∧ Small (physRect rot W H r).size.height := by
  obtain ⟨⟨h1, h2⟩, h3, h4⟩ := hr
  cases rot <;> simp only [physRect] <;> omega

end Verif.Canvas
