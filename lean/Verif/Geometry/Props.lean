import Verif.Geometry.Model
import Mathlib.Tactic.Ring
import Mathlib.Tactic.Tauto
import Mathlib.Tactic.Linarith
/-!
# C69, C70: geometry arithmetic
-/
namespace Verif.Geometry
open Verif.FrameBuffer (chk InInt)

/-- The element types the library is used with. -/
def Ty (t : IntTy) : Prop := t = int8 ∨ t = uint8 ∨ t = int16 ∨ t = uint16 ∨ t = int32

/-- Types smaller than `int`. -/
def Narrow (t : IntTy) : Prop := t = int8 ∨ t = uint8 ∨ t = int16 ∨ t = uint16

def Size.Holds (t : IntTy) (s : Size) : Prop := t.Holds s.width ∧ t.Holds s.height
def Point.Holds (t : IntTy) (p : Point) : Prop := t.Holds p.x ∧ t.Holds p.y
def Rect.Holds (t : IntTy) (r : Rect) : Prop := r.topLeft.Holds t ∧ r.size.Holds t

/-- Two integers that differ by a multiple of the number of values of the type. -/
def SameMod (t : IntTy) (a b : Int) : Prop := ∃ k : Int, a = b + k * 2 ^ t.bits

theorem chk_ok {v : Int} (h : InInt v) : chk v = .ok v := if_pos h
theorem chk_ub {v : Int} (h : ¬ InInt v) : chk v = .ub := if_neg h

/-- Conversion gives the value of the type that is the same modulo 2^bits: specification of `conv`. -/
theorem conv_spec {t : IntTy} (ht : Ty t) (v : Int) : t.Holds (t.conv v) ∧ SameMod t (t.conv v) v := by
  have hb : ∀ n : Nat, 0 < n → ∃ k : Int, Int.bmod v (2 * n) = v + k * (2 * n) ∧
      -(n : Int) ≤ Int.bmod v (2 * n) ∧ Int.bmod v (2 * n) < n := by
    intro n hn
    have h1 := Int.bmod_add_bdiv v (2 * n)
    have h2 := Int.le_bmod (x := v) (m := 2 * n) (by omega)
    have h3 := Int.bmod_lt (x := v) (m := 2 * n) (by omega)
    refine ⟨-(Int.bdiv v (2 * n)), ?_, by omega, by omega⟩
    push_cast at h1
    linarith
  rcases ht with rfl | rfl | rfl | rfl | rfl
  · obtain ⟨k, h1, h2, h3⟩ := hb 128 (by omega)
    exact ⟨⟨h2, h3⟩, k, h1⟩
  · exact ⟨⟨Int.emod_nonneg _ (by decide), Int.emod_lt_of_pos _ (by decide)⟩, -(v / 256),
      by show v % 256 = v + -(v / 256) * 256; omega⟩
  · obtain ⟨k, h1, h2, h3⟩ := hb 32768 (by omega)
    exact ⟨⟨h2, h3⟩, k, h1⟩
  · exact ⟨⟨Int.emod_nonneg _ (by decide), Int.emod_lt_of_pos _ (by decide)⟩, -(v / 65536),
      by show v % 65536 = v + -(v / 65536) * 65536; omega⟩
  · obtain ⟨k, h1, h2, h3⟩ := hb 2147483648 (by omega)
    exact ⟨⟨h2, h3⟩, k, h1⟩

/-- Values of the type that agree modulo 2^bits are equal. -/
theorem sameMod_eq {t : IntTy} (ht : Ty t) {a b : Int} (ha : t.Holds a) (hb : t.Holds b)
    (h : SameMod t a b) : a = b := by
  obtain ⟨k, hk⟩ := h
  rcases ht with rfl | rfl | rfl | rfl | rfl <;>
    simp only [IntTy.Holds, int8, uint8, int16, uint16, int32, if_true, Bool.false_eq_true, if_false] at ha hb hk <;>
    omega

theorem SameMod.symm {t : IntTy} {a b : Int} (h : SameMod t a b) : SameMod t b a := by
  obtain ⟨k, hk⟩ := h; exact ⟨-k, by rw [hk]; ring⟩
theorem SameMod.trans {t : IntTy} {a b c : Int} (h : SameMod t a b) (h' : SameMod t b c) : SameMod t a c := by
  obtain ⟨k, hk⟩ := h; obtain ⟨l, hl⟩ := h'; exact ⟨k + l, by rw [hk, hl]; ring⟩
theorem SameMod.add {t : IntTy} {a b c d : Int} (h : SameMod t a b) (h' : SameMod t c d) :
    SameMod t (a + c) (b + d) := by
  obtain ⟨k, hk⟩ := h; obtain ⟨l, hl⟩ := h'; exact ⟨k + l, by rw [hk, hl]; ring⟩
theorem SameMod.refl (t : IntTy) (a : Int) : SameMod t a a := ⟨0, by ring⟩

theorem conv_id {t : IntTy} (ht : Ty t) {v : Int} (h : t.Holds v) : t.conv v = v :=
  sameMod_eq ht (conv_spec ht v).1 h (conv_spec ht v).2

theorem conv_congr {t : IntTy} (ht : Ty t) {a b : Int} (h : SameMod t a b) : t.conv a = t.conv b :=
  sameMod_eq ht (conv_spec ht a).1 (conv_spec ht b).1
    (((conv_spec ht a).2.trans h).trans (conv_spec ht b).2.symm)

theorem Narrow.ty {t : IntTy} (h : Narrow t) : Ty t := by
  rcases h with h | h | h | h <;> simp [Ty, h]

theorem Narrow.bound {t : IntTy} (h : Narrow t) {v : Int} (hv : t.Holds v) : -32768 ≤ v ∧ v ≤ 65535 := by
  rcases h with rfl | rfl | rfl | rfl <;>
    simp only [IntTy.Holds, int8, uint8, int16, uint16, if_true, Bool.false_eq_true, if_false] at hv <;> omega

/-! ## Corners -/

/-- **C69**, `int`: the corners are the expected points as long as one position behind the rectangle is
representable (and the size is not INT_MIN). -/
theorem corners_int_partial (r : Rect)
    (hx : InInt (r.topLeft.x + r.size.width)) (hy : InInt (r.topLeft.y + r.size.height))
    (hx1 : InInt (r.topLeft.x + r.size.width - 1)) (hy1 : InInt (r.topLeft.y + r.size.height - 1))
    (hw : InInt (r.size.width - 1)) (hh : InInt (r.size.height - 1)) :
    r.bottomLeft int32 = .ok ⟨r.topLeft.x, r.topLeft.y + r.size.height - 1⟩ ∧
    r.topRight = .ok ⟨r.topLeft.x + r.size.width - 1, r.topLeft.y⟩ ∧
    r.bottomRight int32 = .ok ⟨r.topLeft.x + r.size.width - 1, r.topLeft.y + r.size.height - 1⟩ := by
  have ht : Ty int32 := by simp [Ty]
  have hc : ∀ v : Int, InInt v → int32.conv v = v := by
    intro v hv
    apply conv_id ht
    simp only [IntTy.Holds, int32, if_true, InInt] at hv ⊢
    omega
  refine ⟨?_, ?_, ?_⟩
  · simp only [Rect.bottomLeft, chk_ok hy, chk_ok hy1, Res.bind_ok, hc _ hy1]
  · simp only [Rect.topRight, chk_ok hx, chk_ok hx1, Res.bind_ok]
  · have e1 : r.topLeft.x + (r.size.width - 1) = r.topLeft.x + r.size.width - 1 := by ring
    have e2 : r.topLeft.y + (r.size.height - 1) = r.topLeft.y + r.size.height - 1 := by ring
    simp only [Rect.bottomRight, Size.sub, Point.add, chk_ok hw, chk_ok hh, Res.bind_ok, hc _ hw, hc _ hh,
      e1, e2, chk_ok hx1, chk_ok hy1, hc _ hx1, hc _ hy1]

example : Rect.Holds int32 ⟨⟨1, 2⟩, ⟨3, 4⟩⟩ ∧ Rect.bottomRight int32 ⟨⟨1, 2⟩, ⟨3, 4⟩⟩ = .ok ⟨3, 5⟩ := by
  refine ⟨⟨⟨?_, ?_⟩, ?_, ?_⟩, by decide⟩ <;> simp [IntTy.Holds, int32]

/-- **C69** is false at the edge of the range: a one-pixel rectangle at x = INT_MAX has a bottom right
corner, but computing its top right corner overflows although the result is representable. -/
theorem topRight_overflows :
    ∃ r : Rect, r.Holds int32 ∧ InInt (r.topLeft.x + r.size.width - 1) ∧ r.topRight = .ub ∧
      r.bottomRight int32 = .ok ⟨r.topLeft.x + r.size.width - 1, r.topLeft.y + r.size.height - 1⟩ := by
  refine ⟨⟨⟨2147483647, 0⟩, ⟨1, 1⟩⟩, ⟨⟨?_, ?_⟩, ?_, ?_⟩, by decide, by decide, by decide⟩ <;>
    simp [IntTy.Holds, int32]

/-- **C69**, `int`, exactly when each corner is computed without overflow, for every rectangle. -/
theorem corners_exact (r : Rect) :
    r.bottomLeft int32 = (if InInt (r.topLeft.y + r.size.height) ∧ InInt (r.topLeft.y + r.size.height - 1)
      then .ok ⟨r.topLeft.x, r.topLeft.y + r.size.height - 1⟩ else .ub) ∧
    r.topRight = (if InInt (r.topLeft.x + r.size.width) ∧ InInt (r.topLeft.x + r.size.width - 1)
      then .ok ⟨r.topLeft.x + r.size.width - 1, r.topLeft.y⟩ else .ub) ∧
    r.bottomRight int32 = (if (InInt (r.size.width - 1) ∧ InInt (r.size.height - 1)) ∧
        InInt (r.topLeft.x + r.size.width - 1) ∧ InInt (r.topLeft.y + r.size.height - 1)
      then .ok ⟨r.topLeft.x + r.size.width - 1, r.topLeft.y + r.size.height - 1⟩ else .ub) := by
  have hc : ∀ v : Int, InInt v → int32.conv v = v := by
    intro v hv
    apply conv_id (by simp [Ty])
    simp only [IntTy.Holds, int32, if_true, InInt] at hv ⊢
    omega
  refine ⟨?_, ?_, ?_⟩
  · unfold Rect.bottomLeft chk
    by_cases h1 : InInt (r.topLeft.y + r.size.height)
    · rw [if_pos h1]; simp only [Res.bind_ok]
      by_cases h2 : InInt (r.topLeft.y + r.size.height - 1)
      · rw [if_pos h2, if_pos ⟨h1, h2⟩]; simp only [Res.bind_ok]; rw [hc _ h2]
      · rw [if_neg h2]; exact (if_neg (fun h => h2 h.2)).symm
    · rw [if_neg h1]; exact (if_neg (fun h => h1 h.1)).symm
  · unfold Rect.topRight chk
    by_cases h1 : InInt (r.topLeft.x + r.size.width)
    · rw [if_pos h1]; simp only [Res.bind_ok]
      by_cases h2 : InInt (r.topLeft.x + r.size.width - 1)
      · rw [if_pos h2, if_pos ⟨h1, h2⟩]; rfl
      · rw [if_neg h2]; exact (if_neg (fun h => h2 h.2)).symm
    · rw [if_neg h1]; exact (if_neg (fun h => h1 h.1)).symm
  · unfold Rect.bottomRight Size.sub Point.add chk
    rw [Int.add_sub_assoc, Int.add_sub_assoc]
    by_cases h1 : InInt (r.size.width - 1)
    · rw [if_pos h1]; simp only [Res.bind_ok]
      by_cases h2 : InInt (r.size.height - 1)
      · rw [if_pos h2]; simp only [Res.bind_ok, hc _ h1, hc _ h2]
        by_cases h3 : InInt (r.topLeft.x + (r.size.width - 1))
        · rw [if_pos h3]; simp only [Res.bind_ok]
          by_cases h4 : InInt (r.topLeft.y + (r.size.height - 1))
          · rw [if_pos h4, if_pos ⟨⟨h1, h2⟩, h3, h4⟩]; simp only [Res.bind_ok]; rw [hc _ h3, hc _ h4]
          · rw [if_neg h4]; exact (if_neg (fun h => h4 h.2.2)).symm
        · rw [if_neg h3]; exact (if_neg (fun h => h3 h.2.1)).symm
      · rw [if_neg h2]; exact (if_neg (fun h => h2 h.1.2)).symm
    · rw [if_neg h1]; exact (if_neg (fun h => h1 h.1.1)).symm

/-- **C69**, narrow types: the corners never overflow; they are the expected points modulo the range of
the type, and therefore exact when they are representable. -/
theorem corners_narrow {t : IntTy} (ht : Narrow t) (r : Rect) (hr : r.Holds t) :
    ∃ bl br, r.bottomLeft t = .ok bl ∧ r.bottomRight t = .ok br ∧ bl.Holds t ∧ br.Holds t ∧
      bl.x = r.topLeft.x ∧ bl.y = br.y ∧
      SameMod t br.x (r.topLeft.x + r.size.width - 1) ∧ SameMod t br.y (r.topLeft.y + r.size.height - 1) := by
  obtain ⟨⟨h1, h2⟩, h3, h4⟩ := hr
  have b1 := ht.bound h1; have b2 := ht.bound h2; have b3 := ht.bound h3; have b4 := ht.bound h4
  have cw := conv_spec ht.ty (r.size.width - 1)
  have ch := conv_spec ht.ty (r.size.height - 1)
  have b5 := ht.bound cw.1; have b6 := ht.bound ch.1
  have k1 : chk (r.topLeft.y + r.size.height) = .ok (r.topLeft.y + r.size.height) := chk_ok (by constructor <;> omega)
  have k2 : chk (r.topLeft.y + r.size.height - 1) = .ok (r.topLeft.y + r.size.height - 1) :=
    chk_ok (by constructor <;> omega)
  have k3 : chk (r.size.width - 1) = .ok (r.size.width - 1) := chk_ok (by constructor <;> omega)
  have k4 : chk (r.size.height - 1) = .ok (r.size.height - 1) := chk_ok (by constructor <;> omega)
  have k5 : chk (r.topLeft.x + t.conv (r.size.width - 1)) = .ok (r.topLeft.x + t.conv (r.size.width - 1)) :=
    chk_ok (by constructor <;> omega)
  have k6 : chk (r.topLeft.y + t.conv (r.size.height - 1)) = .ok (r.topLeft.y + t.conv (r.size.height - 1)) :=
    chk_ok (by constructor <;> omega)
  have ex := (conv_spec ht.ty (r.topLeft.x + t.conv (r.size.width - 1)))
  have ey := (conv_spec ht.ty (r.topLeft.y + t.conv (r.size.height - 1)))
  have mx : SameMod t (r.topLeft.x + t.conv (r.size.width - 1)) (r.topLeft.x + r.size.width - 1) := by
    have := (SameMod.refl t r.topLeft.x).add cw.2
    rwa [show r.topLeft.x + (r.size.width - 1) = r.topLeft.x + r.size.width - 1 by ring] at this
  have my : SameMod t (r.topLeft.y + t.conv (r.size.height - 1)) (r.topLeft.y + r.size.height - 1) := by
    have := (SameMod.refl t r.topLeft.y).add ch.2
    rwa [show r.topLeft.y + (r.size.height - 1) = r.topLeft.y + r.size.height - 1 by ring] at this
  refine ⟨⟨r.topLeft.x, t.conv (r.topLeft.y + r.size.height - 1)⟩,
    ⟨t.conv (r.topLeft.x + t.conv (r.size.width - 1)), t.conv (r.topLeft.y + t.conv (r.size.height - 1))⟩,
    ?_, ?_, ⟨h1, (conv_spec ht.ty _).1⟩, ⟨ex.1, ey.1⟩, rfl, ?_, ex.2.trans mx, ey.2.trans my⟩
  · simp only [Rect.bottomLeft, k1, k2, Res.bind_ok]
  · simp only [Rect.bottomRight, Size.sub, Point.add, k3, k4, k5, k6, Res.bind_ok]
  · exact conv_congr ht.ty my.symm

-- A glyph box of FreeSans: 8-bit unsigned, and one that wraps.
example : Rect.bottomRight uint8 ⟨⟨3, 4⟩, ⟨10, 20⟩⟩ = .ok ⟨12, 23⟩ ∧
    Rect.bottomRight uint8 ⟨⟨250, 4⟩, ⟨10, 20⟩⟩ = .ok ⟨3, 23⟩ := by decide

/-! ## Translation -/

/-- **C70**: `+=` leaves exactly what `+` returns, for points and rectangles. -/
theorem addAssign_eq_add (t : IntTy) (p : Point) (r : Rect) (s : Size) :
    p.addAssign t s = p.add t s ∧ r.addAssign t s = r.add t s := by
  have hp : ∀ p : Point, p.addAssign t s = p.add t s := by
    intro p
    unfold Point.addAssign Point.add
    cases chk (p.x + s.width) with
    | ub => rfl
    | hang => rfl
    | ok v => simp only [Res.bind_ok]
  refine ⟨hp p, ?_⟩
  unfold Rect.addAssign Rect.add
  rw [hp]

/-- **C70**: translating a point: exact in `int` when the result fits, undefined otherwise. -/
theorem add_int (p : Point) (s : Size) :
    p.add int32 s = if InInt (p.x + s.width) ∧ InInt (p.y + s.height) then .ok ⟨p.x + s.width, p.y + s.height⟩
      else .ub := by
  have ht : Ty int32 := by simp [Ty]
  have hc : ∀ v : Int, InInt v → int32.conv v = v := by
    intro v hv
    apply conv_id ht
    simp only [IntTy.Holds, int32, if_true, InInt] at hv ⊢
    omega
  unfold Point.add
  by_cases hx : InInt (p.x + s.width)
  · by_cases hy : InInt (p.y + s.height)
    · rw [if_pos ⟨hx, hy⟩]; simp only [chk_ok hx, chk_ok hy, Res.bind_ok, hc _ hx, hc _ hy]
    · rw [if_neg (fun h => hy h.2)]; simp only [chk_ok hx, chk_ub hy, Res.bind_ok, Res.bind_ub]
  · rw [if_neg (fun h => hx h.1)]; simp only [chk_ub hx, Res.bind_ub]

example : Point.add int32 ⟨2, 3⟩ ⟨4, 5⟩ = .ok ⟨6, 8⟩ := by decide

/-- **C70**: in narrow types translation never overflows, is exact modulo the range, and two translations
can be done in either order. -/
theorem add_narrow {t : IntTy} (ht : Narrow t) (p : Point) (hp : p.Holds t) (s u : Size)
    (hs : s.Holds t) (hu : u.Holds t) :
    ∃ q v, p.add t s = .ok q ∧ q.Holds t ∧ SameMod t q.x (p.x + s.width) ∧ SameMod t q.y (p.y + s.height) ∧
      q.add t u = .ok v ∧ (do let w ← p.add t u; w.add t s) = .ok v := by
  have one : ∀ (p : Point) (s : Size), p.Holds t → s.Holds t →
      p.add t s = .ok ⟨t.conv (p.x + s.width), t.conv (p.y + s.height)⟩ := by
    intro p s hp hs
    have b1 := ht.bound hp.1; have b2 := ht.bound hp.2; have b3 := ht.bound hs.1; have b4 := ht.bound hs.2
    have k1 : chk (p.x + s.width) = .ok (p.x + s.width) := chk_ok (by constructor <;> omega)
    have k2 : chk (p.y + s.height) = .ok (p.y + s.height) := chk_ok (by constructor <;> omega)
    simp only [Point.add, k1, k2, Res.bind_ok]
  have cx := conv_spec ht.ty (p.x + s.width); have cy := conv_spec ht.ty (p.y + s.height)
  have dx := conv_spec ht.ty (p.x + u.width); have dy := conv_spec ht.ty (p.y + u.height)
  refine ⟨_, _, one p s hp hs, ⟨cx.1, cy.1⟩, cx.2, cy.2, one _ u ⟨cx.1, cy.1⟩ hu, ?_⟩
  rw [one p u hp hu]
  simp only [Res.bind_ok]
  rw [one _ s ⟨dx.1, dy.1⟩ hs]
  simp only
  congr 2
  · apply conv_congr ht.ty
    have h1 := dx.2.add (SameMod.refl t s.width)
    have h2 := cx.2.add (SameMod.refl t u.width)
    rw [show p.x + u.width + s.width = p.x + s.width + u.width by ring] at h1
    exact h1.trans h2.symm
  · apply conv_congr ht.ty
    have h1 := dy.2.add (SameMod.refl t s.height)
    have h2 := cy.2.add (SameMod.refl t u.height)
    rw [show p.y + u.height + s.height = p.y + s.height + u.height by ring] at h1
    exact h1.trans h2.symm

example : Point.Holds int8 ⟨100, -100⟩ ∧ Size.Holds int8 ⟨100, -100⟩ ∧
    Point.add int8 ⟨100, -100⟩ ⟨100, -100⟩ = .ok ⟨-56, 56⟩ := by
  refine ⟨⟨?_, ?_⟩, ⟨?_, ?_⟩, by decide⟩ <;> simp [IntTy.Holds, int8]

/-- **C70**: moving a rectangle moves its corner, in narrow types always. -/
theorem translate_corner_narrow {t : IntTy} (ht : Narrow t) (r : Rect) (hr : r.Holds t) (s : Size) (hs : s.Holds t) :
    ∃ r' br br', r.add t s = .ok r' ∧ r'.size = r.size ∧ r.bottomRight t = .ok br ∧
      r'.bottomRight t = .ok br' ∧ br.add t s = .ok br' := by
  obtain ⟨q, v, h1, h2, h3, h4, -, -⟩ := add_narrow ht r.topLeft hr.1 s s hs hs
  obtain ⟨bl, br, -, e2, -, e4, -, -, e7, e8⟩ := corners_narrow ht r hr
  obtain ⟨bl', br', -, f2, -, f4, -, -, f7, f8⟩ := corners_narrow ht ⟨q, r.size⟩ ⟨h2, hr.2⟩
  obtain ⟨w, -, g1, g2, g3, g4, -, -⟩ := add_narrow ht br e4 s s hs hs
  refine ⟨⟨q, r.size⟩, br, br', by simp [Rect.add, h1], rfl, e2, f2, ?_⟩
  rw [g1]
  congr 1
  obtain ⟨wx, wy⟩ := w
  obtain ⟨bx, bY⟩ := br'
  simp only [Point.mk.injEq]
  simp only at g3 g4 f7 f8 h3 h4
  constructor
  · refine sameMod_eq ht.ty g2.1 f4.1 ?_
    have a1 := g3.trans (e7.add (SameMod.refl t s.width))
    have a2 := f7.trans (((h3.add (SameMod.refl t r.size.width))).add (SameMod.refl t (-1)))
    rw [show r.topLeft.x + r.size.width - 1 + s.width = r.topLeft.x + s.width + r.size.width + -1 by ring] at a1
    exact a1.trans a2.symm
  · refine sameMod_eq ht.ty g2.2 f4.2 ?_
    have a1 := g4.trans (e8.add (SameMod.refl t s.height))
    have a2 := f8.trans (((h4.add (SameMod.refl t r.size.height))).add (SameMod.refl t (-1)))
    rw [show r.topLeft.y + r.size.height - 1 + s.height = r.topLeft.y + s.height + r.size.height + -1 by ring] at a1
    exact a1.trans a2.symm

/-- **C70**: in `int`, moving a rectangle moves its corner whenever the three computations are defined. -/
theorem translate_corner_int (r r' : Rect) (s : Size) (br br' : Point) (h : r.add int32 s = .ok r')
    (h1 : r.bottomRight int32 = .ok br) (h2 : r'.bottomRight int32 = .ok br') : br.add int32 s = .ok br' := by
  have ht : Ty int32 := by simp [Ty]
  have hc : ∀ v : Int, InInt v → int32.conv v = v := by
    intro v hv
    apply conv_id ht
    simp only [IntTy.Holds, int32, if_true, InInt] at hv ⊢
    omega
  have hsub : ∀ {a b c : Size}, a.sub int32 b = .ok c → c = ⟨a.width - b.width, a.height - b.height⟩ := by
    intro a b c h
    unfold Size.sub at h
    by_cases i1 : InInt (a.width - b.width)
    · by_cases i2 : InInt (a.height - b.height)
      · simp only [chk_ok i1, chk_ok i2, Res.bind_ok, hc _ i1, hc _ i2] at h; cases h; rfl
      · simp only [chk_ok i1, chk_ub i2, Res.bind_ok, Res.bind_ub] at h; cases h
    · simp only [chk_ub i1, Res.bind_ub] at h; cases h
  have hadd : ∀ {p q : Point} {u : Size}, p.add int32 u = .ok q →
      q = ⟨p.x + u.width, p.y + u.height⟩ ∧ InInt (p.x + u.width) ∧ InInt (p.y + u.height) := by
    intro p q u h
    rw [add_int] at h
    split at h
    · cases h; exact ⟨rfl, by assumption⟩
    · cases h
  unfold Rect.add at h
  rw [Res.bind_eq_ok] at h
  obtain ⟨p, hp, h⟩ := h
  cases h
  obtain ⟨rfl, -, -⟩ := hadd hp
  unfold Rect.bottomRight at h1 h2
  rw [Res.bind_eq_ok] at h1 h2
  obtain ⟨u, hu, h1⟩ := h1
  obtain ⟨u', hu', h2⟩ := h2
  have e1 := hsub hu
  have e2 := hsub hu'
  obtain ⟨e3, -, -⟩ := hadd h1
  obtain ⟨e4, i1, i2⟩ := hadd h2
  subst e1 e2 e3 e4
  rw [add_int, if_pos]
  · simp only [Res.ok.injEq, Point.mk.injEq]
    constructor <;> ring
  · simp only at i1 i2 ⊢
    rw [show r.topLeft.x + (r.size.width - 1) + s.width = r.topLeft.x + s.width + (r.size.width - 1) by ring,
      show r.topLeft.y + (r.size.height - 1) + s.height = r.topLeft.y + s.height + (r.size.height - 1) by ring]
    exact ⟨i1, i2⟩

/-! ## Conversion and comparison -/

/-- **C70**: converting a rectangle keeps it when it fits the target type, and in any case keeps it modulo
the range of that type. -/
theorem convert_exact {t : IntTy} (ht : Ty t) (r : Rect) :
    (r.Holds t → r.convert t = r) ∧ (r.convert t).Holds t ∧
      SameMod t (r.convert t).topLeft.x r.topLeft.x ∧ SameMod t (r.convert t).topLeft.y r.topLeft.y ∧
      SameMod t (r.convert t).size.width r.size.width ∧ SameMod t (r.convert t).size.height r.size.height := by
  refine ⟨?_, ⟨⟨(conv_spec ht _).1, (conv_spec ht _).1⟩, (conv_spec ht _).1, (conv_spec ht _).1⟩,
    (conv_spec ht _).2, (conv_spec ht _).2, (conv_spec ht _).2, (conv_spec ht _).2⟩
  rintro ⟨⟨h1, h2⟩, h3, h4⟩
  obtain ⟨⟨x, y⟩, w, h⟩ := r
  simp only [Rect.convert, conv_id ht h1, conv_id ht h2, conv_id ht h3, conv_id ht h4]

/-- `Size<uint8_t>`/`Size<int8_t>` values of the font tables convert to `int` without loss. -/
theorem convert_to_int {t : IntTy} (ht : Narrow t) (r : Rect) (hr : r.Holds t) : r.convert int32 = r := by
  refine (convert_exact (by simp [Ty]) r).1 ?_
  have b1 := ht.bound hr.1.1; have b2 := ht.bound hr.1.2
  have b3 := ht.bound hr.2.1; have b4 := ht.bound hr.2.2
  refine ⟨⟨?_, ?_⟩, ?_, ?_⟩ <;> simp only [IntTy.Holds, int32, if_true] <;> omega

example : Rect.convert uint8 ⟨⟨-1, 256⟩, ⟨10, 300⟩⟩ = ⟨⟨255, 0⟩, ⟨10, 44⟩⟩ := by decide

/-- **C70**: `==` is equality and `!=` its negation. -/
theorem point_eq_iff (p q : Point) : (p.eq q = true ↔ p = q) ∧ p.ne q = !p.eq q := by
  obtain ⟨x, y⟩ := p
  obtain ⟨x', y'⟩ := q
  constructor
  · simp [Point.eq]
  · simp [Point.eq, Point.ne, bne, Bool.not_and]

/-! ## Sizes -/

/-- **C70**: subtraction undoes addition. -/
theorem size_add_sub (a b c : Size) (ha : a.Holds int32) (h : a.add b = .ok c) : c.sub int32 b = .ok a := by
  have ht : Ty int32 := by simp [Ty]
  have hi : ∀ v : Int, int32.Holds v → InInt v := by
    intro v hv; simp only [IntTy.Holds, int32, if_true, InInt] at hv ⊢; omega
  unfold Size.add at h
  by_cases h1 : InInt (a.width + b.width)
  · by_cases h2 : InInt (a.height + b.height)
    · simp only [chk_ok h1, chk_ok h2, Res.bind_ok] at h
      cases h
      have e1 : a.width + b.width - b.width = a.width := by ring
      have e2 : a.height + b.height - b.height = a.height := by ring
      simp only [Size.sub, e1, e2, chk_ok (hi _ ha.1), chk_ok (hi _ ha.2), Res.bind_ok, conv_id ht ha.1,
        conv_id ht ha.2]
    · simp only [chk_ok h1, chk_ub h2, Res.bind_ok, Res.bind_ub] at h; cases h
  · simp only [chk_ub h1, Res.bind_ub] at h; cases h

/-- **C70**: division undoes multiplication. -/
theorem size_mul_div (a c : Size) (k : Int) (hk : k ≠ 0) (ha : a.Holds int32) (h : a.mul k = .ok c) :
    c.div k = .ok a := by
  have hi : ∀ v : Int, int32.Holds v → InInt v := by
    intro v hv; simp only [IntTy.Holds, int32, if_true, InInt] at hv ⊢; omega
  unfold Size.mul at h
  by_cases h1 : InInt (a.width * k)
  · by_cases h2 : InInt (a.height * k)
    · simp only [chk_ok h1, chk_ok h2, Res.bind_ok] at h
      cases h
      simp only [Size.div, idiv, if_neg hk, Int.mul_tdiv_cancel _ hk, chk_ok (hi _ ha.1), chk_ok (hi _ ha.2),
        Res.bind_ok]
    · simp only [chk_ok h1, chk_ub h2, Res.bind_ok, Res.bind_ub] at h; cases h
  · simp only [chk_ub h1, Res.bind_ub] at h; cases h

example : Size.Holds int32 ⟨3, -4⟩ ∧ Size.mul ⟨3, -4⟩ 2 = .ok ⟨6, -8⟩ ∧ Size.div ⟨7, -8⟩ 2 = .ok ⟨3, -4⟩ := by
  refine ⟨⟨?_, ?_⟩, by decide, by decide⟩ <;> simp [IntTy.Holds, int32]

/-- **C70**: division truncates towards zero; it is undefined exactly for a zero divisor and for
INT_MIN / -1. -/
theorem size_div (a : Size) (k : Int) (ha : a.Holds int32) :
    (a.div k = .ub ↔ k = 0 ∨ (k = -1 ∧ (a.width = -2147483648 ∨ a.height = -2147483648))) ∧
    ∀ q, a.div k = .ok q →
      (q.width * k).natAbs ≤ a.width.natAbs ∧ (a.width - q.width * k).natAbs < k.natAbs ∧
      (q.height * k).natAbs ≤ a.height.natAbs ∧ (a.height - q.height * k).natAbs < k.natAbs := by
  have hd : ∀ v : Int, int32.Holds v → k ≠ 0 → (¬ InInt (v.tdiv k) ↔ k = -1 ∧ v = -2147483648) := by
    intro v hv hk
    simp only [IntTy.Holds, int32, if_true, InInt] at hv ⊢
    have hab : (v.tdiv k).natAbs = v.natAbs / k.natAbs := Int.natAbs_tdiv v k
    constructor
    · intro hn
      have hk1 : k.natAbs = 1 := by
        by_contra hne
        have : 2 ≤ k.natAbs := by omega
        have h2 : v.natAbs / k.natAbs ≤ v.natAbs / 2 := Nat.div_le_div_left this (by omega)
        omega
      rcases Int.natAbs_eq k with h | h <;> rw [hk1] at h
      · have h' : k = 1 := by simpa using h
        rw [h', Int.tdiv_one] at hn; omega
      · have h' : k = -1 := by simpa using h
        rw [h'] at hn
        rw [show v.tdiv (-1) = -v by simp] at hn
        exact ⟨h', by omega⟩
    · rintro ⟨rfl, rfl⟩; decide
  have hq : ∀ v : Int, k ≠ 0 → (v.tdiv k * k).natAbs ≤ v.natAbs ∧ (v - v.tdiv k * k).natAbs < k.natAbs := by
    intro v hk
    have h1 : v - v.tdiv k * k = v.tmod k := by
      have := Int.tmod_add_tdiv_mul v k; linarith
    rw [h1, Int.natAbs_tmod, Int.natAbs_mul, Int.natAbs_tdiv]
    exact ⟨Nat.div_mul_le_self _ _, Nat.mod_lt _ (by omega)⟩
  by_cases hk : k = 0
  · subst hk
    refine ⟨?_, ?_⟩
    · simp [Size.div, idiv]
    · intro q h; simp [Size.div, idiv] at h
  · have h1 := hd a.width ha.1 hk; have h2 := hd a.height ha.2 hk
    unfold Size.div idiv
    simp only [if_neg hk]
    by_cases c1 : InInt (a.width.tdiv k)
    · by_cases c2 : InInt (a.height.tdiv k)
      · simp only [chk_ok c1, chk_ok c2, Res.bind_ok]
        constructor
        · constructor
          · intro h; cases h
          · rintro (h | ⟨h, h' | h'⟩)
            · exact absurd h hk
            · exact absurd c1 (h1.2 ⟨h, h'⟩)
            · exact absurd c2 (h2.2 ⟨h, h'⟩)
        · intro q h
          cases h
          exact ⟨(hq _ hk).1, (hq _ hk).2, (hq _ hk).1, (hq _ hk).2⟩
      · simp only [chk_ok c1, chk_ub c2, Res.bind_ok, Res.bind_ub]
        refine ⟨⟨fun _ => .inr ⟨(h2.1 c2).1, .inr (h2.1 c2).2⟩, fun _ => trivial⟩, ?_⟩
        intro q h; cases h
    · simp only [chk_ub c1, Res.bind_ub]
      refine ⟨⟨fun _ => .inr ⟨(h1.1 c1).1, .inl (h1.1 c1).2⟩, fun _ => trivial⟩, ?_⟩
      intro q h; cases h

/-! ## Matrices -/

/-- **C70**: the matrix product, for `int` without overflow, is the textbook one. -/
theorem matrix_mul_int (m : Matrix) (v p : Point) (h : m.mul int32 v = .ok p) :
    p = ⟨m.a * v.x + m.b * v.y, m.c * v.x + m.d * v.y⟩ := by
  have ht : Ty int32 := by simp [Ty]
  have hc : ∀ v : Int, InInt v → int32.conv v = v := by
    intro v hv
    apply conv_id ht
    simp only [IntTy.Holds, int32, if_true, InInt] at hv ⊢
    omega
  have hchk : ∀ {a b : Int}, chk a = .ok b → b = a ∧ InInt a := by
    intro a b h
    unfold chk at h
    split at h
    · cases h; exact ⟨rfl, by assumption⟩
    · cases h
  unfold Matrix.mul at h
  simp only [Res.bind_eq_ok] at h
  obtain ⟨a1, e1, a2, e2, a3, e3, a4, e4, a5, e5, a6, e6, h⟩ := h
  obtain ⟨rfl, -⟩ := hchk e1; obtain ⟨rfl, -⟩ := hchk e2; obtain ⟨rfl, i3⟩ := hchk e3
  obtain ⟨rfl, -⟩ := hchk e4; obtain ⟨rfl, -⟩ := hchk e5; obtain ⟨rfl, i6⟩ := hchk e6
  rw [hc _ i3, hc _ i6] at h
  cases h; rfl

/-- 8-bit matrices never overflow; the result is right modulo 256. -/
theorem matrix_mul_8bit {t : IntTy} (ht : t = int8 ∨ t = uint8) (m : Matrix) (v : Point)
    (hm : t.Holds m.a ∧ t.Holds m.b ∧ t.Holds m.c ∧ t.Holds m.d) (hv : v.Holds t) :
    ∃ p, m.mul t v = .ok p ∧ p.Holds t ∧ SameMod t p.x (m.a * v.x + m.b * v.y) ∧
      SameMod t p.y (m.c * v.x + m.d * v.y) := by
  have hty : Ty t := by rcases ht with h | h <;> simp [Ty, h]
  have hb : ∀ w : Int, t.Holds w → -255 ≤ w ∧ w ≤ 255 := by
    intro w hw
    rcases ht with rfl | rfl <;>
      simp only [IntTy.Holds, int8, uint8, if_true, Bool.false_eq_true, if_false] at hw <;> omega
  have hp : ∀ u w : Int, t.Holds u → t.Holds w → -65025 ≤ u * w ∧ u * w ≤ 65025 := by
    intro u w hu hw
    have := hb u hu; have := hb w hw
    constructor <;> nlinarith
  obtain ⟨ha, hb', hc, hd⟩ := hm
  have p1 := hp _ _ ha hv.1; have p2 := hp _ _ hb' hv.2
  have p3 := hp _ _ hc hv.1; have p4 := hp _ _ hd hv.2
  have k1 := chk_ok (v := m.a * v.x) (by constructor <;> omega)
  have k2 := chk_ok (v := m.b * v.y) (by constructor <;> omega)
  have k3 := chk_ok (v := m.a * v.x + m.b * v.y) (by constructor <;> omega)
  have k4 := chk_ok (v := m.c * v.x) (by constructor <;> omega)
  have k5 := chk_ok (v := m.d * v.y) (by constructor <;> omega)
  have k6 := chk_ok (v := m.c * v.x + m.d * v.y) (by constructor <;> omega)
  refine ⟨⟨t.conv (m.a * v.x + m.b * v.y), t.conv (m.c * v.x + m.d * v.y)⟩, ?_,
    ⟨(conv_spec hty _).1, (conv_spec hty _).1⟩, (conv_spec hty _).2, (conv_spec hty _).2⟩
  simp only [Matrix.mul, k1, k2, k3, k4, k5, k6, Res.bind_ok]

/-- **C70**: exactly when the product is defined, in any element type: all the products and sums are values of `int`. -/
theorem matrix_mul_defined (t : IntTy) (m : Matrix) (v : Point) :
    m.mul t v = if InInt (m.a * v.x) ∧ InInt (m.b * v.y) ∧ InInt (m.a * v.x + m.b * v.y) ∧
        InInt (m.c * v.x) ∧ InInt (m.d * v.y) ∧ InInt (m.c * v.x + m.d * v.y)
      then .ok ⟨t.conv (m.a * v.x + m.b * v.y), t.conv (m.c * v.x + m.d * v.y)⟩ else .ub := by
  unfold Matrix.mul chk
  have step : ∀ {α : Type} (p : Prop) [Decidable p] (x : Int) (f : Int → Res α) (g : Res α),
      (p → f x = g) → (¬ p → g = .ub) → ((if p then Res.ok x else .ub) >>= f) = g := by
    intro α p _ x f g h1 h2
    by_cases hp : p
    · rw [if_pos hp]; exact h1 hp
    · rw [if_neg hp, h2 hp]; rfl
  refine step _ _ _ _ (fun h1 => ?_) (fun h => if_neg (by tauto))
  refine step _ _ _ _ (fun h2 => ?_) (fun h => if_neg (by tauto))
  refine step _ _ _ _ (fun h3 => ?_) (fun h => if_neg (by tauto))
  refine step _ _ _ _ (fun h4 => ?_) (fun h => if_neg (by tauto))
  refine step _ _ _ _ (fun h5 => ?_) (fun h => if_neg (by tauto))
  refine step _ _ _ _ (fun h6 => ?_) (fun h => if_neg (by tauto))
  rw [if_pos ⟨h1, h2, h3, h4, h5, h6⟩]

private theorem prod16 {u w : Int} (hu : -32768 ≤ u ∧ u ≤ 32767) (hw : -32768 ≤ w ∧ w ≤ 32767) :
    -1073741824 < u * w ∧ u * w ≤ 1073741824 ∧ (u * w = 1073741824 ↔ u = -32768 ∧ w = -32768) := by
  refine ⟨by nlinarith, by nlinarith, fun h => ?_, by rintro ⟨rfl, rfl⟩; rfl⟩
  constructor <;> nlinarith

/-- **C70**: signed 16-bit products are defined with a single exception in each row: all four factors being -32768. -/
theorem matrix_mul_int16 (m : Matrix) (v : Point)
    (hm : int16.Holds m.a ∧ int16.Holds m.b ∧ int16.Holds m.c ∧ int16.Holds m.d) (hv : v.Holds int16) :
    m.mul int16 v = if v = ⟨-32768, -32768⟩ ∧ (m.a = -32768 ∧ m.b = -32768 ∨ m.c = -32768 ∧ m.d = -32768) then .ub
      else .ok ⟨int16.conv (m.a * v.x + m.b * v.y), int16.conv (m.c * v.x + m.d * v.y)⟩ := by
  obtain ⟨ha, hb, hc, hd⟩ := hm
  obtain ⟨hx, hy⟩ := hv
  obtain ⟨x, y⟩ := v
  have hh : ∀ w : Int, int16.Holds w → -32768 ≤ w ∧ w ≤ 32767 := by
    intro w hw; simp only [IntTy.Holds, int16, if_true] at hw; omega
  have p1 := prod16 (hh _ ha) (hh _ hx)
  have p2 := prod16 (hh _ hb) (hh _ hy)
  have p3 := prod16 (hh _ hc) (hh _ hx)
  have p4 := prod16 (hh _ hd) (hh _ hy)
  rw [matrix_mul_defined]
  simp only [InInt, Point.mk.injEq] at p1 p2 p3 p4 ⊢
  generalize m.a * x = e1 at *
  generalize m.b * y = e2 at *
  generalize m.c * x = e3 at *
  generalize m.d * y = e4 at *
  by_cases hub : (x = -32768 ∧ y = -32768) ∧ (m.a = -32768 ∧ m.b = -32768 ∨ m.c = -32768 ∧ m.d = -32768)
  · rw [if_pos hub, if_neg (by omega)]
  · rw [if_neg hub, if_pos (by omega)]

example : Matrix.mul int16 ⟨-32768, 0, 1, 1⟩ ⟨-32768, -32768⟩ = .ok ⟨0, 0⟩ := by decide

/-- … but 16-bit unsigned ones overflow `int`, although the element type is unsigned. -/
theorem matrix_mul_uint16_ub :
    Matrix.mul uint16 ⟨65535, 0, 0, 1⟩ ⟨65535, 0⟩ = .ub ∧ uint16.Holds 65535 := by
  refine ⟨by decide, by simp [IntTy.Holds, uint16]⟩

example : Matrix.mul int32 ⟨2, 1, -3, 0⟩ ⟨2, 3⟩ = .ok ⟨7, -6⟩ := by decide

/-! ## The definitions used by the canvas model agree -/

theorem canvas_corners_agree (x y w h : Int) :
    Canvas.Rect.topRight ⟨⟨x, y⟩, ⟨w, h⟩⟩ =
      (do let p ← Rect.topRight ⟨⟨x, y⟩, ⟨w, h⟩⟩; .ok (Canvas.Pt.mk p.x p.y)) ∧
    Canvas.Rect.bottomLeft ⟨⟨x, y⟩, ⟨w, h⟩⟩ =
      (do let p ← Rect.bottomLeft int32 ⟨⟨x, y⟩, ⟨w, h⟩⟩; .ok (Canvas.Pt.mk p.x p.y)) ∧
    Canvas.Rect.bottomRight ⟨⟨x, y⟩, ⟨w, h⟩⟩ =
      (do let p ← Rect.bottomRight int32 ⟨⟨x, y⟩, ⟨w, h⟩⟩; .ok (Canvas.Pt.mk p.x p.y)) := by
  have ht : Ty int32 := by simp [Ty]
  have hc : ∀ v : Int, InInt v → int32.conv v = v := by
    intro v hv
    apply conv_id ht
    simp only [IntTy.Holds, int32, if_true, InInt] at hv ⊢
    omega
  refine ⟨?_, ?_, ?_⟩
  · unfold Canvas.Rect.topRight Rect.topRight
    by_cases h1 : InInt (x + w)
    · by_cases h2 : InInt (x + w - 1)
      · simp only [chk_ok h1, chk_ok h2, Res.bind_ok]
      · simp only [chk_ok h1, chk_ub h2, Res.bind_ok, Res.bind_ub]
    · simp only [chk_ub h1, Res.bind_ub]
  · unfold Canvas.Rect.bottomLeft Rect.bottomLeft
    by_cases h1 : InInt (y + h)
    · by_cases h2 : InInt (y + h - 1)
      · simp only [chk_ok h1, chk_ok h2, Res.bind_ok, hc _ h2]
      · simp only [chk_ok h1, chk_ub h2, Res.bind_ok, Res.bind_ub]
    · simp only [chk_ub h1, Res.bind_ub]
  · unfold Canvas.Rect.bottomRight Rect.bottomRight Canvas.Sz.sub Size.sub Canvas.Pt.add Point.add
    by_cases h1 : InInt (w - 1)
    · by_cases h2 : InInt (h - 1)
      · simp only [chk_ok h1, chk_ok h2, Res.bind_ok, hc _ h1, hc _ h2]
        by_cases h3 : InInt (x + (w - 1))
        · by_cases h4 : InInt (y + (h - 1))
          · simp only [chk_ok h3, chk_ok h4, Res.bind_ok, hc _ h3, hc _ h4]
          · simp only [chk_ok h3, chk_ub h4, Res.bind_ok, Res.bind_ub]
        · simp only [chk_ub h3, Res.bind_ub]
      · simp only [chk_ok h1, chk_ub h2, Res.bind_ok, Res.bind_ub]
    · simp only [chk_ub h1, Res.bind_ub]

end Verif.Geometry
