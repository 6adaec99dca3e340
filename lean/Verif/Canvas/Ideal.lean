import Verif.Canvas.Circle
import Mathlib.Analysis.Real.Sqrt
/-!
# C37, C38: digital circles and the circles of geometry

`OnCircle` and `InDisc` are conditions on integers.  Here they are compared with the circle of radius `r` in the real
plane.
-/
namespace Verif.Canvas
open Verif.FrameBuffer

/-- The distance of a pixel from the centre. -/
noncomputable def dist (X Y : Int) : ℝ := Real.sqrt ((X : ℝ) ^ 2 + (Y : ℝ) ^ 2)

/-- Half the width of the chord of the circle of radius `r` at height `Y`. -/
noncomputable def chord (r Y : Int) : ℝ := Real.sqrt ((r : ℝ) ^ 2 - (Y : ℝ) ^ 2)

/-- An integer is nearer than half a unit to the square root of an integer exactly if the integers say so. -/
theorem near_sqrt (X N : Int) (hX : 1 ≤ X) :
    (0 ≤ N ∧ |(X : ℝ) - Real.sqrt N| < 1 / 2) ↔ (-X ≤ X * X - N ∧ X * X - N < X) := by
  have hX' : (1 : ℝ) ≤ X := by exact_mod_cast hX
  constructor
  · rintro ⟨hN, h⟩
    rw [abs_lt] at h
    have hs := Real.sq_sqrt (show (0 : ℝ) ≤ N by exact_mod_cast hN)
    have h1 : (Real.sqrt N) < X + 1 / 2 := by linarith
    have h2 : (X : ℝ) - 1 / 2 < Real.sqrt N := by linarith
    have a1 : (N : ℝ) < X * X + X + 1 := by nlinarith [Real.sqrt_nonneg (N : ℝ)]
    have a2 : (X : ℝ) * X - X < N := by nlinarith
    have a1' : N < X * X + X + 1 := by exact_mod_cast a1
    have a2' : X * X - X < N := by exact_mod_cast a2
    omega
  · rintro ⟨h1, h2⟩
    have hq : X ≤ X * X := by nlinarith
    have hN : 0 ≤ N := by omega
    refine ⟨hN, ?_⟩
    have a1 : (N : ℝ) ≤ X * X + X := by
      have : N ≤ X * X + X := by omega
      exact_mod_cast this
    have a2 : (X : ℝ) * X - X + 1 ≤ N := by
      have : X * X - X + 1 ≤ N := by omega
      exact_mod_cast this
    rw [abs_lt]
    have b1 : Real.sqrt N < X + 1 / 2 := by
      rw [Real.sqrt_lt' (by linarith)]
      nlinarith
    have b2 : (X : ℝ) - 1 / 2 < Real.sqrt N := by
      apply Real.lt_sqrt_of_sq_lt
      nlinarith
    constructor <;> linarith

/-- **C37**: which pixels a circle has.  In the two sectors to the left and to the right of the centre a pixel is on the
digital circle exactly if it is nearer than half a pixel to the ideal circle, measured along its row - apart from the
corners on the diagonal. -/
theorem onCircle_row_iff (r X Y : Int) (hY : 0 ≤ Y) (hXY : Y < X) :
    OnCircle r X Y ↔ |Y| ≤ |r| ∧ |(X : ℝ) - chord r Y| < 1 / 2 := by
  have key := near_sqrt X (r * r - Y * Y) (by omega)
  have hm : max X Y = X := by omega
  have hc : chord r Y = Real.sqrt ((r * r - Y * Y : Int) : ℝ) := by
    unfold chord; congr 1; push_cast; ring
  have hN : (0 ≤ r * r - Y * Y) ↔ |Y| ≤ |r| := by
    rw [← sq_le_sq]
    constructor <;> intro h <;> nlinarith
  unfold OnCircle offset
  rw [hm, hc, ← hN, key]
  constructor
  · rintro ⟨h1, h2, h3, h4, h5⟩; constructor <;> linarith
  · rintro ⟨h1, h2⟩; exact ⟨by omega, hY, by linarith, by linarith, by omega⟩

/-- **C37**: the same for the sectors above and below, along the column. -/
theorem onCircle_column_iff (r X Y : Int) (hX : 0 ≤ X) (hXY : X < Y) :
    OnCircle r X Y ↔ |X| ≤ |r| ∧ |(Y : ℝ) - chord r X| < 1 / 2 := by
  rw [← onCircle_row_iff r Y X hX hXY]
  exact ⟨fun h => h.symm, fun h => h.symm⟩

/-- **C37**: on the diagonal: near the ideal circle, and not outside of it with a neighbour that is on the circle
already. -/
theorem onCircle_diagonal_iff (r X : Int) (hX : 1 ≤ X) :
    OnCircle r X X ↔ |X| ≤ |r| ∧ |(X : ℝ) - chord r X| < 1 / 2 ∧ 2 * X * X - r * r ≠ X - 1 := by
  have key := near_sqrt X (r * r - X * X) hX
  have hm : max X X = X := by omega
  have hc : chord r X = Real.sqrt ((r * r - X * X : Int) : ℝ) := by
    unfold chord; congr 1; push_cast; ring
  have hN : (0 ≤ r * r - X * X) ↔ |X| ≤ |r| := by
    rw [← sq_le_sq]
    constructor <;> intro h <;> nlinarith
  unfold OnCircle offset
  rw [hm, hc, ← hN, ← and_assoc (a := 0 ≤ r * r - X * X), key]
  constructor
  · rintro ⟨h1, h2, h3, h4, h5⟩
    exact ⟨⟨by linarith, by linarith⟩, fun h => h5 ⟨rfl, by linarith⟩⟩
  · rintro ⟨⟨h1, h2⟩, h3⟩
    exact ⟨by omega, by omega, by linarith, by linarith, fun h => h3 (by linarith [h.2])⟩

/-- **C37**: the circle is within half a pixel of the ideal circle. -/
theorem circle_within_half (r X Y : Int) (hr : 1 ≤ r) (h : OnCircle r X Y) : |dist X Y - r| < 1 / 2 := by
  obtain ⟨b1, b2⟩ := onCircle_le (by omega) h
  have hd : dist X Y = Real.sqrt ((X * X + Y * Y : Int) : ℝ) := by
    unfold dist; congr 1; push_cast; ring
  have h1 : -r ≤ r * r - (X * X + Y * Y) ∧ r * r - (X * X + Y * Y) < r := by
    obtain ⟨hX, hY, h3, h4, _⟩ := h
    unfold offset at h3 h4
    by_cases hm : max X Y = r
    · have : r * r ≤ X * X + Y * Y := by
        rcases max_choice X Y with e | e <;> rw [e] at hm <;> subst hm <;> nlinarith
      constructor <;> omega
    · constructor <;> omega
  have := ((near_sqrt r (X * X + Y * Y) hr).2 h1).2
  rw [hd, abs_sub_comm]
  exact this

/-- **C38**: every pixel whose centre is inside the ideal circle belongs to the disc, and no pixel of the disc is farther
than half a pixel outside. -/
theorem disc_ideal (r X Y : Int) (hr : 1 ≤ r) (hX : 0 ≤ X) (hY : 0 ≤ Y) :
    (dist X Y ≤ r → InDisc r X Y) ∧ (InDisc r X Y → dist X Y < r + 1 / 2) := by
  have hr' : (1 : ℝ) ≤ r := by exact_mod_cast hr
  have hrr : 1 ≤ r * r := by nlinarith
  have hd : dist X Y = Real.sqrt ((X * X + Y * Y : Int) : ℝ) := by
    unfold dist; congr 1; push_cast; ring
  constructor
  · intro h
    have h1 : X * X + Y * Y ≤ r * r := by
      rw [hd, Real.sqrt_le_left (by linarith)] at h
      have : ((X * X + Y * Y : Int) : ℝ) ≤ ((r * r : Int) : ℝ) := by
        push_cast at h ⊢; nlinarith
      exact_mod_cast this
    unfold InDisc offset
    constructor
    · by_cases h0 : max X Y = 0
      · have hx : X = 0 := by omega
        have hy : Y = 0 := by omega
        subst hx; subst hy; omega
      · omega
    · rintro ⟨k1, rfl, k2⟩
      have hX1 : X = 1 := by omega
      subst hX1
      have : r = 1 ∨ 2 ≤ r := by omega
      rcases this with rfl | h2
      · omega
      · have : 4 ≤ r * r := by nlinarith
        omega
  · rintro ⟨h, _⟩
    unfold offset at h
    have hM : max X Y ≤ r := by
      by_contra hc
      have hc' : r + 1 ≤ max X Y := by omega
      rcases max_choice X Y with e | e <;> rw [e] at h hc' <;> nlinarith [mul_self_nonneg X, mul_self_nonneg Y]
    have h2 : X * X + Y * Y < r * r + r := by omega
    have h3 : ((X * X + Y * Y : Int) : ℝ) < r * r + r := by exact_mod_cast h2
    rw [hd, Real.sqrt_lt' (by linarith)]
    nlinarith

/-- **C37**, of the call: the pixels painted by `drawCircle` are within half a pixel of the ideal circle around the
centre; **C38**: with `filled`, all pixels inside of it are painted and none farther than half a pixel outside. -/
theorem drawCircle_ideal (c : Canvas) (g : Geom) (fb : FB) (h : Ready c g fb) (p : Pt) (hp : SmallPt p)
    (r : Int) (hr : 1 ≤ r ∧ r ≤ 268435456) :
    ∃ S T fb1 fb2, c.drawCircle g fb p r false = .ok fb1 ∧ Paints c g fb fb1 S ∧
      c.drawCircle g fb p r true = .ok fb2 ∧ Paints c g fb fb2 T ∧
      (∀ q, S q → |dist (q.x - p.x) (q.y - p.y) - r| < 1 / 2) ∧
      (∀ q, dist (q.x - p.x) (q.y - p.y) ≤ r → T q) ∧ ∀ q, T q → dist (q.x - p.x) (q.y - p.y) < r + 1 / 2 := by
  obtain ⟨fb1, h1, h2⟩ := drawCircle_exact c g fb h p hp r hr
  obtain ⟨fb2, h3, h4⟩ := drawFilledCircle_exact c g fb h p hp r hr
  have hd : ∀ a b : Int, dist |a| |b| = dist a b := by
    intro a b; unfold dist; push_cast; rw [sq_abs, sq_abs]
  refine ⟨_, _, fb1, fb2, h1, h2, h3, h4, ?_, ?_, ?_⟩
  · intro q hq
    rw [← hd]; exact circle_within_half r _ _ hr.1 hq
  · intro q hq
    rw [← hd] at hq; exact (disc_ideal r _ _ hr.1 (abs_nonneg _) (abs_nonneg _)).1 hq
  · intro q hq
    rw [← hd]; exact (disc_ideal r _ _ hr.1 (abs_nonneg _) (abs_nonneg _)).2 hq

/-- The circle of radius 5 has the pixel (4, 3), which is on the ideal circle, and the pixel (5, 1), which is not. -/
example : OnCircle 5 4 3 ∧ OnCircle 5 5 1 ∧ ¬ OnCircle 5 4 4 := by
  unfold OnCircle offset; decide

end Verif.Canvas
