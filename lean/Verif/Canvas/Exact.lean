import Verif.Canvas.Line
import Mathlib.Tactic.Ring
import Mathlib.Tactic.Linarith
/-!
# C109: exactly which pixels a line has, and when it looks the same after turning the screen
-/
set_option linter.dupNamespace false
namespace Verif.Canvas
open Verif.FrameBuffer

/-! ## Specification -/

/-- `p` is a pixel of the line between `a` and `b` over the coordinate `u`: it lies in the rectangle spanned by the ends, at
most half a pixel (in the other coordinate `v`) off the ideal line; of two pixels which are half a pixel off it is the one
nearer to `a`. -/
def Nearest (u v : Pt → Int) (a b p : Pt) : Prop :=
  (min (u a) (u b) ≤ u p ∧ u p ≤ max (u a) (u b)) ∧ (min (v a) (v b) ≤ v p ∧ v p ≤ max (v a) (v b)) ∧
  2 * |(v p - v a) * (u b - u a) - (u p - u a) * (v b - v a)| ≤ |u b - u a| ∧
  (2 * |(v p - v a) * (u b - u a) - (u p - u a) * (v b - v a)| = |u b - u a| →
    |v p - v a| * |u b - u a| ≤ |u p - u a| * |v b - v a|)

/-- Halves are rounded towards the end with the smaller coordinate `u`, with `back` to the other one. -/
def LineFrom (back : Bool) (u v : Pt → Int) (a b p : Pt) : Prop :=
  if (back = false ∧ u a ≤ u b) ∨ (back = true ∧ u b ≤ u a) then Nearest u v a b p else Nearest u v b a p

/-- Does the logical coordinate `x` decrease along the physical one showing it? -/
def backX : Rotation → Bool
  | .r0 | .r90 => false
  | .r180 | .r270 => true

/-- Does the logical coordinate `y` decrease along the physical one showing it? -/
def backY : Rotation → Bool
  | .r0 | .r270 => false
  | .r90 | .r180 => true

/-- The pixels of a line on a screen turned by `r`. -/
def lineAt (r : Rotation) (a b p : Pt) : Prop :=
  if |b.y - a.y| ≤ |b.x - a.x| then LineFrom (backX r) Pt.x Pt.y a b p else LineFrom (backY r) Pt.y Pt.x a b p

instance (u v : Pt → Int) (a b p : Pt) : Decidable (Nearest u v a b p) := by unfold Nearest; infer_instance
instance (k : Bool) (u v : Pt → Int) (a b p : Pt) : Decidable (LineFrom k u v a b p) := by unfold LineFrom; infer_instance
instance (r : Rotation) (a b p : Pt) : Decidable (lineAt r a b p) := by unfold lineAt; infer_instance

/-! ## Proof -/

/-- The points of the loop. -/
theorem bres_nearest (u v : Pt → Int) (f : Int → Int → Pt) (hfu : ∀ x y, u (f x y) = x)
    (hfv : ∀ x y, v (f x y) = y) (hfe : ∀ p, f (u p) (v p) = p) (a b : Pt) (L S sg : Int)
    (hS : 0 ≤ S) (hL : 0 < L) (hsg : sg = 1 ∨ sg = -1)
    (hub : u b = u a + L) (hvb : v b = v a + sg * S) (q : Pt) :
    Nearest u v a b q ↔ ∃ j m : Int, (0 ≤ j ∧ j < L + 1) ∧ 0 ≤ m ∧ q = f (u a + j) (v a + sg * m) ∧
        0 ≤ L / 2 - j * S + m * L ∧ L / 2 - j * S + m * L < L := by
  have hsa : |sg| = 1 := by rcases hsg with rfl | rfl <;> decide
  have hbox : ∀ m : Int, min (v a) (v b) ≤ v a + sg * m ∧ v a + sg * m ≤ max (v a) (v b) ↔ 0 ≤ m ∧ m ≤ S := by
    intro m
    rcases hsg with rfl | rfl <;> omega
  have key : ∀ j m : Int, 0 ≤ j → 0 ≤ m → q = f (u a + j) (v a + sg * m) →
      (2 * |(v q - v a) * (u b - u a) - (u q - u a) * (v b - v a)| = 2 * |m * L - j * S|) ∧ |u b - u a| = L ∧
      |v q - v a| * |u b - u a| = m * L ∧ |u q - u a| * |v b - v a| = j * S := by
    intro j m hj hm hq
    have e1 : v q - v a = sg * m := by rw [hq, hfv]; ring
    have e2 : u q - u a = j := by rw [hq, hfu]; ring
    have e3 : v b - v a = sg * S := by rw [hvb]; ring
    have e4 : u b - u a = L := by omega
    rw [e1, e2, e3, e4]
    refine ⟨?_, abs_of_pos hL, ?_, ?_⟩
    · rw [show sg * m * L - j * (sg * S) = sg * (m * L - j * S) by ring, abs_mul, hsa, one_mul]
    · rw [abs_mul, hsa, one_mul, abs_of_nonneg hm, abs_of_pos hL]
    · rw [abs_mul, hsa, one_mul, abs_of_nonneg hj, abs_of_nonneg hS]
  constructor
  · rintro ⟨h1, h2, h3, h4⟩
    obtain ⟨m, hm⟩ : ∃ m, v q = v a + sg * m := ⟨sg * (v q - v a), by rcases hsg with rfl | rfl <;> omega⟩
    have hq : q = f (u a + (u q - u a)) (v a + sg * m) := by
      rw [← hm, show u a + (u q - u a) = u q by ring, hfe]
    rw [hm, hbox] at h2
    have hj : 0 ≤ u q - u a ∧ u q - u a < L + 1 := by omega
    obtain ⟨k1, k2, k3, k4⟩ := key _ _ hj.1 h2.1 hq
    rw [k3, k4, k1, k2] at h4
    rw [k1, k2] at h3
    refine ⟨u q - u a, m, hj, h2.1, hq, ?_⟩
    generalize m * L = A at *
    generalize (u q - u a) * S = B at *
    rcases abs_cases (A - B) with ⟨h, _⟩ | ⟨h, _⟩ <;> rw [h] at h3 h4 <;> omega
  · rintro ⟨j, m, hj, hm, hq, h1, h2⟩
    obtain ⟨k1, k2, k3, k4⟩ := key j m hj.1 hm hq
    have hmS : m ≤ S := by
      by_contra hne
      have e1 : S + 1 ≤ m := by omega
      have e2 : (S + 1) * L ≤ m * L := mul_le_mul_of_nonneg_right e1 (by omega)
      have e3 : j * S ≤ L * S := mul_le_mul_of_nonneg_right (by omega) hS
      have e4 : (S + 1) * L = L * S + L := by ring
      omega
    unfold Nearest
    rw [k3, k4, k1, k2]
    refine ⟨by rw [hq, hfu]; omega, by rw [hq, hfv, hbox]; exact ⟨hm, hmS⟩, ?_⟩
    generalize m * L = A at *
    generalize j * S = B at *
    rcases abs_cases (A - B) with ⟨h, _⟩ | ⟨h, _⟩ <;> rw [h] <;> omega

theorem physSloped_exact (mv : Bool) (S L : Int) (a b : Pt) (ha : MidPt a) (hb : MidPt b)
    (hL : L = |longOf mv b - longOf mv a|) (hS : S = |shortOf mv b - shortOf mv a|) (hSL : S ≤ L) (h0 : 0 < L) :
    ∃ ps, physSloped mv S L a b = .ok ps ∧ ∀ q, q ∈ ps ↔ LineFrom false (longOf mv) (shortOf mv) a b q := by
  have main : ∀ a b : Pt, MidPt a → MidPt b → L = longOf mv b - longOf mv a → S = |shortOf mv b - shortOf mv a| →
      ∃ ps, physSloped mv S L a b = .ok ps ∧ ∀ q, q ∈ ps ↔ Nearest (longOf mv) (shortOf mv) a b q := by
    intro a b ha hb hL hS
    have hla : -536870912 ≤ longOf mv a ∧ longOf mv a ≤ 536870912 := by
      cases mv
      · exact ha.1
      · exact ha.2
    have hlb : -536870912 ≤ longOf mv b ∧ longOf mv b ≤ 536870912 := by
      cases mv
      · exact hb.1
      · exact hb.2
    have hsa : -536870912 ≤ shortOf mv a ∧ shortOf mv a ≤ 536870912 := by
      cases mv
      · exact ha.2
      · exact ha.1
    have hS0 : 0 ≤ S := hS ▸ abs_nonneg _
    have hsgn : ∃ sg : Int, (sg = 1 ∨ sg = -1) ∧ sg = (if shortOf mv a < shortOf mv b then 1 else -1) ∧
        shortOf mv b = shortOf mv a + sg * S := by
      refine ⟨_, ?_, rfl, ?_⟩
      · split
        · exact .inl rfl
        · exact .inr rfl
      · rcases abs_cases (shortOf mv b - shortOf mv a) with ⟨h1, h2⟩ | ⟨h1, h2⟩
        · split <;> omega
        · rw [if_neg (by omega)]; omega
    obtain ⟨sg, g1, g2, g3⟩ := hsgn
    have hL2 : L.tdiv 2 = L / 2 := Int.tdiv_eq_ediv_of_nonneg (by omega)
    have hn : (longOf mv b - longOf mv a + 1).toNat = (L + 1).toNat := by rw [hL]
    obtain ⟨ps, p1, p2⟩ := bresLoop_ok mv S L sg hS0 hSL h0 (by omega) g1 (L + 1).toNat (longOf mv a)
      (shortOf mv a) (L / 2) (by omega) (by omega) (by omega)
    refine ⟨ps, ?_, ?_⟩
    · unfold physSloped
      rw [if_neg (show ¬ longOf mv a > longOf mv b by omega)]
      simp only
      rw [← g2, hL2, hn]
      exact p1
    · intro q
      rw [p2, bres_nearest (longOf mv) (shortOf mv) (ptOf mv) (by intro x y; cases mv <;> rfl)
        (by intro x y; cases mv <;> rfl) (ptOf_self mv) a b L S sg hS0 h0 g1 (by omega) g3]
      have : (((L + 1).toNat : Nat) : Int) = L + 1 := by omega
      rw [this]
  unfold LineFrom
  simp only [true_and, Bool.false_eq_true, false_and, or_false]
  rcases abs_cases (longOf mv b - longOf mv a) with ⟨h1, h2⟩ | ⟨h1, h2⟩
  · simp only [if_pos (show longOf mv a ≤ longOf mv b by omega)]
    exact main a b ha hb (by omega) hS
  · obtain ⟨ps, p1, p2⟩ := main b a hb ha (by omega) (by rw [hS, abs_sub_comm])
    simp only [if_neg (show ¬ longOf mv a ≤ longOf mv b by omega)]
    refine ⟨ps, ?_, p2⟩
    rw [physSloped_comm mv S L a b (by omega)]
    exact p1

/-- Lines along an axis. -/
private theorem nearest_straight (u v : Pt → Int) (a b p : Pt) (h : v a = v b) :
    Nearest u v a b p ↔ v p = v a ∧ min (u a) (u b) ≤ u p ∧ u p ≤ max (u a) (u b) := by
  unfold Nearest
  constructor
  · rintro ⟨h1, h2, -⟩
    omega
  · rintro ⟨h1, h2⟩
    rw [show v p - v a = 0 by omega, show v b - v a = 0 by omega]
    refine ⟨h2, by omega, ?_, ?_⟩
    · simp
    · simp

private theorem lineFrom_straight (back : Bool) (u v : Pt → Int) (a b p : Pt) (h : v a = v b) :
    LineFrom back u v a b p ↔ v p = v a ∧ min (u a) (u b) ≤ u p ∧ u p ≤ max (u a) (u b) := by
  unfold LineFrom
  split
  · exact nearest_straight u v a b p h
  · rw [nearest_straight u v b a p h.symm, h, Int.min_comm (u b), Int.max_comm (u b)]

theorem physLine_exact (a b : Pt) (ha : MidPt a) (hb : MidPt b) :
    ∃ ps, physLine a b = .ok ps ∧ ∀ q, q ∈ ps ↔ lineAt .r0 a b q := by
  obtain ⟨ps, p1, p2⟩ := physLine_line a b ha hb
  refine ⟨ps, p1, ?_⟩
  intro q
  obtain ⟨s1, s2⟩ := straight_line_exact a b _ p2
  by_cases hy : a.y = b.y
  · unfold lineAt
    rw [if_pos (by rw [show b.y - a.y = 0 by omega, abs_zero]; exact abs_nonneg _), s1 hy q,
      lineFrom_straight _ _ _ _ _ _ hy]
  · by_cases hx : a.x = b.x
    · unfold lineAt
      rw [if_neg (by rw [show b.x - a.x = 0 by omega, abs_zero]; have := abs_pos.2 (show b.y - a.y ≠ 0 by omega); omega),
        s2 hx q, lineFrom_straight _ _ _ _ _ _ hx]
    · rw [physLine_sloped ha hb hx hy] at p1
      unfold lineAt
      by_cases hc : |b.y - a.y| > |b.x - a.x|
      · rw [if_pos hc] at p1
        rw [if_neg (by omega)]
        obtain ⟨ps', q1, q2⟩ := physSloped_exact true |b.x - a.x| |b.y - a.y| a b ha hb rfl rfl (by omega)
          (abs_pos.2 (by omega))
        rw [q1] at p1
        injection p1 with p1
        rw [← p1]
        exact q2 q
      · rw [if_neg hc] at p1
        rw [if_pos (by omega)]
        obtain ⟨ps', q1, q2⟩ := physSloped_exact false |b.y - a.y| |b.x - a.x| a b ha hb rfl rfl (by omega)
          (abs_pos.2 (by omega))
        rw [q1] at p1
        injection p1 with p1
        rw [← p1]
        exact q2 q

/-! ## Turned screens -/

theorem Nearest.map {u v u' v' : Pt → Int} {f : Pt → Pt} {e d c1 c2 : Int} (he : e = 1 ∨ e = -1) (hd : d = 1 ∨ d = -1)
    (hu : ∀ p, u (f p) = e * u' p + c1) (hv : ∀ p, v (f p) = d * v' p + c2) (a b p : Pt) :
    Nearest u v (f a) (f b) (f p) ↔ Nearest u' v' a b p := by
  unfold Nearest
  have hd1 : |d| = 1 := by rcases hd with rfl | rfl <;> decide
  have he1 : |e| = 1 := by rcases he with rfl | rfl <;> decide
  have e1 : ∀ s t, u (f s) - u (f t) = e * (u' s - u' t) := by intro s t; rw [hu, hu]; ring
  have e2 : ∀ s t, v (f s) - v (f t) = d * (v' s - v' t) := by intro s t; rw [hv, hv]; ring
  rw [e1, e1, e2, e2]
  have e3 : d * (v' p - v' a) * (e * (u' b - u' a)) - e * (u' p - u' a) * (d * (v' b - v' a)) =
      d * e * ((v' p - v' a) * (u' b - u' a) - (u' p - u' a) * (v' b - v' a)) := by ring
  rw [e3]
  simp only [abs_mul, hd1, he1, one_mul]
  refine and_congr ?_ (and_congr ?_ Iff.rfl)
  · rw [hu, hu, hu]
    rcases he with rfl | rfl <;> omega
  · rw [hv, hv, hv]
    rcases hd with rfl | rfl <;> omega

theorem LineFrom.map {u v u' v' : Pt → Int} {f : Pt → Pt} {e d c1 c2 : Int} (back' : Bool)
    (he : (e = 1 ∧ back' = false) ∨ (e = -1 ∧ back' = true)) (hd : d = 1 ∨ d = -1)
    (hu : ∀ p, u (f p) = e * u' p + c1) (hv : ∀ p, v (f p) = d * v' p + c2) (a b p : Pt) :
    LineFrom false u v (f a) (f b) (f p) ↔ LineFrom back' u' v' a b p := by
  have he' : e = 1 ∨ e = -1 := he.imp And.left And.left
  have hc : ((false : Bool) = false ∧ u (f a) ≤ u (f b) ∨ (false : Bool) = true ∧ u (f b) ≤ u (f a)) ↔
      (back' = false ∧ u' a ≤ u' b ∨ back' = true ∧ u' b ≤ u' a) := by
    rw [hu, hu]
    rcases he with ⟨rfl, rfl⟩ | ⟨rfl, rfl⟩ <;> simp only [true_and, false_and, or_false, false_or, Bool.false_eq_true,
      Bool.true_eq_false] <;> omega
  unfold LineFrom
  rw [Nearest.map he' hd hu hv, Nearest.map he' hd hu hv]
  exact iff_of_eq (if_congr hc rfl rfl)

theorem nearest_diag (u v : Pt → Int) (a b p : Pt) (h : |v b - v a| = |u b - u a|) :
    Nearest u v a b p ↔ (min (u a) (u b) ≤ u p ∧ u p ≤ max (u a) (u b)) ∧
      (min (v a) (v b) ≤ v p ∧ v p ≤ max (v a) (v b)) ∧ (v p - v a) * (u b - u a) = (u p - u a) * (v b - v a) := by
  unfold Nearest
  refine and_congr_right fun h1 => and_congr_right fun h2 => ?_
  obtain ⟨k, hk⟩ : ∃ k, (v p - v a) * (u b - u a) - (u p - u a) * (v b - v a) = k * (u b - u a) := by
    rcases abs_eq_abs.1 h with e | e
    · exact ⟨(v p - v a) - (u p - u a), by rw [e]; ring⟩
    · exact ⟨(v p - v a) + (u p - u a), by rw [e]; ring⟩
  have h3 : ((v p - v a) * (u b - u a) = (u p - u a) * (v b - v a)) ↔ k * (u b - u a) = 0 := by
    rw [← hk]; omega
  rw [hk, h3, abs_mul]
  rcases eq_or_ne (u b - u a) 0 with e | e
  · have ev : v b - v a = 0 := by rw [e, abs_zero] at h; exact abs_eq_zero.1 h
    rw [show v p - v a = 0 by omega, e, ev]
    simp
  · have hL : 0 < |u b - u a| := abs_pos.2 e
    rw [mul_eq_zero_iff_right e]
    constructor
    · rintro ⟨h4, -⟩
      by_contra hne
      have : 1 ≤ |k| := Int.one_le_abs hne
      have : 1 * |u b - u a| ≤ |k| * |u b - u a| := mul_le_mul_of_nonneg_right this (abs_nonneg _)
      omega
    · rintro rfl
      simp only [abs_zero, zero_mul, mul_zero]
      exact ⟨abs_nonneg _, fun h => absurd h (by omega)⟩

theorem lineFrom_diag (back : Bool) (u v : Pt → Int) (a b p : Pt) (h : |v b - v a| = |u b - u a|) :
    LineFrom back u v a b p ↔ (min (u a) (u b) ≤ u p ∧ u p ≤ max (u a) (u b)) ∧
      (min (v a) (v b) ≤ v p ∧ v p ≤ max (v a) (v b)) ∧ (v p - v a) * (u b - u a) = (u p - u a) * (v b - v a) := by
  unfold LineFrom
  split
  · exact nearest_diag u v a b p h
  · rw [nearest_diag u v b a p (by rw [abs_sub_comm, h, abs_sub_comm]), min_comm (u b), max_comm (u b), min_comm (v b),
      max_comm (v b)]
    refine and_congr_right fun _ => and_congr_right fun _ => ?_
    constructor <;> intro h <;> linarith

theorem lineFrom_swap (back back' : Bool) (u v : Pt → Int) (a b p : Pt) (h : |v b - v a| = |u b - u a|) :
    LineFrom back u v a b p ↔ LineFrom back' v u a b p := by
  rw [lineFrom_diag back u v a b p h, lineFrom_diag back' v u a b p h.symm]
  constructor <;> rintro ⟨h1, h2, h3⟩ <;> exact ⟨h2, h1, by linarith⟩

/-- The physical line between the physical pixels showing `a` and `b` shows `lineAt` of the rotation. -/
theorem lineAt_phys (r : Rotation) (W H : Int) (a b p : Pt) :
    lineAt .r0 (phys r W H a) (phys r W H b) (phys r W H p) ↔ lineAt r a b p := by
  have e1 : ∀ s t : Int, W - 1 - s - (W - 1 - t) = -(s - t) := by intro s t; ring
  have e2 : ∀ s t : Int, H - 1 - s - (H - 1 - t) = -(s - t) := by intro s t; ring
  have swap : ∀ (bx by' : Bool), (if |b.x - a.x| ≤ |b.y - a.y| then LineFrom by' Pt.y Pt.x a b p
      else LineFrom bx Pt.x Pt.y a b p) ↔
      (if |b.y - a.y| ≤ |b.x - a.x| then LineFrom bx Pt.x Pt.y a b p else LineFrom by' Pt.y Pt.x a b p) := by
    intro bx by'
    split <;> split
    · exact lineFrom_swap _ _ _ _ _ _ _ (by omega)
    · exact Iff.rfl
    · exact Iff.rfl
    · omega
  cases r
  · exact Iff.rfl
  · refine Iff.trans ?_ (swap (backX .r90) (backY .r90))
    unfold lineAt
    simp only [phys, e1, abs_neg]
    split
    · exact LineFrom.map (f := phys .r90 W H) (e := -1) (d := 1) (c1 := W - 1) (c2 := 0) true (.inr ⟨rfl, rfl⟩) (.inl rfl)
        (fun p => by simp only [phys]; ring) (fun p => by simp only [phys]; ring) a b p
    · exact LineFrom.map (f := phys .r90 W H) (e := 1) (d := -1) (c1 := 0) (c2 := W - 1) false (.inl ⟨rfl, rfl⟩) (.inr rfl)
        (fun p => by simp only [phys]; ring) (fun p => by simp only [phys]; ring) a b p
  · unfold lineAt
    simp only [phys, e1, e2, abs_neg]
    split
    · exact LineFrom.map (f := phys .r180 W H) (e := -1) (d := -1) (c1 := W - 1) (c2 := H - 1) true (.inr ⟨rfl, rfl⟩)
        (.inr rfl) (fun p => by simp only [phys]; ring) (fun p => by simp only [phys]; ring) a b p
    · exact LineFrom.map (f := phys .r180 W H) (e := -1) (d := -1) (c1 := H - 1) (c2 := W - 1) true (.inr ⟨rfl, rfl⟩)
        (.inr rfl) (fun p => by simp only [phys]; ring) (fun p => by simp only [phys]; ring) a b p
  · refine Iff.trans ?_ (swap (backX .r270) (backY .r270))
    unfold lineAt
    simp only [phys, e2, abs_neg]
    split
    · exact LineFrom.map (f := phys .r270 W H) (e := 1) (d := -1) (c1 := 0) (c2 := H - 1) false (.inl ⟨rfl, rfl⟩)
        (.inr rfl) (fun p => by simp only [phys]; ring) (fun p => by simp only [phys]; ring) a b p
    · exact LineFrom.map (f := phys .r270 W H) (e := -1) (d := 1) (c1 := H - 1) (c2 := 0) true (.inr ⟨rfl, rfl⟩)
        (.inl rfl) (fun p => by simp only [phys]; ring) (fun p => by simp only [phys]; ring) a b p

/-- **C109**: `drawLine(a, b)` paints exactly the visible pixels of `lineAt`. -/
theorem drawLine_exact (c : Canvas) (g : Geom) (fb : FB) (h : Ready c g fb) (a b : Pt) (ha : SmallPt a) (hb : SmallPt b) :
    ∃ fb', c.drawLine g fb a b = .ok fb' ∧ Paints c g fb fb' (lineAt c.rotate a b) := by
  obtain ⟨ps, p1, p2⟩ := physLine_exact _ _ (phys_mid h ha) (phys_mid h hb)
  obtain ⟨fb', q1, q2⟩ := paint_paints h ps (lineAt c.rotate a b)
    (fun p _ => by rw [p2]; exact lineAt_phys c.rotate g.getWidth g.getHeight a b p)
  refine ⟨fb', ?_, q2⟩
  unfold Canvas.drawLine
  rw [linePts_eq, transform_is_phys c g fb h a (by omega), transform_is_phys c g fb h b (by omega)]
  simp only [Res.bind_ok]
  rw [p1]
  exact q1

/-! ## Lines on differently turned screens -/

private theorem abs_box {x y z : Int} (h : min x y ≤ z ∧ z ≤ max x y) : |z - x| + |z - y| = |y - x| := by
  rcases abs_cases (z - x) with ⟨h1, _⟩ | ⟨h1, _⟩ <;> rcases abs_cases (z - y) with ⟨h2, _⟩ | ⟨h2, _⟩ <;>
    rcases abs_cases (y - x) with ⟨h3, _⟩ | ⟨h3, _⟩ <;> omega

/-- In the rectangle spanned by the ends, both offsets have the sign of the line. -/
private theorem abs_dev {u v : Pt → Int} {a b p : Pt} (h1 : min (u a) (u b) ≤ u p ∧ u p ≤ max (u a) (u b))
    (h2 : min (v a) (v b) ≤ v p ∧ v p ≤ max (v a) (v b)) :
    |(v p - v a) * (u b - u a) - (u p - u a) * (v b - v a)| =
      abs (|v p - v a| * |u b - u a| - |u p - u a| * |v b - v a|) := by
  have hu : ∃ e : Int, (e = 1 ∨ e = -1) ∧ u p - u a = e * |u p - u a| ∧ u b - u a = e * |u b - u a| := by
    by_cases h : u a ≤ u b
    · exact ⟨1, .inl rfl, by rw [abs_of_nonneg (by omega)]; ring, by rw [abs_of_nonneg (by omega)]; ring⟩
    · exact ⟨-1, .inr rfl, by rw [abs_of_nonpos (by omega)]; ring, by rw [abs_of_nonpos (by omega)]; ring⟩
  have hv : ∃ d : Int, (d = 1 ∨ d = -1) ∧ v p - v a = d * |v p - v a| ∧ v b - v a = d * |v b - v a| := by
    by_cases h : v a ≤ v b
    · exact ⟨1, .inl rfl, by rw [abs_of_nonneg (by omega)]; ring, by rw [abs_of_nonneg (by omega)]; ring⟩
    · exact ⟨-1, .inr rfl, by rw [abs_of_nonpos (by omega)]; ring, by rw [abs_of_nonpos (by omega)]; ring⟩
  obtain ⟨e, e0, e1, e2⟩ := hu
  obtain ⟨d, d0, d1, d2⟩ := hv
  have hed : |d * e| = 1 := by rcases e0 with rfl | rfl <;> rcases d0 with rfl | rfl <;> decide
  calc |(v p - v a) * (u b - u a) - (u p - u a) * (v b - v a)|
      = abs (d * |v p - v a| * (e * |u b - u a|) - e * |u p - u a| * (d * |v b - v a|)) := by rw [← e1, ← e2, ← d1, ← d2]
    _ = abs (d * e * (|v p - v a| * |u b - u a| - |u p - u a| * |v b - v a|)) := by congr 1; ring
    _ = _ := by rw [abs_mul, hed, one_mul]

/-- A pixel half a pixel off the line. -/
private def Half (u v : Pt → Int) (a b p : Pt) : Prop :=
  (min (u a) (u b) ≤ u p ∧ u p ≤ max (u a) (u b)) ∧ (min (v a) (v b) ≤ v p ∧ v p ≤ max (v a) (v b)) ∧
  2 * |(v p - v a) * (u b - u a) - (u p - u a) * (v b - v a)| = |u b - u a|

private theorem dev_rev (u v : Pt → Int) (a b p : Pt) :
    |(v p - v b) * (u a - u b) - (u p - u b) * (v a - v b)| = |(v p - v a) * (u b - u a) - (u p - u a) * (v b - v a)| := by
  rw [← abs_neg]; congr 1; ring

private theorem nearest_rev_of {u v : Pt → Int} {a b p : Pt} (h : ¬ Half u v a b p) :
    Nearest u v a b p ↔ Nearest u v b a p := by
  unfold Nearest
  rw [dev_rev u v a b p, abs_sub_comm (u a) (u b), min_comm (u b), max_comm (u b), min_comm (v b), max_comm (v b)]
  refine and_congr_right fun h1 => and_congr_right fun h2 => and_congr_right fun _ => ?_
  constructor <;> intro _ h4 <;> exact absurd ⟨h1, h2, h4⟩ h

private theorem nearest_rev_half {u v : Pt → Int} {a b p : Pt} (h0 : u a ≠ u b) (h : Half u v a b p) :
    ¬ (Nearest u v a b p ↔ Nearest u v b a p) := by
  obtain ⟨h1, h2, h3⟩ := h
  have hL : 0 < |u b - u a| := abs_pos.2 (by omega)
  have hr : |v p - v b| * |u b - u a| ≤ |u p - u b| * |v b - v a| ↔
      |u p - u a| * |v b - v a| ≤ |v p - v a| * |u b - u a| := by
    have e1 := abs_box h1
    have e2 := abs_box h2
    have e3 : |v p - v b| * |u b - u a| + |v p - v a| * |u b - u a| = |u p - u b| * |v b - v a| + |u p - u a| * |v b - v a| := by
      rw [← add_mul, ← add_mul, add_comm |v p - v b|, add_comm |u p - u b|, e1, e2, mul_comm]
    omega
  have hx : |v p - v a| * |u b - u a| ≠ |u p - u a| * |v b - v a| := by
    intro h
    rw [abs_dev h1 h2, h, sub_self, abs_zero] at h3
    omega
  unfold Nearest
  rw [dev_rev u v a b p, abs_sub_comm (u a) (u b), abs_sub_comm (v a) (v b), min_comm (u b), max_comm (u b), min_comm (v b),
    max_comm (v b), hr]
  simp only [h1, h2, h3, true_and, le_refl, forall_const, and_self]
  omega

/-- There is a pixel half a pixel off the line exactly if twice the greatest common divisor of the two distances divides the
longer one. -/
private theorem half_iff {u v : Pt → Int} {f : Int → Int → Pt} (hfu : ∀ x y, u (f x y) = x) (hfv : ∀ x y, v (f x y) = y)
    {a b : Pt} (h0 : u a ≠ u b) (hle : |v b - v a| ≤ |u b - u a|) :
    (∃ p, Half u v a b p) ↔ 2 * (Int.gcd (u b - u a) (v b - v a) : Int) ∣ u b - u a := by
  obtain ⟨l, hl⟩ : (Int.gcd (u b - u a) (v b - v a) : Int) ∣ u b - u a := Int.gcd_dvd_left ..
  obtain ⟨s, hs⟩ : (Int.gcd (u b - u a) (v b - v a) : Int) ∣ v b - v a := Int.gcd_dvd_right ..
  have hg0 : 0 < Int.gcd (u b - u a) (v b - v a) := Int.gcd_pos_of_ne_zero_left _ (by omega)
  have hcop : Int.gcd l s = 1 := by
    have := Int.gcd_div_gcd_div_gcd hg0
    rwa [Int.ediv_eq_of_eq_mul_right (by omega) hl, Int.ediv_eq_of_eq_mul_right (by omega) hs] at this
  generalize hg : (Int.gcd (u b - u a) (v b - v a) : Int) = g at *
  have hg1 : 0 < g := by omega
  have hdvd : 2 * g ∣ u b - u a ↔ 2 ∣ l := by
    rw [hl, mul_comm 2 g]
    exact mul_dvd_mul_iff_left (by omega)
  rw [hdvd]
  constructor
  · rintro ⟨p, -, -, h3⟩
    rw [hl, hs] at h3
    have e : (v p - v a) * (g * l) - (u p - u a) * (g * s) = g * ((v p - v a) * l - (u p - u a) * s) := by ring
    rw [e, abs_mul, abs_mul, abs_of_pos hg1] at h3
    have h4 : 2 * |(v p - v a) * l - (u p - u a) * s| = |l| := by
      have : g * (2 * |(v p - v a) * l - (u p - u a) * s|) = g * |l| := by rw [← h3]; ring
      exact mul_left_cancel₀ (by omega) this
    rw [← dvd_abs, ← h4]
    exact dvd_mul_right _ _
  · rintro ⟨l', rfl⟩
    have hodd : s % 2 = 1 := by
      by_contra hne
      have hd : (2 : Int) ∣ s := by omega
      have : (2 : Int) ∣ (Int.gcd (2 * l') s : Int) := Int.dvd_coe_gcd (dvd_mul_right _ _) hd
      rw [hcop] at this
      norm_num at this
    -- half way along the shortest step between two pixels exactly on the line
    have hsl : |s| ≤ |2 * l'| := by
      rw [hl, hs, abs_mul, abs_mul, abs_of_pos hg1] at hle
      exact le_of_mul_le_mul_left hle hg1
    have hl0 : l' ≠ 0 := by
      rintro rfl
      rw [mul_zero, mul_zero] at hl
      omega
    have hbetween : ∀ (k t : Int), 0 ≤ k → k ≤ 2 * t → (0 ≤ k ∧ k ≤ g * (2 * t)) := by
      intro k t h1 h2
      have : 1 * (2 * t) ≤ g * (2 * t) := mul_le_mul_of_nonneg_right (by omega) (by omega)
      omega
    refine ⟨f (u a + l') (v a + s / 2), ?_, ?_, ?_⟩
    · rw [hfu]
      rcases le_or_gt 0 l' with h | h
      · have := hbetween l' l' h (by omega)
        omega
      · have := hbetween (-l') (-l') (by omega) (by omega)
        have e : g * (2 * -l') = -(g * (2 * l')) := by ring
        omega
    · rw [hfv]
      have hm : ∀ k : Int, 0 ≤ k → k ≤ g * k := by
        intro k hk
        have : 1 * k ≤ g * k := mul_le_mul_of_nonneg_right (by omega) hk
        omega
      rcases le_or_gt 0 s with h | h
      · have := hm s h
        omega
      · have := hm (-s) (by omega)
        have e : g * -s = -(g * s) := by ring
        omega
    · rw [hfu, hfv, hl, hs]
      have e : (v a + s / 2 - v a) * (g * (2 * l')) - (u a + l' - u a) * (g * s) = g * (l' * (2 * (s / 2) - s)) := by ring
      rw [e, show 2 * (s / 2) - s = -1 by omega, abs_mul, abs_mul g, abs_mul, abs_mul]
      norm_num
      ring

/-- The two ways of rounding halves agree exactly if there are none. -/
private theorem lineFrom_back {u v : Pt → Int} {f : Int → Int → Pt} (hfu : ∀ x y, u (f x y) = x)
    (hfv : ∀ x y, v (f x y) = y) {a b : Pt} (h0 : u a ≠ u b) (hle : |v b - v a| ≤ |u b - u a|) (k k' : Bool) :
    (∀ p, LineFrom k u v a b p ↔ LineFrom k' u v a b p) ↔
      k = k' ∨ ¬ 2 * (Int.gcd (u b - u a) (v b - v a) : Int) ∣ u b - u a := by
  have main : (∀ p, Nearest u v a b p ↔ Nearest u v b a p) ↔
      ¬ 2 * (Int.gcd (u b - u a) (v b - v a) : Int) ∣ u b - u a := by
    rw [← half_iff hfu hfv h0 hle]
    constructor
    · rintro h ⟨p, hp⟩
      exact nearest_rev_half h0 hp (h p)
    · intro h p
      exact nearest_rev_of (fun hp => h ⟨p, hp⟩)
  have main' : (∀ p, Nearest u v b a p ↔ Nearest u v a b p) ↔
      ¬ 2 * (Int.gcd (u b - u a) (v b - v a) : Int) ∣ u b - u a := by
    rw [← main]
    exact forall_congr' fun p => Iff.comm
  unfold LineFrom
  rcases lt_or_gt_of_ne h0 with h | h
  · have h1 : u a ≤ u b := by omega
    have h2 : ¬ u b ≤ u a := by omega
    cases k <;> cases k' <;> simp only [h1, h2, and_true, and_false, or_false, false_or, if_true, if_false, iff_self,
      implies_true, true_or, Bool.false_eq_true, Bool.true_eq_false, main, main']
  · have h1 : u b ≤ u a := by omega
    have h2 : ¬ u a ≤ u b := by omega
    cases k <;> cases k' <;> simp only [h1, h2, and_true, and_false, or_false, false_or, if_true, if_false, iff_self,
      implies_true, true_or, Bool.false_eq_true, Bool.true_eq_false, main, main']

/-- **C109**: a line has the same pixels on screens turned by `r` and by `r'` exactly if both rotations show its longer
coordinate in the same direction, or it is a single pixel, or nowhere exactly halfway between two pixels: the longer distance
divided by the greatest common divisor of both distances is odd. -/
theorem line_turned_iff (r r' : Rotation) (a b : Pt) :
    (∀ p, lineAt r a b p ↔ lineAt r' a b p) ↔
      (if |b.y - a.y| ≤ |b.x - a.x| then backX r = backX r' else backY r = backY r') ∨ a = b ∨
      ¬ 2 * (Int.gcd (b.x - a.x) (b.y - a.y) : Int) ∣ max |b.x - a.x| |b.y - a.y| := by
  by_cases hab : a = b
  · subst hab
    simp only [true_or, or_true, iff_true]
    intro p
    unfold lineAt
    rw [if_pos (by simp), if_pos (by simp), lineFrom_straight _ _ _ _ _ _ rfl, lineFrom_straight _ _ _ _ _ _ rfl]
  have hne : a.x ≠ b.x ∨ a.y ≠ b.y := by
    by_contra h
    apply hab
    cases a; cases b
    simp only [ne_eq, not_or, not_not] at h
    simp only [Pt.mk.injEq]
    exact h
  unfold lineAt
  by_cases hle : |b.y - a.y| ≤ |b.x - a.x|
  · simp only [if_pos hle, hab, false_or]
    have h0 : a.x ≠ b.x := by
      intro h
      rw [show b.x - a.x = 0 by omega, abs_zero] at hle
      have := abs_eq_zero.1 (le_antisymm hle (abs_nonneg _))
      omega
    rw [lineFrom_back (f := fun x y => ⟨x, y⟩) (fun _ _ => rfl) (fun _ _ => rfl) h0 hle, max_eq_left hle, dvd_abs]
  · simp only [if_neg hle, hab, false_or]
    have hle' : |b.x - a.x| ≤ |b.y - a.y| := by omega
    have h0 : a.y ≠ b.y := by
      intro h
      rw [show b.y - a.y = 0 by omega, abs_zero] at hle'
      have := abs_eq_zero.1 (le_antisymm hle' (abs_nonneg _))
      omega
    rw [lineFrom_back (f := fun y x => ⟨x, y⟩) (fun _ _ => rfl) (fun _ _ => rfl) h0 hle', max_eq_right hle', dvd_abs,
      Int.gcd_comm (b.x - a.x)]

/-- **C109** (false in general): lines with the same pixels on every screen. Missing: lines which are somewhere halfway
between two pixels; for them `line_turned_iff` says on which screens they differ. -/
theorem drawLine_turned_partial (c c' : Canvas) (g g' : Geom) (fb fb' : FB) (h : Ready c g fb) (h' : Ready c' g' fb') (a b : Pt)
    (ha : SmallPt a) (hb : SmallPt b)
    (hab : a = b ∨ ¬ 2 * (Int.gcd (b.x - a.x) (b.y - a.y) : Int) ∣ max |b.x - a.x| |b.y - a.y|) :
    ∃ S fb1 fb1', c.drawLine g fb a b = .ok fb1 ∧ Paints c g fb fb1 S ∧
      c'.drawLine g' fb' a b = .ok fb1' ∧ Paints c' g' fb' fb1' S := by
  obtain ⟨fb1, p1, p2⟩ := drawLine_exact c g fb h a b ha hb
  obtain ⟨fb1', q1, q2⟩ := drawLine_exact c' g' fb' h' a b ha hb
  refine ⟨lineAt c.rotate a b, fb1, fb1', p1, p2, q1, ?_⟩
  rwa [show lineAt c.rotate a b = lineAt c'.rotate a b from
    funext fun p => propext ((line_turned_iff c.rotate c'.rotate a b).2 (.inr hab) p)]

/-- **C109**, moving a line: the same pixels, moved. -/
theorem lineAt_moved (r : Rotation) (a b p t : Pt) :
    lineAt r ⟨a.x + t.x, a.y + t.y⟩ ⟨b.x + t.x, b.y + t.y⟩ ⟨p.x + t.x, p.y + t.y⟩ ↔ lineAt r a b p := by
  have hm : ∀ (u v : Pt → Int) (c d : Int), (∀ p : Pt, u ⟨p.x + t.x, p.y + t.y⟩ = u p + c) →
      (∀ p : Pt, v ⟨p.x + t.x, p.y + t.y⟩ = v p + d) → ∀ (k : Bool) (a b : Pt),
      LineFrom k u v ⟨a.x + t.x, a.y + t.y⟩ ⟨b.x + t.x, b.y + t.y⟩ ⟨p.x + t.x, p.y + t.y⟩ ↔ LineFrom k u v a b p := by
    intro u v c d hu hv k a b
    have hn : ∀ a b : Pt, Nearest u v ⟨a.x + t.x, a.y + t.y⟩ ⟨b.x + t.x, b.y + t.y⟩ ⟨p.x + t.x, p.y + t.y⟩ ↔
        Nearest u v a b p := fun a b =>
      Nearest.map (f := fun p => ⟨p.x + t.x, p.y + t.y⟩) (e := 1) (d := 1) (c1 := c) (c2 := d) (.inl rfl) (.inl rfl)
        (fun p => by rw [hu]; ring) (fun p => by rw [hv]; ring) a b p
    unfold LineFrom
    rw [hn, hn, hu, hu]
    refine iff_of_eq (if_congr ?_ rfl rfl)
    simp only [add_le_add_iff_right]
  unfold lineAt
  simp only [add_sub_add_right_eq_sub]
  rw [hm Pt.x Pt.y t.x t.y (fun _ => rfl) (fun _ => rfl), hm Pt.y Pt.x t.y t.x (fun _ => rfl) (fun _ => rfl)]

/-- **C109**, the witness: the line from (0, 0) to (2, 1) is the pixels (0, 0), (1, 0), (2, 1) on a screen in the default
rotation, and (0, 0), (1, 1), (2, 1) on one turned upside down. -/
theorem line_turned_differs : lineAt .r0 ⟨0, 0⟩ ⟨2, 1⟩ ⟨1, 0⟩ ∧ ¬ lineAt .r180 ⟨0, 0⟩ ⟨2, 1⟩ ⟨1, 0⟩ ∧
    lineAt .r180 ⟨0, 0⟩ ⟨2, 1⟩ ⟨1, 1⟩ ∧ ¬ lineAt .r0 ⟨0, 0⟩ ⟨2, 1⟩ ⟨1, 1⟩ := by
  decide +kernel

/-- The same in the model of the code. -/
example : Canvas.linePts ⟨⟨16, 8⟩, .r0⟩ ⟨0, 0⟩ ⟨2, 1⟩ = .ok [⟨0, 0⟩, ⟨1, 0⟩, ⟨2, 1⟩] ∧
    Canvas.linePts ⟨⟨16, 8⟩, .r180⟩ ⟨0, 0⟩ ⟨2, 1⟩ =
      .ok [phys .r180 16 8 ⟨2, 1⟩, phys .r180 16 8 ⟨1, 1⟩, phys .r180 16 8 ⟨0, 0⟩] := by decide +kernel

/-- The line from (0, 0) to (5, 2), and any other of length 5, looks the same on every screen. -/
example (r r' : Rotation) (p : Pt) : lineAt r ⟨0, 0⟩ ⟨5, 2⟩ p ↔ lineAt r' ⟨0, 0⟩ ⟨5, 2⟩ p :=
  (line_turned_iff r r' _ _).2 (.inr (.inr (by decide))) p

end Verif.Canvas
