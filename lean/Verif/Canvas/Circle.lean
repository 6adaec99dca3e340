import Verif.Canvas.Line
/-!
# C37-C39: circles
-/
set_option linter.dupNamespace false
namespace Verif.Canvas
open Verif.FrameBuffer

/-! ## The digital circle -/

theorem OnCircle.symm {r X Y : Int} (h : OnCircle r X Y) : OnCircle r Y X := by
  obtain ⟨h1, h2, h3, h4, h5⟩ := h
  have e : offset r Y X = offset r X Y := by unfold offset; ring
  refine ⟨h2, h1, ?_, ?_, ?_⟩ <;> rw [e] <;> omega

/-- Two pixels of a row, the second at least as far right as down. -/
private theorem row_unique_aux {r Y X X' : Int} (h : OnCircle r X Y) (hY : Y ≤ X) (h' : OnCircle r X' Y) :
    X' ≤ X := by
  obtain ⟨a1, a2, a3, a4, _⟩ := h
  obtain ⟨b1, b2, b3, b4, _⟩ := h'
  by_contra hc
  unfold offset at *
  rw [Int.max_eq_left hY] at a3 a4
  rw [Int.max_eq_left (show Y ≤ X' by omega)] at b4
  have : X + 1 ≤ X' := by omega
  nlinarith

theorem row_unique {r X Y X' : Int} (h : OnCircle r X Y) (hY : Y ≤ X) (h' : OnCircle r X' Y) : X' = X := by
  have h1 := row_unique_aux h hY h'
  by_cases hc : Y ≤ X'
  · have h2 := row_unique_aux h' hc h; omega
  · exfalso
    obtain ⟨a1, a2, a3, a4, a5⟩ := h
    obtain ⟨b1, b2, b3, b4, _⟩ := h'
    unfold offset at *
    rw [Int.max_eq_left hY] at a3 a4
    rw [Int.max_eq_right (show X' ≤ Y by omega)] at b3
    have h3 : X' * X' ≤ (Y - 1) * (Y - 1) := by nlinarith
    by_cases hd : X = Y
    · subst hd
      have : ¬ X * X + X * X - r * r = X - 1 := fun h => a5 ⟨rfl, h⟩
      have e : (X - 1) * (X - 1) = X * X - 2 * X + 1 := by ring
      rw [e] at h3
      generalize X * X = A at *
      generalize X' * X' = B at *
      omega
    · have e : (Y - 1) * (Y - 1) = Y * Y - 2 * Y + 1 := by ring
      have h4 : (Y + 1) * Y ≤ X * (X - 1) := by
        have := mul_nonneg (show 0 ≤ X - Y - 1 by omega) (show 0 ≤ X + Y by omega)
        nlinarith
      have e2 : (Y + 1) * Y = Y * Y + Y := by ring
      have e3 : X * (X - 1) = X * X - X := by ring
      rw [e] at h3
      rw [e2, e3] at h4
      generalize X * X = A at *
      generalize Y * Y = C at *
      generalize X' * X' = B at *
      omega

theorem col_unique {r X Y Y' : Int} (h : OnCircle r X Y) (hX : X ≤ Y) (h' : OnCircle r X Y') : Y' = Y :=
  row_unique h.symm hX h'.symm

theorem onCircle_le {r X Y : Int} (hr : 0 ≤ r) (h : OnCircle r X Y) : X ≤ r ∧ Y ≤ r := by
  have key : ∀ X Y, OnCircle r X Y → X ≤ r := by
    intro X Y ⟨h1, h2, h3, h4, h5⟩
    unfold offset at *
    by_contra hc
    by_cases hd : Y ≤ X
    · rw [Int.max_eq_left hd] at h4
      nlinarith
    · rw [Int.max_eq_right (by omega)] at h4
      nlinarith
  exact ⟨key X Y h, key Y X h.symm⟩

/-! ## The steps -/

/-- What is still to be drawn in state `(X, Y)`: the rows from `Y` on, or, past the diagonal, the
columns up to `X`. -/
def Pend (X Y X' Y' : Int) : Prop := if Y ≤ X then Y ≤ Y' else X' ≤ X

/-- The decision of a step. -/
theorem circleStep_ok {r X Y e : Int} (hr : 1 ≤ r) (hr' : r ≤ 715827881) (h : OnCircle r X Y)
    (he : e = offset r X Y - 2 * X + 2 * Y + 2) :
    ∃ X' Y', circleStep (-X) Y e = .ok (-X', Y', offset r X' Y' - 2 * X' + 2 * Y' + 2) ∧
      ((X' = X ∧ Y' = Y + 1 ∧ Y + 1 < X ∧ offset r X Y ≤ X - 2 * Y - 2) ∨
       (X' = X - 1 ∧ Y' = Y + 1 ∧ (Y < X → offset r X Y > X - 2 * Y - 2 ∨ X = Y + 1) ∧
          (X < Y → offset r X Y ≤ 2 * X - Y - 2)) ∨
       (X' = X - 1 ∧ Y' = Y ∧ X < Y ∧ offset r X Y > 2 * X - Y - 2)) := by
  obtain ⟨b1, b2⟩ := onCircle_le (by omega) h
  obtain ⟨h1, h2, h3, h4, h5⟩ := h
  have eA : offset r X (Y + 1) = offset r X Y + 2 * Y + 1 := by unfold offset; ring
  have eB : offset r (X - 1) (Y + 1) = offset r X Y + 2 * Y - 2 * X + 2 := by unfold offset; ring
  have eC : offset r (X - 1) Y = offset r X Y - 2 * X + 1 := by unfold offset; ring
  generalize hD : offset r X Y = D at *
  unfold circleStep
  by_cases hy : e ≤ Y
  · rw [if_pos hy]
    rw [chk_ok (v := Y + 1) (by constructor <;> omega)]; simp only [Res.bind_ok]
    rw [chk_ok (v := (Y + 1) * 2) (by constructor <;> omega)]; simp only [Res.bind_ok]
    rw [chk_ok (v := (Y + 1) * 2 + 1) (by constructor <;> omega)]; simp only [Res.bind_ok]
    rw [chk_ok (v := e + ((Y + 1) * 2 + 1)) (by constructor <;> omega)]; simp only [Res.bind_ok]
    rw [chk_ok (v := - -X) (by constructor <;> omega)]; simp only [Res.bind_ok]
    by_cases hx : (if - -X = Y + 1 ∧ e ≤ -X then (0 : Int) else e) > -X
    · rw [if_pos hx]
      rw [chk_ok (v := -X + 1) (by constructor <;> omega)]; simp only [Res.bind_ok]
      rw [chk_ok (v := (-X + 1) * 2) (by constructor <;> omega)]; simp only [Res.bind_ok]
      rw [chk_ok (v := (-X + 1) * 2 + 1) (by constructor <;> omega)]; simp only [Res.bind_ok]
      rw [chk_ok (v := e + ((Y + 1) * 2 + 1) + ((-X + 1) * 2 + 1)) (by constructor <;> omega)]
      simp only [Res.bind_ok]
      refine ⟨X - 1, Y + 1, ?_, .inr (.inl ⟨rfl, rfl, ?_, ?_⟩)⟩
      · rw [eB]; congr 2
        · omega
        · congr 1; omega
      · intro hlt
        split at hx <;> omega
      · omega
    · rw [if_neg hx]
      refine ⟨X, Y + 1, ?_, .inl ⟨rfl, rfl, ?_, ?_⟩⟩
      · rw [eA]; congr 3; omega
      · split at hx <;> omega
      · split at hx <;> omega
  · rw [if_neg hy]; simp only [Res.bind_ok]
    have hx : e > -X := by omega
    rw [if_pos hx]
    rw [chk_ok (v := -X + 1) (by constructor <;> omega)]; simp only [Res.bind_ok]
    rw [chk_ok (v := (-X + 1) * 2) (by constructor <;> omega)]; simp only [Res.bind_ok]
    rw [chk_ok (v := (-X + 1) * 2 + 1) (by constructor <;> omega)]; simp only [Res.bind_ok]
    rw [chk_ok (v := e + ((-X + 1) * 2 + 1)) (by constructor <;> omega)]
    simp only [Res.bind_ok]
    refine ⟨X - 1, Y, ?_, .inr (.inr ⟨rfl, rfl, ?_, ?_⟩)⟩
    · rw [eC]; congr 2
      · omega
      · congr 1; omega
    · omega
    · omega

/-- Leaving the part right of the diagonal, one below it. -/
private theorem exit1 {r k X' Y' : Int} (hk : 1 ≤ k) (h1 : -k ≤ offset r (k - 1) k)
    (h2 : offset r (k - 1) k ≤ k - 1) (h : OnCircle r X' Y') : k ≤ Y' ↔ X' ≤ k - 1 := by
  obtain ⟨a1, a2, a3, a4, a5⟩ := h
  constructor
  · intro hY
    by_contra hc
    have hX : k ≤ X' := by omega
    obtain ⟨a, rfl⟩ : ∃ a, X' = k + a := ⟨X' - k, by omega⟩
    obtain ⟨b, rfl⟩ : ∃ b, Y' = k + b := ⟨Y' - k, by omega⟩
    have e : offset r (k + a) (k + b) = offset r (k - 1) k + 2 * k - 1 + 2 * (k * a) + a * a + 2 * (k * b) + b * b := by
      unfold offset; ring
    have ha : a ≤ k * a := by nlinarith
    have hb : b ≤ k * b := by nlinarith
    have haa : a ≤ a * a := by nlinarith
    have hbb : b ≤ b * b := by nlinarith
    generalize offset r (k - 1) k = D at *
    generalize offset r (k + a) (k + b) = D' at *
    generalize k * a = ka at *
    generalize k * b = kb at *
    generalize a * a = aa at *
    generalize b * b = bb at *
    omega
  · intro hX
    by_contra hc
    have e1 : X' * X' ≤ (k - 1) * (k - 1) := by nlinarith
    have e2 : Y' * Y' ≤ (k - 1) * (k - 1) := by nlinarith
    have e3 : k * k = (k - 1) * (k - 1) + 2 * k - 1 := by ring
    unfold offset at *
    generalize X' * X' = A at *
    generalize Y' * Y' = B at *
    generalize (k - 1) * (k - 1) = C at *
    generalize k * k = E at *
    omega

/-- Leaving the part right of the diagonal from the diagonal. -/
private theorem exit2 {r k X' Y' : Int} (hk : 1 ≤ k) (h1 : 3 - k ≤ offset r (k - 2) k)
    (h2 : offset r (k - 2) k ≤ k - 1) (h : OnCircle r X' Y') : k ≤ Y' ↔ X' ≤ k - 2 := by
  obtain ⟨a1, a2, a3, a4, a5⟩ := h
  constructor
  · intro hY
    by_contra hc
    have hX : k - 1 ≤ X' := by omega
    obtain ⟨a, rfl⟩ : ∃ a, X' = k - 1 + a := ⟨X' - (k - 1), by omega⟩
    obtain ⟨b, rfl⟩ : ∃ b, Y' = k + b := ⟨Y' - k, by omega⟩
    have e : offset r (k - 1 + a) (k + b) =
        offset r (k - 2) k + 2 * k - 3 + 2 * ((k - 1) * a) + a * a + 2 * (k * b) + b * b := by
      unfold offset; ring
    have ha : 0 ≤ (k - 1) * a := mul_nonneg (by omega) (by omega)
    have hb : b ≤ k * b := by nlinarith
    have haa : a ≤ a * a := by nlinarith
    have hbb : b ≤ b * b := by nlinarith
    generalize offset r (k - 2) k = D at *
    generalize offset r (k - 1 + a) (k + b) = D' at *
    generalize (k - 1) * a = ka at *
    generalize k * b = kb at *
    generalize a * a = aa at *
    generalize b * b = bb at *
    omega
  · intro hX
    by_contra hc
    have hk2 : 0 ≤ k - 2 := by omega
    have e1 : X' * X' ≤ (k - 2) * (k - 2) := by nlinarith
    have e2 : Y' * Y' ≤ (k - 1) * (k - 1) := by nlinarith
    have e3 : k * k = (k - 1) * (k - 1) + 2 * k - 1 := by ring
    unfold offset at *
    generalize X' * X' = A at *
    generalize Y' * Y' = B at *
    generalize (k - 1) * (k - 1) = C at *
    generalize (k - 2) * (k - 2) = F at *
    generalize k * k = E at *
    omega

/-- The loop measure. -/
def mu (X Y : Int) : Int := X + max (X - Y) 0

/-- The decision of a step, see `circleStep_ok`. -/
def Decides (r X Y X' Y' : Int) : Prop :=
  (X' = X ∧ Y' = Y + 1 ∧ Y + 1 < X ∧ offset r X Y ≤ X - 2 * Y - 2) ∨
   (X' = X - 1 ∧ Y' = Y + 1 ∧ (Y < X → offset r X Y > X - 2 * Y - 2 ∨ X = Y + 1) ∧
      (X < Y → offset r X Y ≤ 2 * X - Y - 2)) ∨
   (X' = X - 1 ∧ Y' = Y ∧ X < Y ∧ offset r X Y > 2 * X - Y - 2)

/-- A step goes on to the next circle pixel, or ends the loop after the last one. -/
theorem circle_goes {r X Y X' Y' : Int} (_ : 1 ≤ r) (h : OnCircle r X Y) (s2 : Decides r X Y X' Y') :
      (0 ≤ X' ∧ OnCircle r X' Y' ∧ mu X' Y' < mu X Y ∧
        ∀ A B, OnCircle r A B → (Pend X Y A B ↔ (A = X ∧ B = Y) ∨ Pend X' Y' A B)) ∨
       (X' = -1 ∧ ∀ A B, OnCircle r A B → (Pend X Y A B ↔ (A = X ∧ B = Y))) := by
  have hh := h
  obtain ⟨h1, h2, h3, h4, h5⟩ := h
  have eA : offset r X (Y + 1) = offset r X Y + 2 * Y + 1 := by unfold offset; ring
  have eB : offset r (X - 1) (Y + 1) = offset r X Y + 2 * Y - 2 * X + 2 := by unfold offset; ring
  have eC : offset r (X - 1) Y = offset r X Y - 2 * X + 1 := by unfold offset; ring
  have rowA : Y ≤ X → ∀ A B, OnCircle r A B → (Y ≤ B ↔ (A = X ∧ B = Y) ∨ Y + 1 ≤ B) := by
    intro hc A B hAB
    constructor
    · intro hB
      by_cases he : B = Y
      · subst he; exact .inl ⟨row_unique hh hc hAB, rfl⟩
      · right; omega
    · omega
  have colB : X ≤ Y → ∀ A B, OnCircle r A B → (A ≤ X ↔ (A = X ∧ B = Y) ∨ A ≤ X - 1) := by
    intro hc A B hAB
    constructor
    · intro hA
      by_cases he : A = X
      · subst he; exact .inl ⟨rfl, col_unique hh hc hAB⟩
      · right; omega
    · omega
  rcases s2 with ⟨rfl, rfl, k1, k2⟩ | ⟨rfl, rfl, k1, k2⟩ | ⟨rfl, rfl, k1, k2⟩
  · -- down
    left
    refine ⟨h1, ⟨h1, by omega, ?_, ?_, ?_⟩, by unfold mu; omega, ?_⟩
    · rw [eA]; omega
    · rw [eA]; omega
    · omega
    · intro A B hAB
      unfold Pend
      rw [if_pos (by omega), if_pos (by omega)]
      exact rowA (by omega) A B hAB
  · -- diagonal
    by_cases hYX : Y ≤ X
    · -- from the right part
      by_cases hn : Y + 1 ≤ X - 1
      · left
        have k3 := k1 (by omega)
        refine ⟨by omega, ⟨by omega, by omega, ?_, ?_, ?_⟩, by unfold mu; omega, ?_⟩
        · rw [eB]; omega
        · rw [eB]; omega
        · rw [eB]; omega
        · intro A B hAB
          unfold Pend
          rw [if_pos hYX, if_pos hn]
          exact rowA hYX A B hAB
      · have hX1 : 1 ≤ X := by
          by_contra hc
          have : X = 0 := by omega
          have : Y = 0 := by omega
          subst_vars
          unfold offset at h3 h4
          omega
        left
        have hon : OnCircle r (X - 1) (Y + 1) := by
          refine ⟨by omega, by omega, ?_, ?_, ?_⟩
          · rw [eB]; omega
          · rw [eB]; omega
          · omega
        refine ⟨by omega, hon, by unfold mu; omega, ?_⟩
        intro A B hAB
        unfold Pend
        rw [if_pos hYX, if_neg (by omega), rowA hYX A B hAB]
        by_cases hd : X = Y
        · subst hd
          have e : (X + 1) - 2 = X - 1 := by omega
          have := exit2 (r := r) (k := X + 1) (by omega) (by rw [e, eB]; omega) (by rw [e, eB]; omega) hAB
          rw [this, e]
        · have e : X = Y + 1 := by omega
          subst e
          have := exit1 (r := r) (k := Y + 1) (by omega) (by rw [eB]; omega) (by rw [eB]; omega) hAB
          rw [this]
    · -- past the diagonal
      have k3 := k2 (by omega)
      left
      refine ⟨by omega, ⟨by omega, by omega, ?_, ?_, ?_⟩, by unfold mu; omega, ?_⟩
      · rw [eB]; omega
      · rw [eB]; omega
      · omega
      · intro A B hAB
        unfold Pend
        rw [if_neg hYX, if_neg (by omega)]
        exact colB (by omega) A B hAB
  · -- to the left
    by_cases hX0 : X = 0
    · right
      subst hX0
      refine ⟨rfl, ?_⟩
      intro A B hAB
      unfold Pend
      rw [if_neg (by omega), colB (by omega) A B hAB]
      have := hAB.1
      omega
    · left
      refine ⟨by omega, ⟨by omega, by omega, ?_, ?_, ?_⟩, by unfold mu; omega, ?_⟩
      · rw [eC]; omega
      · rw [eC]; omega
      · omega
      · intro A B hAB
        unfold Pend
        rw [if_neg (by omega), if_neg (by omega)]
        exact colB (by omega) A B hAB

/-- The step is defined if the radius is not too big. -/
theorem circle_next {r X Y e : Int} (hr : 1 ≤ r) (hr' : r ≤ 715827881) (h : OnCircle r X Y)
    (he : e = offset r X Y - 2 * X + 2 * Y + 2) :
    ∃ X' Y', circleStep (-X) Y e = .ok (-X', Y', offset r X' Y' - 2 * X' + 2 * Y' + 2) ∧
      ((0 ≤ X' ∧ OnCircle r X' Y' ∧ mu X' Y' < mu X Y ∧
        ∀ A B, OnCircle r A B → (Pend X Y A B ↔ (A = X ∧ B = Y) ∨ Pend X' Y' A B)) ∨
       (X' = -1 ∧ ∀ A B, OnCircle r A B → (Pend X Y A B ↔ (A = X ∧ B = Y)))) := by
  obtain ⟨X', Y', s1, s2⟩ := circleStep_ok hr hr' h he
  exact ⟨X', Y', s1, circle_goes hr h s2⟩

/-! ## The loop -/

/-- The pixels of one round. -/
def roundSet (filled : Bool) (center : Pt) (X Y : Int) (q : Pt) : Prop :=
  (if filled then |q.x - center.x| ≤ X else |q.x - center.x| = X) ∧ |q.y - center.y| = Y

theorem circleRound_ok (center : Pt) (hc : MidPt center) (X Y : Int) (filled : Bool)
    (hX : 0 ≤ X ∧ X ≤ 268435456) (hY : 0 ≤ Y ∧ Y ≤ 268435456) :
    ∃ ps, circleRound center (-X) Y filled = .ok ps ∧ ∀ q, q ∈ ps ↔ roundSet filled center X Y q := by
  obtain ⟨⟨c1, c2⟩, c3, c4⟩ := hc
  have hadd : ∀ a b : Int, (-268435456 ≤ a ∧ a ≤ 268435456) → (-268435456 ≤ b ∧ b ≤ 268435456) →
      center.add ⟨a, b⟩ = .ok ⟨center.x + a, center.y + b⟩ := by
    intro a b ha hb
    unfold Pt.add
    simp only
    rw [chk_ok (v := center.x + a) (by constructor <;> omega)]; simp only [Res.bind_ok]
    rw [chk_ok (v := center.y + b) (by constructor <;> omega)]; simp only [Res.bind_ok]
  have hmem : ∀ (q : Pt) (a b : Int), q = ⟨a, b⟩ ↔ q.x = a ∧ q.y = b := by
    intro q a b
    obtain ⟨x, y⟩ := q
    rw [Pt.mk.injEq]
  unfold circleRound
  rw [chk_ok (v := - -X) (by constructor <;> omega)]; simp only [Res.bind_ok]
  rw [chk_ok (v := -Y) (by constructor <;> omega)]; simp only [Res.bind_ok]
  rw [hadd _ _ (by omega) (by omega), hadd _ _ (by omega) (by omega), hadd _ _ (by omega) (by omega),
    hadd _ _ (by omega) (by omega)]
  simp only [Res.bind_ok]
  cases filled with
  | false =>
    simp only [Bool.false_eq_true, if_false]
    refine ⟨_, rfl, ?_⟩
    intro q
    simp only [List.mem_cons, List.not_mem_nil, or_false, hmem, roundSet, Bool.false_eq_true, if_false]
    rcases abs_cases (q.x - center.x) with ⟨h1, h2⟩ | ⟨h1, h2⟩ <;>
      rcases abs_cases (q.y - center.y) with ⟨h3, h4⟩ | ⟨h3, h4⟩ <;> rw [h1, h3] <;> omega
  | true =>
    simp only [if_true]
    rw [chk_ok (v := 2 * - -X) (by constructor <;> omega)]; simp only [Res.bind_ok]
    rw [chk_ok (v := 2 * - -X + 1) (by constructor <;> omega)]; simp only [Res.bind_ok]
    obtain ⟨a, a1, a2⟩ := hLine_ok ⟨center.x + -X, center.y + Y⟩ (2 * - -X + 1) (by simp only; omega)
    obtain ⟨b, b1, b2⟩ := hLine_ok ⟨center.x + -X, center.y + -Y⟩ (2 * - -X + 1) (by simp only; omega)
    rw [a1]; simp only [Res.bind_ok]
    rw [b1]; simp only [Res.bind_ok]
    refine ⟨_, rfl, ?_⟩
    intro q
    simp only [List.mem_append, List.mem_cons, List.not_mem_nil, or_false, hmem, roundSet, if_true, a2, b2]
    rcases abs_cases (q.x - center.x) with ⟨h1, h2⟩ | ⟨h1, h2⟩ <;>
      rcases abs_cases (q.y - center.y) with ⟨h3, h4⟩ | ⟨h3, h4⟩ <;> rw [h1, h3] <;> omega

theorem circleLoop_ok (center : Pt) (hc : MidPt center) (filled : Bool) (r : Int) (hr : 1 ≤ r)
    (hr' : r ≤ 268435456) (n : Nat) (X Y e : Int) (h : OnCircle r X Y)
    (he : e = offset r X Y - 2 * X + 2 * Y + 2) (hn : mu X Y < n) :
    ∃ ps, circleLoop center filled (-X) Y e n = .ok ps ∧
      ∀ q, q ∈ ps ↔ ∃ A B, OnCircle r A B ∧ Pend X Y A B ∧ roundSet filled center A B q := by
  induction n generalizing X Y e with
  | zero =>
    exfalso
    have := h.1
    unfold mu at hn
    omega
  | succ n ih =>
    obtain ⟨b1, b2⟩ := onCircle_le (by omega) h
    obtain ⟨ps, p1, p2⟩ := circleRound_ok center hc X Y filled ⟨h.1, by omega⟩ ⟨h.2.1, by omega⟩
    obtain ⟨X', Y', s1, s2⟩ := circle_next hr (by omega) h he
    unfold circleLoop
    rw [p1]; simp only [Res.bind_ok]
    rw [s1]; simp only [Res.bind_ok]
    have hself : Pend X Y X Y := by unfold Pend; split <;> omega
    rcases s2 with ⟨x0, on', m', pend'⟩ | ⟨x1, pend'⟩
    · rw [if_pos (by omega)]
      obtain ⟨qs, q1, q2⟩ := ih X' Y' _ on' rfl (by omega)
      rw [q1]
      refine ⟨_, rfl, ?_⟩
      intro q
      rw [List.mem_append, p2, q2]
      constructor
      · rintro (hq | ⟨A, B, k1, k2, k3⟩)
        · exact ⟨X, Y, h, hself, hq⟩
        · exact ⟨A, B, k1, (pend' A B k1).2 (.inr k2), k3⟩
      · rintro ⟨A, B, k1, k2, k3⟩
        rcases (pend' A B k1).1 k2 with ⟨rfl, rfl⟩ | k4
        · exact .inl k3
        · exact .inr ⟨A, B, k1, k4, k3⟩
    · rw [if_neg (by omega)]
      refine ⟨_, rfl, ?_⟩
      intro q
      rw [p2]
      constructor
      · intro hq
        exact ⟨X, Y, h, hself, hq⟩
      · rintro ⟨A, B, k1, k2, k3⟩
        obtain ⟨rfl, rfl⟩ := (pend' A B k1).1 k2
        exact k3

/-! ## The disc -/

theorem offset_swap (r X Y : Int) : offset r X Y = offset r Y X := by unfold offset; ring

/-- From inside the disc, going right along the row, the circle is met. -/
private theorem row_reaches {r : Int} (hr : 1 ≤ r) (n : Nat) (X Y : Int) (hX : 0 ≤ X) (hY : 0 ≤ Y)
    (h : offset r X Y < -max X Y) (hn : r - X ≤ n) : ∃ A, X ≤ A ∧ OnCircle r A Y := by
  induction n generalizing X with
  | zero =>
    exfalso
    unfold offset at h
    have hrX : r ≤ X := by simp only [Int.natCast_zero] at hn; omega
    have : r * r ≤ X * X := by nlinarith
    have : 0 ≤ Y * Y := mul_self_nonneg Y
    omega
  | succ n ih =>
    have e : offset r (X + 1) Y = offset r X Y + 2 * X + 1 := by unfold offset; ring
    by_cases hc : offset r (X + 1) Y < -max (X + 1) Y
    · obtain ⟨A, h1, h2⟩ := ih (X + 1) (by omega) hc (by push_cast at hn; omega)
      exact ⟨A, by omega, h2⟩
    · refine ⟨X + 1, by omega, by omega, hY, by omega, by omega, ?_⟩
      rw [e]
      omega

/-- The disc consists of the pixels lying between outline pixels of the same row. -/
theorem disc_rows {r X Y : Int} (hr : 1 ≤ r) (hX : 0 ≤ X) (hY : 0 ≤ Y) :
    InDisc r X Y ↔ ∃ A, X ≤ A ∧ OnCircle r A Y := by
  constructor
  · rintro ⟨h1, h2⟩
    by_cases hc : offset r X Y < -max X Y
    · exact row_reaches hr (r - X).toNat X Y hX hY hc (by omega)
    · refine ⟨X, Int.le_refl X, hX, hY, by omega, h1, ?_⟩
      rintro ⟨rfl, h3⟩
      exact h2 ⟨by omega, rfl, h3⟩
  · rintro ⟨A, hA, b1, b2, b3, b4, b5⟩
    obtain ⟨k, rfl⟩ : ∃ k, A = X + k := ⟨A - X, by omega⟩
    have e : offset r (X + k) Y = offset r X Y + 2 * (X * k) + k * k := by unfold offset; ring
    have hkk : k ≤ k * k := by nlinarith
    have hXk : 0 ≤ X * k := mul_nonneg hX (by omega)
    have hXk' : 1 ≤ X → k ≤ X * k := fun h => by nlinarith
    unfold InDisc
    generalize offset r (X + k) Y = D' at *
    generalize offset r X Y = D at *
    constructor
    · generalize X * k = P at *
      generalize k * k = Q at *
      omega
    · rintro ⟨h1, h2, h3⟩
      have := hXk' h1
      by_cases hk : k = 0
      · subst hk
        simp only [Int.mul_zero, Int.add_zero] at *
        exact b5 ⟨h2, by omega⟩
      · generalize X * k = P at *
        generalize k * k = Q at *
        omega

/-! ## C37 -/

/-- `drawCircle` before the final painting, for radii of screen scale. -/
theorem circlePts_ok {c : Canvas} {g : Geom} {fb : FB} (h : Ready c g fb) (p : Pt) (hp : SmallPt p)
    (r : Int) (hr : 1 ≤ r ∧ r ≤ 268435456) (filled : Bool) :
    ∃ ps, c.circlePts p r filled = .ok ps ∧ ∀ q, q ∈ ps ↔ ∃ A B, OnCircle r A B ∧
      roundSet filled (phys c.rotate g.getWidth g.getHeight p) A B q := by
  have h0 : OnCircle r r 0 := by
    have e : offset r r 0 = 0 := by unfold offset; ring
    refine ⟨by omega, Int.le_refl 0, by rw [e]; omega, by rw [e]; omega, by omega⟩
  obtain ⟨ps, p1, p2⟩ := circleLoop_ok _ (phys_mid h hp) filled r hr.1 hr.2 (2 * r.natAbs + 4) r 0 (2 - 2 * r) h0
    (by unfold offset; ring) (by unfold mu; omega)
  refine ⟨ps, ?_, ?_⟩
  · unfold Canvas.circlePts
    rw [transform_is_phys c g fb h p (by omega)]; simp only [Res.bind_ok]
    rw [chk_ok (v := -r) (by constructor <;> omega)]; simp only [Res.bind_ok]
    rw [chk_ok (v := 2 * r) (by constructor <;> omega)]; simp only [Res.bind_ok]
    rw [chk_ok (v := 2 - 2 * r) (by constructor <;> omega)]; simp only [Res.bind_ok]
    exact p1
  · intro q
    rw [p2]
    constructor
    · rintro ⟨A, B, k1, _, k3⟩
      exact ⟨A, B, k1, k3⟩
    · rintro ⟨A, B, k1, k3⟩
      refine ⟨A, B, k1, ?_, k3⟩
      unfold Pend
      rw [if_pos (by omega)]
      exact k1.2.1

/-- Rotation keeps or exchanges the distances from the centre. -/
theorem phys_dist (r : Rotation) (W H : Int) (p q : Pt) :
    (|(phys r W H q).x - (phys r W H p).x| = |q.x - p.x| ∧ |(phys r W H q).y - (phys r W H p).y| = |q.y - p.y|) ∨
    (|(phys r W H q).x - (phys r W H p).x| = |q.y - p.y| ∧ |(phys r W H q).y - (phys r W H p).y| = |q.x - p.x|) := by
  have e1 : ∀ W s t : Int, |W - 1 - s - (W - 1 - t)| = |s - t| := by
    intro W s t
    rw [← abs_neg]; congr 1; ring
  cases r <;> simp only [phys, e1]
  · exact .inl ⟨trivial, trivial⟩
  · exact .inr ⟨trivial, trivial⟩
  · exact .inl ⟨trivial, trivial⟩
  · exact .inr ⟨trivial, trivial⟩

/-- **C37**: for radius at least 1 an unfilled circle paints exactly the on-screen pixels of the
digital circle around its centre, in every rotation. -/
theorem drawCircle_exact (c : Canvas) (g : Geom) (fb : FB) (h : Ready c g fb) (p : Pt) (hp : SmallPt p)
    (r : Int) (hr : 1 ≤ r ∧ r ≤ 268435456) :
    ∃ fb', c.drawCircle g fb p r false = .ok fb' ∧
      Paints c g fb fb' (fun q => OnCircle r |q.x - p.x| |q.y - p.y|) := by
  obtain ⟨ps, p1, p2⟩ := circlePts_ok h p hp r hr false
  unfold Canvas.drawCircle
  rw [p1]
  apply paint_paints h
  intro q _
  rw [p2]
  simp only [roundSet, Bool.false_eq_true, if_false]
  constructor
  · rintro ⟨A, B, k1, rfl, rfl⟩
    rcases phys_dist c.rotate g.getWidth g.getHeight p q with ⟨e1, e2⟩ | ⟨e1, e2⟩
    · rw [e1, e2] at k1; exact k1
    · rw [e1, e2] at k1; exact k1.symm
  · intro k1
    refine ⟨_, _, ?_, rfl, rfl⟩
    rcases phys_dist c.rotate g.getWidth g.getHeight p q with ⟨e1, e2⟩ | ⟨e1, e2⟩
    · rw [e1, e2]; exact k1
    · rw [e1, e2]; exact k1.symm

/-- **C37**: radius 0 paints the centre only, filled or not. -/
theorem drawCircle_zero (c : Canvas) (g : Geom) (fb : FB) (h : Ready c g fb) (p : Pt) (hp : SmallPt p)
    (filled : Bool) :
    ∃ fb', c.drawCircle g fb p 0 filled = .ok fb' ∧ Paints c g fb fb' (fun q => q = p) := by
  obtain ⟨ps, p1, p2⟩ := circleRound_ok _ (phys_mid h hp) 0 0 filled (by omega) (by omega)
  have hps : c.circlePts p 0 filled = .ok ps := by
    unfold Canvas.circlePts
    rw [transform_is_phys c g fb h p (by omega)]; simp only [Res.bind_ok]
    show circleLoop _ filled 0 0 2 4 = _
    unfold circleLoop
    have e : (0 : Int) = -0 := by decide
    rw [show circleRound (phys c.rotate g.getWidth g.getHeight p) 0 0 filled = .ok ps from p1]
    rfl
  unfold Canvas.drawCircle
  rw [hps]
  apply paint_paints h
  intro q _
  rw [p2]
  have key : ∀ a b : Pt, roundSet filled a 0 0 b ↔ b = a := by
    intro a b
    unfold roundSet
    obtain ⟨ax, ay⟩ := a
    obtain ⟨bx, by'⟩ := b
    rw [Pt.mk.injEq]
    simp only
    rcases abs_cases (bx - ax) with ⟨h1, h2⟩ | ⟨h1, h2⟩ <;>
      rcases abs_cases (by' - ay) with ⟨h3, h4⟩ | ⟨h3, h4⟩ <;> rw [h1, h3] <;> split <;> omega
  rw [key]
  exact ⟨fun e => phys_inj _ _ _ e, fun e => by rw [e]⟩

/-- Finding: a negative radius is not ignored; it paints two pixels, in the unrotated canvas those at
distance `|r|` left and right of the centre. -/
theorem drawCircle_negative (c : Canvas) (g : Geom) (fb : FB) (h : Ready c g fb) (p : Pt) (hp : SmallPt p)
    (r : Int) (hr : -268435456 ≤ r ∧ r < 0) (filled : Bool) :
    ∃ fb', c.drawCircle g fb p r filled = .ok fb' ∧
      Paints c g fb fb' (fun q => phys c.rotate g.getWidth g.getHeight q =
          ⟨(phys c.rotate g.getWidth g.getHeight p).x + r, (phys c.rotate g.getWidth g.getHeight p).y⟩ ∨
        phys c.rotate g.getWidth g.getHeight q =
          ⟨(phys c.rotate g.getWidth g.getHeight p).x - r, (phys c.rotate g.getWidth g.getHeight p).y⟩) := by
  have hm := phys_mid h hp
  generalize hce : phys c.rotate g.getWidth g.getHeight p = ce at hm
  obtain ⟨⟨c1, c2⟩, c3, c4⟩ := hm
  have hadd : ∀ a b : Int, (-268435456 ≤ a ∧ a ≤ 268435456) → (-268435456 ≤ b ∧ b ≤ 268435456) →
      ce.add ⟨a, b⟩ = .ok ⟨ce.x + a, ce.y + b⟩ := by
    intro a b ha hb
    unfold Pt.add
    simp only
    rw [chk_ok (v := ce.x + a) (by constructor <;> omega)]; simp only [Res.bind_ok]
    rw [chk_ok (v := ce.y + b) (by constructor <;> omega)]; simp only [Res.bind_ok]
  have hround : ∃ ps, circleRound ce (-r) 0 filled = .ok ps ∧
      ∀ q, q ∈ ps ↔ q = ⟨ce.x + r, ce.y⟩ ∨ q = ⟨ce.x - r, ce.y⟩ := by
    unfold circleRound
    rw [chk_ok (v := - -r) (by constructor <;> omega)]; simp only [Res.bind_ok]
    rw [chk_ok (v := -0) (by decide)]; simp only [Res.bind_ok]
    rw [hadd _ _ (by omega) (by omega), hadd _ _ (by omega) (by omega), hadd _ _ (by omega) (by omega),
      hadd _ _ (by omega) (by omega)]
    simp only [Res.bind_ok]
    have e1 : ce.x + - -r = ce.x + r := by omega
    have e2 : ce.x + -r = ce.x - r := by omega
    have e3 : ce.y + 0 = ce.y := by omega
    have e4 : ce.y + -0 = ce.y := by omega
    cases filled with
    | false =>
      refine ⟨_, rfl, ?_⟩
      intro q
      simp only [List.mem_cons, List.not_mem_nil, or_false, e1, e2, e3, e4]
      tauto
    | true =>
      simp only [if_true]
      rw [chk_ok (v := 2 * - -r) (by constructor <;> omega)]; simp only [Res.bind_ok]
      rw [chk_ok (v := 2 * - -r + 1) (by constructor <;> omega)]; simp only [Res.bind_ok]
      have hz : ∀ p, hLine p (2 * - -r + 1) = .ok [] := by
        intro p
        unfold hLine
        have : (2 * - -r + 1).toNat = 0 := by omega
        rw [this]; rfl
      rw [hz, hz]; simp only [Res.bind_ok]
      refine ⟨_, rfl, ?_⟩
      intro q
      simp only [List.mem_append, List.mem_cons, List.not_mem_nil, or_false, e1, e2, e3, e4]
      tauto
  obtain ⟨ps, p1, p2⟩ := hround
  have hps : c.circlePts p r filled = .ok ps := by
    unfold Canvas.circlePts
    rw [transform_is_phys c g fb h p (by omega), hce]; simp only [Res.bind_ok]
    rw [chk_ok (v := -r) (by constructor <;> omega)]; simp only [Res.bind_ok]
    rw [chk_ok (v := 2 * r) (by constructor <;> omega)]; simp only [Res.bind_ok]
    rw [chk_ok (v := 2 - 2 * r) (by constructor <;> omega)]; simp only [Res.bind_ok]
    unfold circleLoop
    rw [p1]; simp only [Res.bind_ok]
    unfold circleStep
    rw [if_neg (by omega)]; simp only [Res.bind_ok]
    by_cases hx : 2 - 2 * r > -r
    · rw [if_pos hx]
      rw [chk_ok (v := -r + 1) (by constructor <;> omega)]; simp only [Res.bind_ok]
      rw [chk_ok (v := (-r + 1) * 2) (by constructor <;> omega)]; simp only [Res.bind_ok]
      rw [chk_ok (v := (-r + 1) * 2 + 1) (by constructor <;> omega)]; simp only [Res.bind_ok]
      rw [chk_ok (v := 2 - 2 * r + ((-r + 1) * 2 + 1)) (by constructor <;> omega)]; simp only [Res.bind_ok]
      rw [if_neg (by omega)]
    · omega
  unfold Canvas.drawCircle
  rw [hps]
  apply paint_paints h
  intro q _
  rw [p2]

/-- **C37**: the digital circle contains the cardinal points and lies within one pixel of the ideal
circle: `(r - 1)² < X² + Y² < (r + 1)²`. -/
theorem circle_near (r : Int) (hr : 1 ≤ r) :
    OnCircle r r 0 ∧ OnCircle r 0 r ∧
    ∀ X Y, OnCircle r X Y → (r - 1) * (r - 1) < X * X + Y * Y ∧ X * X + Y * Y < (r + 1) * (r + 1) := by
  have h0 : OnCircle r r 0 := by
    have e : offset r r 0 = 0 := by unfold offset; ring
    refine ⟨by omega, Int.le_refl 0, by rw [e]; omega, by rw [e]; omega, by omega⟩
  refine ⟨h0, h0.symm, ?_⟩
  intro X Y h
  obtain ⟨b1, b2⟩ := onCircle_le (by omega) h
  obtain ⟨hX, hY, h3, h4, _⟩ := h
  unfold offset at h3 h4
  have e1 : (r - 1) * (r - 1) = r * r - 2 * r + 1 := by ring
  have e2 : (r + 1) * (r + 1) = r * r + 2 * r + 1 := by ring
  have e3 : X ≤ X * X := by nlinarith
  have e4 : Y ≤ Y * Y := by nlinarith
  rw [e1, e2]
  generalize X * X = A at *
  generalize Y * Y = B at *
  by_cases h1 : r = 1
  · subst h1
    omega
  · generalize r * r = C at *
    omega

/-- **C37**: each row of the circle has a pixel: no gaps. -/
theorem circle_rows (r : Int) (hr : 1 ≤ r) (Y : Int) (hY : 0 ≤ Y) (hYr : Y ≤ r) : ∃ X, OnCircle r X Y := by
  by_cases hc : offset r 0 Y < -max 0 Y
  · obtain ⟨A, _, h⟩ := (disc_rows hr (Int.le_refl 0) hY).1 ⟨by omega, by omega⟩
    exact ⟨A, h⟩
  · refine ⟨0, Int.le_refl 0, hY, by omega, ?_, ?_⟩
    · unfold offset at *
      have : Y * Y ≤ r * r := by nlinarith
      by_cases hy : Y = 0
      · subst hy
        have : 1 ≤ r * r := by nlinarith
        omega
      · omega
    · rintro ⟨rfl, h⟩
      unfold offset at *
      omega

/-! ## C38 -/

/-- **C38**: a filled circle of radius at least 1 paints exactly the on-screen pixels of the disc. -/
theorem drawFilledCircle_exact (c : Canvas) (g : Geom) (fb : FB) (h : Ready c g fb) (p : Pt) (hp : SmallPt p)
    (r : Int) (hr : 1 ≤ r ∧ r ≤ 268435456) :
    ∃ fb', c.drawCircle g fb p r true = .ok fb' ∧
      Paints c g fb fb' (fun q => InDisc r |q.x - p.x| |q.y - p.y|) := by
  obtain ⟨ps, p1, p2⟩ := circlePts_ok h p hp r hr true
  unfold Canvas.drawCircle
  rw [p1]
  apply paint_paints h
  intro q _
  rw [p2]
  have hsw : ∀ X Y, InDisc r X Y ↔ InDisc r Y X := by
    intro X Y
    unfold InDisc
    rw [offset_swap r X Y]
    omega
  have key : (∃ A B, OnCircle r A B ∧ roundSet true (phys c.rotate g.getWidth g.getHeight p) A B
      (phys c.rotate g.getWidth g.getHeight q)) ↔
      InDisc r |(phys c.rotate g.getWidth g.getHeight q).x - (phys c.rotate g.getWidth g.getHeight p).x|
        |(phys c.rotate g.getWidth g.getHeight q).y - (phys c.rotate g.getWidth g.getHeight p).y| := by
    rw [disc_rows hr.1 (abs_nonneg _) (abs_nonneg _)]
    simp only [roundSet, if_true]
    constructor
    · rintro ⟨A, B, k1, k2, rfl⟩
      exact ⟨A, k2, k1⟩
    · rintro ⟨A, k2, k1⟩
      exact ⟨A, _, k1, k2, rfl⟩
  rw [key]
  rcases phys_dist c.rotate g.getWidth g.getHeight p q with ⟨e1, e2⟩ | ⟨e1, e2⟩
  · rw [e1, e2]
  · rw [e1, e2]; exact hsw _ _

/-- **C38**: the disc consists of exactly the pixels between (or on) two outline pixels of their row, and
likewise of their column. -/
theorem disc_between (r : Int) (hr : 1 ≤ r) (dx dy : Int) :
    (InDisc r |dx| |dy| ↔ ∃ a b, a ≤ dx ∧ dx ≤ b ∧ OnCircle r |a| |dy| ∧ OnCircle r |b| |dy|) ∧
    (InDisc r |dx| |dy| ↔ ∃ a b, a ≤ dy ∧ dy ≤ b ∧ OnCircle r |dx| |a| ∧ OnCircle r |dx| |b|) := by
  have hrow : ∀ dx dy : Int,
      InDisc r |dx| |dy| ↔ ∃ a b, a ≤ dx ∧ dx ≤ b ∧ OnCircle r |a| |dy| ∧ OnCircle r |b| |dy| := by
    intro dx dy
    rw [disc_rows hr (abs_nonneg _) (abs_nonneg _)]
    constructor
    · rintro ⟨A, h1, h2⟩
      have hA := h2.1
      obtain ⟨h3, h4⟩ := abs_le.1 h1
      refine ⟨-A, A, h3, h4, ?_, ?_⟩
      · rw [abs_neg, abs_of_nonneg hA]; exact h2
      · rw [abs_of_nonneg hA]; exact h2
    · rintro ⟨a, b, h1, h2, h3, h4⟩
      rcases abs_cases dx with ⟨e, _⟩ | ⟨e, _⟩
      · refine ⟨|b|, ?_, h4⟩
        rcases abs_cases b with ⟨e2, _⟩ | ⟨e2, _⟩ <;> omega
      · refine ⟨|a|, ?_, h3⟩
        rcases abs_cases a with ⟨e2, _⟩ | ⟨e2, _⟩ <;> omega
  refine ⟨hrow dx dy, ?_⟩
  have hsw : InDisc r |dx| |dy| ↔ InDisc r |dy| |dx| := by
    unfold InDisc
    rw [offset_swap r |dx| |dy|]
    omega
  rw [hsw, hrow dy dx]
  constructor
  · rintro ⟨a, b, h1, h2, h3, h4⟩; exact ⟨a, b, h1, h2, h3.symm, h4.symm⟩
  · rintro ⟨a, b, h1, h2, h3, h4⟩; exact ⟨a, b, h1, h2, h3.symm, h4.symm⟩

/-! ## C39 -/

/-- **C39**: the digital circle and disc are symmetric under mirroring and exchange of the axes (which
generate the symmetries of the square). -/
theorem circle_symmetric (r dx dy : Int) :
    (OnCircle r |dx| |dy| ↔ OnCircle r |dy| |dx|) ∧ (OnCircle r |-dx| |dy| ↔ OnCircle r |dx| |dy|) ∧
    (InDisc r |dx| |dy| ↔ InDisc r |dy| |dx|) ∧ (InDisc r |-dx| |dy| ↔ InDisc r |dx| |dy|) := by
  refine ⟨⟨OnCircle.symm, OnCircle.symm⟩, by rw [abs_neg], ?_, by rw [abs_neg]⟩
  unfold InDisc
  rw [offset_swap r |dx| |dy|]
  omega

/-- **C39**: on canvases with the same or different rotations, the same circle paints the same set of
logical pixels. -/
theorem circle_rotation_invariant (c1 c2 : Canvas) (g1 g2 : Geom) (fb1 fb2 : FB) (h1 : Ready c1 g1 fb1)
    (h2 : Ready c2 g2 fb2) (p : Pt) (hp : SmallPt p) (r : Int) (hr : 0 ≤ r ∧ r ≤ 268435456) (filled : Bool) :
    ∃ S fb1' fb2', c1.drawCircle g1 fb1 p r filled = .ok fb1' ∧ c2.drawCircle g2 fb2 p r filled = .ok fb2' ∧
      Paints c1 g1 fb1 fb1' S ∧ Paints c2 g2 fb2 fb2' S := by
  by_cases h0 : r = 0
  · subst h0
    obtain ⟨f1, a1, a2⟩ := drawCircle_zero c1 g1 fb1 h1 p hp filled
    obtain ⟨f2, b1, b2⟩ := drawCircle_zero c2 g2 fb2 h2 p hp filled
    exact ⟨_, f1, f2, a1, b1, a2, b2⟩
  · cases filled with
    | false =>
      obtain ⟨f1, a1, a2⟩ := drawCircle_exact c1 g1 fb1 h1 p hp r (by omega)
      obtain ⟨f2, b1, b2⟩ := drawCircle_exact c2 g2 fb2 h2 p hp r (by omega)
      exact ⟨_, f1, f2, a1, b1, a2, b2⟩
    | true =>
      obtain ⟨f1, a1, a2⟩ := drawFilledCircle_exact c1 g1 fb1 h1 p hp r (by omega)
      obtain ⟨f2, b1, b2⟩ := drawFilledCircle_exact c2 g2 fb2 h2 p hp r (by omega)
      exact ⟨_, f1, f2, a1, b1, a2, b2⟩

example : OnCircle 5 4 3 ∧ OnCircle 5 5 1 ∧ ¬ OnCircle 5 4 4 ∧ InDisc 5 4 3 ∧ ¬ InDisc 5 4 4 := by
  simp only [OnCircle, InDisc, offset]; decide

/-- The left-out corner occurs: for radius 4 the pixel (3, 3) would qualify (18 - 16 < 3). -/
example : offset 4 3 3 = 3 - 1 ∧ ¬ OnCircle 4 3 3 := by
  simp only [OnCircle, offset]; decide

/-! ## C42 -/

/-- All arguments of a shape are of screen scale (at most 2^28 in magnitude). -/
def Shape.InScale : Shape → Prop
  | .pixel p => SmallPt p
  | .line a b => SmallPt a ∧ SmallPt b
  | .rect r => SmallRect r
  | .fillRect r => SmallRect r
  | .circle p r _ => SmallPt p ∧ Small r

/-- **C42**: no drawing call with arguments of screen scale overflows or hangs. -/
theorem no_overflow (c : Canvas) (g : Geom) (fb : FB) (h : Ready c g fb) (s : Shape) (hs : s.InScale) :
    ∃ fb', c.draw g fb s = .ok fb' ∧ Ready c g fb' := by
  have fin : ∀ fb', (∃ S, Paints c g fb fb' S) → Ready c g fb' := fun fb' ⟨S, hP⟩ =>
    ⟨h.compiles, h.depth, by rw [hP.len]; exact h.img, h.size, h.wlo, h.hlo, h.whi, h.hhi⟩
  cases s with
  | pixel p =>
    obtain ⟨f, a, b⟩ := drawPixel_paints c g fb h p (by simp only [Shape.InScale] at hs; omega)
    exact ⟨f, a, fin f ⟨_, b⟩⟩
  | line a b =>
    obtain ⟨S, f, k1, k2, _⟩ := drawLine_line c g fb h a b hs.1 hs.2
    exact ⟨f, k1, fin f ⟨_, k2⟩⟩
  | rect r =>
    obtain ⟨f, a, b⟩ := drawRectangle_outline c g fb h r hs
    exact ⟨f, a, fin f ⟨_, b⟩⟩
  | fillRect r =>
    obtain ⟨f, a, b⟩ := drawFilledRectangle_exact c g fb h r hs
    exact ⟨f, a, fin f ⟨_, b⟩⟩
  | circle p r filled =>
    obtain ⟨hs1, hs2⟩ := hs
    rcases lt_trichotomy r 0 with hr | hr | hr
    · obtain ⟨f, a, b⟩ := drawCircle_negative c g fb h p hs1 r (by omega) filled
      exact ⟨f, a, fin f ⟨_, b⟩⟩
    · subst hr
      obtain ⟨f, a, b⟩ := drawCircle_zero c g fb h p hs1 filled
      exact ⟨f, a, fin f ⟨_, b⟩⟩
    · cases filled with
      | false =>
        obtain ⟨f, a, b⟩ := drawCircle_exact c g fb h p hs1 r (by omega)
        exact ⟨f, a, fin f ⟨_, b⟩⟩
      | true =>
        obtain ⟨f, a, b⟩ := drawFilledCircle_exact c g fb h p hs1 r (by omega)
        exact ⟨f, a, fin f ⟨_, b⟩⟩

example : Shape.InScale (.circle ⟨-300, 40⟩ 1000 true) := by simp only [Shape.InScale]; decide

end Verif.Canvas
