import Verif.Canvas.Domain
import Verif.Canvas.Circle
/-!
# C142, continued: circles over the whole range of `int`

The centre is any pair of values of type `int`.  The radius is at most 715827881, a third of the greatest `int`: up to
there the error value of the loop (Canvas.cpp:147, 155) can not overflow.  Negative radii are included.
-/
set_option linter.dupNamespace false
namespace Verif.Canvas
open Verif.FrameBuffer

/-! ## Specification -/

/-- A circle of positive radius `r` around the physical point `p` can not be drawn: it does not fit into the plane of all
points with members of type `int`; a filled one may not even touch the right border of it. -/
def CircleOverflow (filled : Bool) (p : Pt) (r : Int) : Prop :=
  ¬ IntPt p ∨ ¬ IntPt ⟨p.x - r, p.y - r⟩ ∨ ¬ IntPt ⟨p.x + r, p.y + r⟩ ∨ (filled = true ∧ p.x + r = 2147483647)

/-- The error value of the loop is an `int` when it comes to the pixel. -/
def PixFine (r X Y : Int) : Prop := offset r X Y + 2 * Y + 1 ≤ 2147483647

/-- A pixel of the circle at which it is not. -/
def ErrOverflow (r : Int) : Prop := ∃ A B, OnCircle r A B ∧ ¬ PixFine r A B

/-- The same for a radius which is not positive. -/
def DotOverflow (filled : Bool) (p : Pt) (r : Int) : Prop :=
  ¬ IntPt p ∨ ¬ InInt (p.x - r) ∨ ¬ InInt (p.x + r) ∨ ¬ InInt (5 - 4 * r) ∨ (filled = true ∧ r = 0 ∧ p.x = 2147483647)

/-! ## One round -/

/-- A round can be drawn. -/
def RoundFine (filled : Bool) (center : Pt) (X Y : Int) : Prop :=
  (InInt (center.x + X) ∧ InInt (center.x - X) ∧ InInt (center.y + Y) ∧ InInt (center.y - Y)) ∧
    (filled = true → center.x + X ≠ 2147483647)

theorem add_iff {p q : Pt} {a b : Int} :
    p.add ⟨a, b⟩ = .ok q ↔ (InInt (p.x + a) ∧ InInt (p.y + b)) ∧ q = ⟨p.x + a, p.y + b⟩ := by
  unfold Pt.add
  constructor
  · intro h
    obtain ⟨x, hx, h⟩ := Res.bind_eq_ok.1 h
    obtain ⟨y, hy, h⟩ := Res.bind_eq_ok.1 h
    obtain ⟨h1, rfl⟩ := chk_eq_ok.1 hx
    obtain ⟨h2, rfl⟩ := chk_eq_ok.1 hy
    injection h with h
    exact ⟨⟨h1, h2⟩, h.symm⟩
  · rintro ⟨⟨h1, h2⟩, rfl⟩
    rw [chk_ok h1]; simp only [Res.bind_ok]; rw [chk_ok h2]; rfl

theorem Ends.add (p : Pt) (s : Sz) : Ends (p.add s) := (Ends.chk _).bind fun _ => (Ends.chk _).bind fun _ => Ends.ok _

theorem Ends.circleRound (center : Pt) (x y : Int) (filled : Bool) : Ends (circleRound center x y filled) := by
  unfold Canvas.circleRound
  refine (Ends.chk _).bind fun _ => (Ends.chk _).bind fun _ => (Ends.add _ _).bind fun _ => (Ends.add _ _).bind fun _ =>
    (Ends.add _ _).bind fun _ => (Ends.add _ _).bind fun _ => ?_
  split
  · exact (Ends.chk _).bind fun _ => (Ends.chk _).bind fun _ => (Ends.hLine _ _).bind fun _ => (Ends.hLine _ _).bind fun _ =>
      Ends.ok _
  · exact Ends.ok _

theorem circleRound_domain (center : Pt) (X Y : Int) (filled : Bool)
    (hX : 0 ≤ X ∧ X ≤ 1073741823) (hY : 0 ≤ Y ∧ Y ≤ 1073741823) :
    (RoundFine filled center X Y → ∃ ps, circleRound center (-X) Y filled = .ok ps ∧
      ∀ q, q ∈ ps ↔ roundSet filled center X Y q) ∧
    (¬ RoundFine filled center X Y → circleRound center (-X) Y filled = .ub) := by
  constructor
  · rintro ⟨⟨c1, c2, c3, c4⟩, c5⟩
    have hmem : ∀ (q : Pt) (a b : Int), q = ⟨a, b⟩ ↔ q.x = a ∧ q.y = b := by
      intro q a b
      obtain ⟨x, y⟩ := q
      rw [Pt.mk.injEq]
    have e1 : InInt (center.x + - -X) := ⟨by have := c1.1; omega, by have := c1.2; omega⟩
    have e2 : InInt (center.x + -X) := ⟨by have := c2.1; omega, by have := c2.2; omega⟩
    have e3 : InInt (center.y + -Y) := ⟨by have := c4.1; omega, by have := c4.2; omega⟩
    unfold circleRound
    rw [chk_ok (v := - -X) (by constructor <;> omega)]; simp only [Res.bind_ok]
    rw [chk_ok (v := -Y) (by constructor <;> omega)]; simp only [Res.bind_ok]
    rw [add_iff.2 ⟨⟨e1, c3⟩, rfl⟩, add_iff.2 ⟨⟨e2, c3⟩, rfl⟩, add_iff.2 ⟨⟨e2, e3⟩, rfl⟩, add_iff.2 ⟨⟨e1, e3⟩, rfl⟩]
    simp only [Res.bind_ok]
    cases filled with
    | false =>
      simp only [Bool.false_eq_true, if_false]
      refine ⟨_, rfl, ?_⟩
      intro q
      simp only [List.mem_cons, List.not_mem_nil, or_false, hmem, roundSet, Bool.false_eq_true, if_false]
      rcases abs_cases (q.x - center.x) with ⟨h1, h2⟩ | ⟨h1, h2⟩ <;>
        rcases abs_cases (q.y - center.y) with ⟨h3, h4⟩ | ⟨h3, h4⟩ <;> rw [h1, h3] <;> omega
    | true =>
      have c6 := c5 rfl
      have c7 := c1.2
      simp only [if_true]
      rw [chk_ok (v := 2 * - -X) (by constructor <;> omega)]; simp only [Res.bind_ok]
      rw [chk_ok (v := 2 * - -X + 1) (by constructor <;> omega)]; simp only [Res.bind_ok]
      have k1 := e2.1
      obtain ⟨a, a1, a2⟩ := hLine_ok ⟨center.x + -X, center.y + Y⟩ (2 * - -X + 1) (by simp only; omega)
      obtain ⟨b, b1, b2⟩ := hLine_ok ⟨center.x + -X, center.y + -Y⟩ (2 * - -X + 1) (by simp only; omega)
      rw [a1]; simp only [Res.bind_ok]
      rw [b1]; simp only [Res.bind_ok]
      refine ⟨_, rfl, ?_⟩
      intro q
      simp only [List.mem_append, List.mem_cons, List.not_mem_nil, or_false, hmem, roundSet, if_true, a2, b2]
      rcases abs_cases (q.x - center.x) with ⟨h1, h2⟩ | ⟨h1, h2⟩ <;>
        rcases abs_cases (q.y - center.y) with ⟨h3, h4⟩ | ⟨h3, h4⟩ <;> rw [h1, h3] <;> omega
  · intro hn
    refine (Ends.circleRound _ _ _ _).ub fun ps hps => hn ?_
    unfold circleRound at hps
    obtain ⟨nx, e1, hps⟩ := Res.bind_eq_ok.1 hps
    obtain ⟨ny, e2, hps⟩ := Res.bind_eq_ok.1 hps
    obtain ⟨p1, e3, hps⟩ := Res.bind_eq_ok.1 hps
    obtain ⟨p2, e4, hps⟩ := Res.bind_eq_ok.1 hps
    obtain ⟨p3, e5, hps⟩ := Res.bind_eq_ok.1 hps
    obtain ⟨p4, e6, hfin⟩ := Res.bind_eq_ok.1 hps
    clear hps
    obtain ⟨_, rfl⟩ := chk_eq_ok.1 e1
    obtain ⟨_, rfl⟩ := chk_eq_ok.1 e2
    obtain ⟨⟨k1, k2⟩, rfl⟩ := add_iff.1 e3
    obtain ⟨⟨k3, k4⟩, rfl⟩ := add_iff.1 e4
    obtain ⟨⟨k5, k6⟩, rfl⟩ := add_iff.1 e5
    refine ⟨⟨⟨by have := k1.1; omega, by have := k1.2; omega⟩, ⟨by have := k3.1; omega, by have := k3.2; omega⟩, k2,
      ⟨by have := k6.1; omega, by have := k6.2; omega⟩⟩, ?_⟩
    intro hf
    rw [if_pos hf] at hfin
    obtain ⟨w0, e7, hfin⟩ := Res.bind_eq_ok.1 hfin
    obtain ⟨w, e8, hfin⟩ := Res.bind_eq_ok.1 hfin
    obtain ⟨a, e9, _⟩ := Res.bind_eq_ok.1 hfin
    obtain ⟨_, rfl⟩ := chk_eq_ok.1 e7
    obtain ⟨_, rfl⟩ := chk_eq_ok.1 e8
    have := hLine_needs e9 k3 (by omega)
    simp only at this
    omega

/-! ## The loop -/

/-- The error value is smallest after the first step to the next column; it is an `int` there for radii up to 715855175. -/
theorem circle_low {r X Y : Int} (hr' : r ≤ 715855175) (hX : 0 ≤ X) (hXr : X ≤ r) (hY : 0 ≤ Y)
    (h : offset r X Y + 2 * Y + 2 > X) : -2147483648 ≤ offset r X Y + 4 * Y - 4 * X + 8 := by
  by_cases hs : r ≤ 715827881
  · generalize offset r X Y = D at *
    omega
  have hsq : ∀ a : Int, 0 ≤ a → Y + 1 ≤ a → (Y + 1) * (Y + 1) ≤ a * a := fun a _ h => by nlinarith
  have hsq' : ∀ a : Int, 0 ≤ a → a ≤ Y → a * a ≤ Y * Y := fun a _ h => by nlinarith
  have eY : (Y + 1) * (Y + 1) = Y * Y + 2 * Y + 1 := by ring
  rw [eY] at hsq
  by_cases h0 : X = r
  · subst h0
    have eD : offset X X Y = Y * Y := by unfold offset; ring
    rw [eD] at h ⊢
    have a1 := hsq 26754 (by omega)
    have a2 := hsq 26755 (by omega)
    have a3 := hsq' 26754 (by omega)
    have a4 := hsq' 26755 (by omega)
    generalize Y * Y = S at *
    omega
  by_cases h1 : X = r - 1
  · subst h1
    have eD : offset r (r - 1) Y = Y * Y - 2 * r + 1 := by unfold offset; ring
    rw [eD] at h ⊢
    have a1 := hsq 46340 (by omega)
    have a2 := hsq 46341 (by omega)
    have a3 := hsq' 46340 (by omega)
    have a4 := hsq' 46341 (by omega)
    generalize Y * Y = S at *
    omega
  have h2 : 0 ≤ (r - 2 - X) * (r - 2 + X - 1) := mul_nonneg (by omega) (by omega)
  have eX : (r - 2 - X) * (r - 2 + X - 1) = r * r - X * X + X - 5 * r + 6 := by ring
  have a1 := hsq 40932 (by omega)
  rw [eX] at h2
  unfold offset at *
  generalize Y * Y = S at *
  generalize X * X = T at *
  generalize r * r = U at *
  omega

/-- The same between the two additions of a step. -/
theorem circle_low_mid {r X Y : Int} (hr : 1 ≤ r) (hr' : r ≤ 715855175) (h : OnCircle r X Y) :
    -2147483648 ≤ offset r X Y - 2 * X + 4 * Y + 5 := by
  obtain ⟨b1, b2⟩ := onCircle_le (by omega) h
  obtain ⟨h1, h2, h3, h4, h5⟩ := h
  by_cases hXY : X ≤ Y
  · generalize offset r X Y = D at *
    omega
  by_cases hX : X = r
  · subst hX
    have eD : offset X X Y = Y * Y := by unfold offset; ring
    have := mul_nonneg h2 h2
    rw [eD]
    omega
  have h6 : 0 ≤ (r - 1 - X) * (r - 1 + X + 1) := mul_nonneg (by omega) (by omega)
  have eX : (r - 1 - X) * (r - 1 + X + 1) = r * r - X * X - r - X := by ring
  have hsq : Y ≤ 26000 → Y * Y ≤ 26000 * 26000 := fun h => by nlinarith
  rw [eX] at h6
  unfold offset at *
  generalize Y * Y = S at *
  generalize X * X = T at *
  generalize r * r = U at *
  omega

/-- Right of the diagonal the rows are low. -/
theorem circle_octant {r X Y : Int} (hr : 1 ≤ r) (hr' : r ≤ 715855175) (h : OnCircle r X Y) (hXY : Y ≤ X) : Y ≤ 600000000 := by
  obtain ⟨b1, b2⟩ := onCircle_le (by omega) h
  obtain ⟨h1, h2, h3, h4, h5⟩ := h
  by_contra hc
  have e1 : 600000000 * 600000000 ≤ Y * Y := by nlinarith
  have e2 : Y * Y ≤ X * X := by nlinarith
  have e3 : r * r ≤ 715855175 * 715855175 := by nlinarith
  rw [Int.max_eq_left hXY] at h4
  unfold offset at *
  generalize Y * Y = S at *
  generalize X * X = T at *
  generalize r * r = U at *
  omega

/-- A step is undefined exactly when it goes to a pixel at which the error value is too big. -/
theorem circleStep_domain {r X Y e : Int} (hr : 1 ≤ r) (hr' : r ≤ 715855175) (h : OnCircle r X Y)
    (he : e = offset r X Y - 2 * X + 2 * Y + 2) (hcur : PixFine r X Y) :
    ∃ X' Y', Decides r X Y X' Y' ∧
      ((X' = -1 ∨ PixFine r X' Y') → circleStep (-X) Y e = .ok (-X', Y', offset r X' Y' - 2 * X' + 2 * Y' + 2)) ∧
      (0 ≤ X' → ¬ PixFine r X' Y' → circleStep (-X) Y e = .ub) := by
  obtain ⟨b1, b2⟩ := onCircle_le (by omega) h
  have hlow := circle_low hr' h.1 b1 h.2.1
  have hmid := circle_low_mid hr hr' h
  have hoct := circle_octant hr hr' h
  have hsum : X ≤ 1 → Y + 1 ≤ r → offset r X Y ≤ 1 - 2 * Y - 1 := by
    intro a1 a2
    have : X * X ≤ 1 := by nlinarith [h.1]
    have : (Y + 1) * (Y + 1) ≤ r * r := by nlinarith [h.2.1]
    have e : (Y + 1) * (Y + 1) = Y * Y + 2 * Y + 1 := by ring
    unfold offset
    omega
  have hsum0 : X = 0 → offset r X Y ≤ 0 := by
    rintro rfl
    have : Y * Y ≤ r * r := by nlinarith [h.2.1]
    unfold offset
    omega
  have htop : Y = r → 0 ≤ offset r X Y := by
    rintro rfl
    have := mul_nonneg h.1 h.1
    unfold offset
    omega
  obtain ⟨h1, h2, h3, h4, h5⟩ := h
  have eA : offset r X (Y + 1) = offset r X Y + 2 * Y + 1 := by unfold offset; ring
  have eB : offset r (X - 1) (Y + 1) = offset r X Y + 2 * Y - 2 * X + 2 := by unfold offset; ring
  have eC : offset r (X - 1) Y = offset r X Y - 2 * X + 1 := by unfold offset; ring
  unfold PixFine at *
  unfold Decides
  have hX0 : ¬ (X = 0 ∧ Y = 0) := by
    rintro ⟨rfl, rfl⟩
    unfold offset at h3 h4
    simp at h3 h4
    nlinarith
  generalize hD : offset r X Y = D at *
  unfold circleStep
  by_cases hy : e ≤ Y
  · rw [if_pos hy]
    rw [chk_ok (v := Y + 1) (by constructor <;> omega)]; simp only [Res.bind_ok]
    rw [chk_ok (v := (Y + 1) * 2) (by constructor <;> omega)]; simp only [Res.bind_ok]
    rw [chk_ok (v := (Y + 1) * 2 + 1) (by constructor <;> omega)]; simp only [Res.bind_ok]
    by_cases hx : (if - -X = Y + 1 ∧ e ≤ -X then (0 : Int) else e) > -X
    · refine ⟨X - 1, Y + 1, .inr (.inl ⟨rfl, rfl, ?_, ?_⟩), ?_, ?_⟩
      · intro hlt
        split at hx <;> omega
      · omega
      · intro hfine
        rw [eB] at hfine
        rw [chk_ok (v := e + ((Y + 1) * 2 + 1)) (by constructor <;> omega)]; simp only [Res.bind_ok]
        rw [chk_ok (v := - -X) (by constructor <;> omega)]; simp only [Res.bind_ok]
        rw [if_pos hx]
        rw [chk_ok (v := -X + 1) (by constructor <;> omega)]; simp only [Res.bind_ok]
        rw [chk_ok (v := (-X + 1) * 2) (by constructor <;> omega)]; simp only [Res.bind_ok]
        rw [chk_ok (v := (-X + 1) * 2 + 1) (by constructor <;> omega)]; simp only [Res.bind_ok]
        rw [chk_ok (v := e + ((Y + 1) * 2 + 1) + ((-X + 1) * 2 + 1)) (by split at hx <;> constructor <;> omega)]
        simp only [Res.bind_ok]
        rw [eB]; congr 2
        · omega
        · congr 1; omega
      · intro _ hbad
        rw [eB] at hbad
        rw [(Ends.chk (e + ((Y + 1) * 2 + 1))).ub fun a ha => by have := (chk_eq_ok.1 ha).1.2; omega]
        rfl
    · have k1 : Y + 1 < X := by split at hx <;> omega
      have k2 : D ≤ X - 2 * Y - 2 := by split at hx <;> omega
      have hY := hoct (by omega)
      refine ⟨X, Y + 1, .inl ⟨rfl, rfl, k1, k2⟩, fun _ => ?_, fun _ hbad => ?_⟩
      · rw [chk_ok (v := e + ((Y + 1) * 2 + 1)) (by constructor <;> omega)]; simp only [Res.bind_ok]
        rw [chk_ok (v := - -X) (by constructor <;> omega)]; simp only [Res.bind_ok]
        rw [if_neg hx]
        rw [eA]; congr 3; omega
      · rw [eA] at hbad
        omega
  · rw [if_neg hy]; simp only [Res.bind_ok]
    have hx : e > -X := by omega
    refine ⟨X - 1, Y, .inr (.inr ⟨rfl, rfl, by omega, by omega⟩), fun _ => ?_, fun _ hbad => ?_⟩
    · rw [if_pos hx]
      rw [chk_ok (v := -X + 1) (by constructor <;> omega)]; simp only [Res.bind_ok]
      rw [chk_ok (v := (-X + 1) * 2) (by constructor <;> omega)]; simp only [Res.bind_ok]
      rw [chk_ok (v := (-X + 1) * 2 + 1) (by constructor <;> omega)]; simp only [Res.bind_ok]
      rw [chk_ok (v := e + ((-X + 1) * 2 + 1)) (by constructor <;> omega)]
      simp only [Res.bind_ok]
      rw [eC]; congr 2
      · omega
      · congr 1; omega
    · rw [eC] at hbad
      omega

theorem circleLoop_domain (center : Pt) (filled : Bool) (r : Int) (hr : 1 ≤ r)
    (hr' : r ≤ 715855175) (n : Nat) (X Y e : Int) (h : OnCircle r X Y)
    (he : e = offset r X Y - 2 * X + 2 * Y + 2) (hcur : PixFine r X Y) (hn : mu X Y < n) :
    ((∀ A B, OnCircle r A B → Pend X Y A B → RoundFine filled center A B ∧ PixFine r A B) →
      ∃ ps, circleLoop center filled (-X) Y e n = .ok ps ∧
        ∀ q, q ∈ ps ↔ ∃ A B, OnCircle r A B ∧ Pend X Y A B ∧ roundSet filled center A B q) ∧
    (∀ A B, OnCircle r A B → Pend X Y A B → ¬ (RoundFine filled center A B ∧ PixFine r A B) →
      circleLoop center filled (-X) Y e n = .ub) := by
  induction n generalizing X Y e with
  | zero =>
    exfalso
    have := h.1
    unfold mu at hn
    omega
  | succ n ih =>
    obtain ⟨b1, b2⟩ := onCircle_le (by omega) h
    obtain ⟨r1, r2⟩ := circleRound_domain center X Y filled ⟨h.1, by omega⟩ ⟨h.2.1, by omega⟩
    obtain ⟨X', Y', s0, s1, s1'⟩ := circleStep_domain hr hr' h he hcur
    have s2 := circle_goes hr h s0
    have hself : Pend X Y X Y := by unfold Pend; split <;> omega
    unfold circleLoop
    by_cases hf : RoundFine filled center X Y
    · obtain ⟨ps, p1, p2⟩ := r1 hf
      rw [p1]; simp only [Res.bind_ok]
      rcases s2 with ⟨x0, on', m', pend'⟩ | ⟨x1, pend'⟩
      · by_cases hfine : PixFine r X' Y'
        · rw [s1 (.inr hfine)]; simp only [Res.bind_ok]
          rw [if_pos (by omega)]
          obtain ⟨i1, i2⟩ := ih X' Y' _ on' rfl hfine (by omega)
          constructor
          · intro hall
            obtain ⟨qs, q1, q2⟩ := i1 fun A B k1 k2 => hall A B k1 ((pend' A B k1).2 (.inr k2))
            rw [q1]
            refine ⟨_, rfl, ?_⟩
            intro q
            rw [List.mem_append, p2, q2]
            constructor
            · rintro (hq | ⟨A, B, k1, k2, k3⟩)
              · exact ⟨X, Y, h, hself, hq⟩
              · exact ⟨A, B, k1, (pend' A B k1).2 (.inr k2), k3⟩
            · rintro ⟨A, B, k1, k2, k3⟩
              rcases (pend' A B k1).1 k2 with ⟨rfl, rfl⟩ | k4
              · exact .inl k3
              · exact .inr ⟨A, B, k1, k4, k3⟩
          · intro A B k1 k2 k3
            rcases (pend' A B k1).1 k2 with ⟨rfl, rfl⟩ | k4
            · exact absurd ⟨hf, hcur⟩ k3
            · rw [i2 A B k1 k4 k3]
              rfl
        · rw [s1' x0 hfine]
          have hself' : Pend X' Y' X' Y' := by unfold Pend; split <;> omega
          exact ⟨fun hall => absurd (hall X' Y' on' ((pend' X' Y' on').2 (.inr hself'))).2 hfine, fun _ _ _ _ _ => rfl⟩
      · rw [s1 (.inl x1)]; simp only [Res.bind_ok]
        rw [if_neg (by omega)]
        constructor
        · intro _
          refine ⟨_, rfl, ?_⟩
          intro q
          rw [p2]
          constructor
          · intro hq
            exact ⟨X, Y, h, hself, hq⟩
          · rintro ⟨A, B, k1, k2, k3⟩
            obtain ⟨rfl, rfl⟩ := (pend' A B k1).1 k2
            exact k3
        · intro A B k1 k2 k3
          obtain ⟨rfl, rfl⟩ := (pend' A B k1).1 k2
          exact absurd ⟨hf, hcur⟩ k3
    · rw [r2 hf]
      exact ⟨fun hall => absurd (hall X Y h hself).1 hf, fun _ _ _ _ _ => rfl⟩

/-- The whole loop, for a physical centre. -/
theorem circle_domain (center : Pt) (hc : IntPt center) (filled : Bool) (r : Int) (hr : 1 ≤ r) (hr' : r ≤ 715855175) :
    PtsUnless (circleLoop center filled (-r) 0 (2 - 2 * r) (2 * r.natAbs + 4)) (CircleOverflow filled center r ∨ ErrOverflow r)
      (fun q => ∃ A B, OnCircle r A B ∧ roundSet filled center A B q) := by
  have h0 : OnCircle r r 0 := by
    have e : offset r r 0 = 0 := by unfold offset; ring
    refine ⟨by omega, Int.le_refl 0, by rw [e]; omega, by rw [e]; omega, by omega⟩
  have hp : ∀ A B, OnCircle r A B → Pend r 0 A B := by
    intro A B h
    unfold Pend
    rw [if_pos (by omega)]
    exact h.2.1
  obtain ⟨d1, d2⟩ := circleLoop_domain center filled r hr hr' (2 * r.natAbs + 4) r 0 (2 - 2 * r) h0
    (by unfold offset; ring) (by unfold PixFine offset; omega) (by unfold mu; omega)
  obtain ⟨cx, cy⟩ := center
  obtain ⟨⟨c1, c2⟩, c3, c4⟩ := hc
  simp only at c1 c2 c3 c4
  constructor
  · rintro (hbad | ⟨A, B, hAB, hbad⟩)
    swap
    · exact d2 A B hAB (hp A B hAB) fun k => hbad k.2
    by_cases hx : RoundFine filled ⟨cx, cy⟩ r 0
    · refine d2 0 r h0.symm (hp _ _ h0.symm) fun hy => ?_
      replace hy := hy.1
      obtain ⟨⟨⟨_, a1⟩, ⟨a2, _⟩, _, _⟩, a4⟩ := hx
      obtain ⟨⟨_, _, ⟨_, b1⟩, ⟨b2, _⟩⟩, _⟩ := hy
      simp only at a1 a2 a4 b1 b2
      rcases hbad with hb | hb | hb | ⟨hf, hb⟩
      · exact hb ⟨⟨c1, c2⟩, c3, c4⟩
      · refine hb ⟨⟨?_, ?_⟩, ?_, ?_⟩ <;> simp only <;> omega
      · refine hb ⟨⟨?_, ?_⟩, ?_, ?_⟩ <;> simp only <;> omega
      · exact a4 hf hb
    · exact d2 r 0 h0 (hp _ _ h0) fun k => hx k.1
  · intro hok'
    obtain ⟨hok, herr⟩ := not_or.1 hok'
    unfold CircleOverflow at hok
    simp only [not_or, not_not, not_and] at hok
    obtain ⟨-, ⟨⟨k1, -⟩, k2, -⟩, ⟨⟨-, k3⟩, -, k4⟩, k5⟩ := hok
    simp only at k1 k2 k3 k4 k5
    obtain ⟨ps, p1, p2⟩ := d1 fun A B hAB _ => by
      obtain ⟨l1, l2⟩ := onCircle_le (by omega) hAB
      have g1 := hAB.1
      have g2 := hAB.2.1
      refine ⟨⟨⟨⟨?_, ?_⟩, ⟨?_, ?_⟩, ⟨?_, ?_⟩, ⟨?_, ?_⟩⟩, ?_⟩, not_not.1 fun k => herr ⟨A, B, hAB, k⟩⟩
      all_goals simp only
      all_goals first | omega | skip
      intro hf
      have := k5 hf
      omega
    refine ⟨ps, p1, ?_⟩
    intro q
    rw [p2]
    constructor
    · rintro ⟨A, B, a1, _, a3⟩
      exact ⟨A, B, a1, a3⟩
    · rintro ⟨A, B, a1, a3⟩
      exact ⟨A, B, a1, hp A B a1, a3⟩

/-- `drawCircle` for radii up to 715855175. -/
theorem drawCircle_domain_upto (c : Canvas) (g : Geom) (fb : FB) (h : Ready c g fb) (p : Pt) (hp : IntPt p) (r : Int)
    (hr : 1 ≤ r ∧ r ≤ 715855175) (filled : Bool) :
    DrawsUnless c g fb (c.drawCircle g fb p r filled)
      (CircleOverflow filled (phys c.rotate g.getWidth g.getHeight p) r ∨ ErrOverflow r)
      (fun q => if filled then InDisc r |q.x - p.x| |q.y - p.y| else OnCircle r |q.x - p.x| |q.y - p.y|) := by
  have ht := fun q => transformPt_iff (q := q) h.size ⟨h.wlo, h.whi⟩ ⟨h.hlo, h.hhi⟩ hp
  unfold Canvas.drawCircle Canvas.circlePts
  by_cases ka : IntPt (phys c.rotate g.getWidth g.getHeight p)
  · rw [(ht _).2 ⟨ka, rfl⟩]; simp only [Res.bind_ok]
    rw [chk_ok (v := -r) (by constructor <;> omega)]; simp only [Res.bind_ok]
    rw [chk_ok (v := 2 * r) (by constructor <;> omega)]; simp only [Res.bind_ok]
    rw [chk_ok (v := 2 - 2 * r) (by constructor <;> omega)]; simp only [Res.bind_ok]
    obtain ⟨d1, d2⟩ := circle_domain _ ka filled r hr.1 hr.2
    constructor
    · intro hbad
      rw [d1 hbad]; rfl
    · intro hok
      obtain ⟨ps, p1, p2⟩ := d2 hok
      rw [p1]
      apply paint_paints h
      intro q _
      rw [p2]
      cases filled with
      | false =>
        simp only [roundSet, Bool.false_eq_true, if_false]
        constructor
        · rintro ⟨A, B, k1, rfl, rfl⟩
          rcases phys_dist c.rotate g.getWidth g.getHeight p q with ⟨e1, e2⟩ | ⟨e1, e2⟩
          · rw [e1, e2] at k1; exact k1
          · rw [e1, e2] at k1; exact k1.symm
        · intro k1
          refine ⟨_, _, ?_, rfl, rfl⟩
          rcases phys_dist c.rotate g.getWidth g.getHeight p q with ⟨e1, e2⟩ | ⟨e1, e2⟩
          · rw [e1, e2]; exact k1
          · rw [e1, e2]; exact k1.symm
      | true =>
        have key : (∃ A B, OnCircle r A B ∧ roundSet true (phys c.rotate g.getWidth g.getHeight p) A B
            (phys c.rotate g.getWidth g.getHeight q)) ↔
            InDisc r |(phys c.rotate g.getWidth g.getHeight q).x - (phys c.rotate g.getWidth g.getHeight p).x|
              |(phys c.rotate g.getWidth g.getHeight q).y - (phys c.rotate g.getWidth g.getHeight p).y| := by
          rw [disc_rows hr.1 (abs_nonneg _) (abs_nonneg _)]
          simp only [roundSet, if_true]
          constructor
          · rintro ⟨A, B, k1, k2, rfl⟩
            exact ⟨A, k2, k1⟩
          · rintro ⟨A, k2, k1⟩
            exact ⟨A, _, k1, k2, rfl⟩
        refine key.trans ?_
        simp only [if_true]
        rcases phys_dist c.rotate g.getWidth g.getHeight p q with ⟨e1, e2⟩ | ⟨e1, e2⟩
        · rw [e1, e2]
        · rw [e1, e2]
          unfold InDisc
          rw [offset_swap r |q.x - p.x|]
          omega
  · refine ⟨fun _ => ?_, fun hn => absurd (.inl (.inl ka)) hn⟩
    rw [(Ends.transformPt c p).ub (fun q hq => ka ((ht q).1 hq).1)]
    rfl

/-- The only round for a radius which is not positive. -/
theorem dotRound_ok (filled : Bool) (ce : Pt) (r : Int) (r3 : r ≤ 0) (hy : InInt ce.y) (h1 : InInt (ce.x - r))
    (h2 : InInt (ce.x + r)) (r1 : -536870912 ≤ r) (k6 : filled = true → r = 0 → ce.x ≠ 2147483647) :
    ∃ ps, circleRound ce (-r) 0 filled = .ok ps ∧ ∀ q, q ∈ ps ↔ q = ⟨ce.x + r, ce.y⟩ ∨ q = ⟨ce.x - r, ce.y⟩ := by
  obtain ⟨a3, a4⟩ := hy
  obtain ⟨k1, k2⟩ := h1
  obtain ⟨k3, k4⟩ := h2
  have e1 : ce.x + - -r = ce.x + r := by omega
  have e2 : ce.x + -r = ce.x - r := by omega
  have e3 : ce.y + 0 = ce.y := by omega
  have e4 : ce.y + -0 = ce.y := by omega
  have hadd : ∀ {x y : Int}, InInt (ce.x + x) → InInt (ce.y + y) → ce.add ⟨x, y⟩ = .ok ⟨ce.x + x, ce.y + y⟩ :=
    fun hx hy => add_iff.2 ⟨⟨hx, hy⟩, rfl⟩
  unfold circleRound
  rw [chk_ok (v := - -r) (by constructor <;> omega)]; simp only [Res.bind_ok]
  rw [chk_ok (v := -0) (by decide)]; simp only [Res.bind_ok]
  rw [hadd (x := - -r) (y := 0) (by constructor <;> omega) (by constructor <;> omega),
    hadd (x := -r) (y := 0) (by constructor <;> omega) (by constructor <;> omega),
    hadd (x := -r) (y := -0) (by constructor <;> omega) (by constructor <;> omega),
    hadd (x := - -r) (y := -0) (by constructor <;> omega) (by constructor <;> omega)]
  simp only [Res.bind_ok]
  cases filled with
  | false =>
    refine ⟨_, rfl, ?_⟩
    intro q
    simp only [List.mem_cons, List.not_mem_nil, or_false, e1, e2, e3, e4]
    tauto
  | true =>
    simp only [if_true]
    rw [chk_ok (v := 2 * - -r) (by constructor <;> omega)]; simp only [Res.bind_ok]
    rw [chk_ok (v := 2 * - -r + 1) (by constructor <;> omega)]; simp only [Res.bind_ok]
    have hrow : ∀ (y : Int), y = ce.y → ∃ ps, hLine ⟨ce.x + -r, y⟩ (2 * - -r + 1) = .ok ps ∧
        ∀ q ∈ ps, q = ⟨ce.x - r, ce.y⟩ := by
      rintro _ rfl
      obtain ⟨ps, q1, q2⟩ := hLine_ok ⟨ce.x + -r, ce.y⟩ (2 * - -r + 1) (by
        simp only
        by_cases hr0 : r = 0
        · have := k6 rfl hr0; omega
        · omega)
      refine ⟨ps, q1, ?_⟩
      intro q hq
      obtain ⟨x, y⟩ := q
      have := (q2 _).1 hq
      simp only at this
      rw [Pt.mk.injEq]
      omega
    obtain ⟨a, x1, x2⟩ := hrow (ce.y + 0) e3
    obtain ⟨b, y1, y2⟩ := hrow (ce.y + -0) e4
    rw [x1]; simp only [Res.bind_ok]
    rw [y1]; simp only [Res.bind_ok]
    refine ⟨_, rfl, ?_⟩
    intro q
    simp only [List.mem_append, List.mem_cons, List.not_mem_nil, or_false, e1, e2, e3, e4]
    constructor
    · rintro (((rfl | rfl | rfl | rfl) | hq) | hq)
      · exact .inl rfl
      · exact .inr rfl
      · exact .inr rfl
      · exact .inl rfl
      · exact .inr (x2 q hq)
      · exact .inr (y2 q hq)
    · rintro (rfl | rfl)
      · exact .inl (.inl (.inl rfl))
      · exact .inl (.inl (.inr (.inl rfl)))

/-- **C142**: `drawCircle` for radii which are not positive: at most two pixels, in the row of the physical screen through
the centre. -/
theorem drawCircle_domain_nonpos (c : Canvas) (g : Geom) (fb : FB) (h : Ready c g fb) (p : Pt) (hp : IntPt p) (r : Int)
    (hr : InInt r ∧ r ≤ 0) (filled : Bool) :
    DrawsUnless c g fb (c.drawCircle g fb p r filled)
      (DotOverflow filled (phys c.rotate g.getWidth g.getHeight p) r)
      (fun q => phys c.rotate g.getWidth g.getHeight q =
          ⟨(phys c.rotate g.getWidth g.getHeight p).x + r, (phys c.rotate g.getWidth g.getHeight p).y⟩ ∨
        phys c.rotate g.getWidth g.getHeight q =
          ⟨(phys c.rotate g.getWidth g.getHeight p).x - r, (phys c.rotate g.getWidth g.getHeight p).y⟩) := by
  have ht := fun q => transformPt_iff (q := q) h.size ⟨h.wlo, h.whi⟩ ⟨h.hlo, h.hhi⟩ hp
  unfold Canvas.drawCircle Canvas.circlePts
  by_cases ka : IntPt (phys c.rotate g.getWidth g.getHeight p)
  swap
  · refine ⟨fun _ => ?_, fun hn => absurd (.inl ka) hn⟩
    rw [(Ends.transformPt c p).ub (fun q hq => ka ((ht q).1 hq).1)]
    rfl
  rw [(ht _).2 ⟨ka, rfl⟩]; simp only [Res.bind_ok]
  generalize phys c.rotate g.getWidth g.getHeight p = ce at ka ⊢
  obtain ⟨⟨⟨r1, r2⟩, r3⟩, ⟨a1, a2⟩, a3, a4⟩ := And.intro hr ka
  have hstep : -536870910 ≤ r → ∀ fuel ps, circleRound ce (-r) 0 filled = .ok ps →
      circleLoop ce filled (-r) 0 (2 - 2 * r) (fuel + 1) = .ok ps := by
    intro hr5 fuel ps h1
    unfold circleLoop
    rw [h1]; simp only [Res.bind_ok]
    unfold circleStep
    rw [if_neg (by omega)]; simp only [Res.bind_ok]
    rw [if_pos (show 2 - 2 * r > -r by omega)]
    rw [chk_ok (v := -r + 1) (by constructor <;> omega)]; simp only [Res.bind_ok]
    rw [chk_ok (v := (-r + 1) * 2) (by constructor <;> omega)]; simp only [Res.bind_ok]
    rw [chk_ok (v := (-r + 1) * 2 + 1) (by constructor <;> omega)]; simp only [Res.bind_ok]
    rw [chk_ok (v := 2 - 2 * r + ((-r + 1) * 2 + 1)) (by constructor <;> omega)]; simp only [Res.bind_ok]
    rw [if_neg (by omega)]
  constructor
  · intro hbad
    have hub : ∀ {α : Type} (k : List Pt → Res α), ((do
        let x ← chk (-r)
        let t ← chk (2 * r)
        let err ← chk (2 - t)
        circleLoop ce filled x 0 err (2 * r.natAbs + 4) : Res (List Pt)) >>= k) = .ub := by
      intro α k
      by_cases k1 : InInt (-r)
      swap
      · rw [(Ends.chk (-r)).ub (fun a ha => k1 (chk_eq_ok.1 ha).1)]; rfl
      rw [chk_ok k1]; simp only [Res.bind_ok]
      by_cases k2 : InInt (2 * r)
      swap
      · rw [(Ends.chk (2 * r)).ub (fun a ha => k2 (chk_eq_ok.1 ha).1)]; rfl
      rw [chk_ok k2]; simp only [Res.bind_ok]
      by_cases k3 : InInt (2 - 2 * r)
      swap
      · rw [(Ends.chk (2 - 2 * r)).ub (fun a ha => k3 (chk_eq_ok.1 ha).1)]; rfl
      rw [chk_ok k3]; simp only [Res.bind_ok]
      rw [show 2 * r.natAbs + 4 = (2 * r.natAbs + 3) + 1 from rfl]
      have hend : Ends (circleLoop ce filled (-r) 0 (2 - 2 * r) ((2 * r.natAbs + 3) + 1)) := by
        unfold circleLoop
        refine (Ends.circleRound _ _ _ _).bind fun ps => ?_
        unfold circleStep
        rw [if_neg (by omega)]; simp only [Res.bind_ok]
        rw [if_pos (show 2 - 2 * r > -r by omega)]
        by_cases n1 : InInt (-r + 1)
        swap
        · rw [(Ends.chk (-r + 1)).ub (fun a ha => n1 (chk_eq_ok.1 ha).1)]; exact fun e => by cases e
        rw [chk_ok n1]; simp only [Res.bind_ok]
        by_cases n2 : InInt ((-r + 1) * 2)
        swap
        · rw [(Ends.chk ((-r + 1) * 2)).ub (fun a ha => n2 (chk_eq_ok.1 ha).1)]; exact fun e => by cases e
        rw [chk_ok n2]; simp only [Res.bind_ok]
        by_cases n3 : InInt ((-r + 1) * 2 + 1)
        swap
        · rw [(Ends.chk ((-r + 1) * 2 + 1)).ub (fun a ha => n3 (chk_eq_ok.1 ha).1)]; exact fun e => by cases e
        rw [chk_ok n3]; simp only [Res.bind_ok]
        by_cases n4 : InInt (2 - 2 * r + ((-r + 1) * 2 + 1))
        swap
        · rw [(Ends.chk (2 - 2 * r + ((-r + 1) * 2 + 1))).ub (fun a ha => n4 (chk_eq_ok.1 ha).1)]
          exact fun e => by cases e
        rw [chk_ok n4]; simp only [Res.bind_ok]
        rw [if_neg (by omega)]
        exact Ends.ok _
      have : circleLoop ce filled (-r) 0 (2 - 2 * r) ((2 * r.natAbs + 3) + 1) = .ub := by
        refine hend.ub fun ps hps => ?_
        unfold circleLoop at hps
        obtain ⟨ps', e1, hps⟩ := Res.bind_eq_ok.1 hps
        obtain ⟨t, e2, _⟩ := Res.bind_eq_ok.1 hps
        unfold circleStep at e2
        rw [if_neg (by omega)] at e2; simp only [Res.bind_ok] at e2
        rw [if_pos (show 2 - 2 * r > -r by omega)] at e2
        obtain ⟨_, f1, e2⟩ := Res.bind_eq_ok.1 e2
        obtain ⟨_, rfl⟩ := chk_eq_ok.1 f1
        obtain ⟨_, f2, e2⟩ := Res.bind_eq_ok.1 e2
        obtain ⟨_, rfl⟩ := chk_eq_ok.1 f2
        obtain ⟨_, f3, e2⟩ := Res.bind_eq_ok.1 e2
        obtain ⟨_, rfl⟩ := chk_eq_ok.1 f3
        obtain ⟨_, f4, e2⟩ := Res.bind_eq_ok.1 e2
        obtain ⟨f5, rfl⟩ := chk_eq_ok.1 f4
        have f6 := f5.2
        unfold circleRound at e1
        obtain ⟨_, g1, e1⟩ := Res.bind_eq_ok.1 e1
        obtain ⟨_, rfl⟩ := chk_eq_ok.1 g1
        obtain ⟨_, g2, e1⟩ := Res.bind_eq_ok.1 e1
        obtain ⟨_, rfl⟩ := chk_eq_ok.1 g2
        obtain ⟨_, g3, e1⟩ := Res.bind_eq_ok.1 e1
        obtain ⟨⟨g4, _⟩, rfl⟩ := add_iff.1 g3
        obtain ⟨_, g5, e1⟩ := Res.bind_eq_ok.1 e1
        obtain ⟨⟨g6, _⟩, rfl⟩ := add_iff.1 g5
        obtain ⟨_, _, e1⟩ := Res.bind_eq_ok.1 e1
        obtain ⟨_, _, e1⟩ := Res.bind_eq_ok.1 e1
        have u1 := g4.1
        have u2 := g4.2
        have u3 := g6.1
        have u4 := g6.2
        rcases hbad with hb | hb | hb | hb | ⟨hf, h0, hb⟩
        · exact hb ⟨⟨a1, a2⟩, a3, a4⟩
        · exact hb ⟨by omega, by omega⟩
        · exact hb ⟨by omega, by omega⟩
        · exact hb ⟨by omega, by omega⟩
        · rw [if_pos hf] at e1
          obtain ⟨_, v1, e1⟩ := Res.bind_eq_ok.1 e1
          obtain ⟨_, rfl⟩ := chk_eq_ok.1 v1
          obtain ⟨_, v2, e1⟩ := Res.bind_eq_ok.1 e1
          obtain ⟨_, rfl⟩ := chk_eq_ok.1 v2
          obtain ⟨_, v3, e1⟩ := Res.bind_eq_ok.1 e1
          have := hLine_needs v3 g6 (by omega)
          simp only at this
          omega
      rw [this]
      rfl
    exact hub _
  · intro hok
    obtain ⟨k1, k2⟩ : InInt (ce.x - r) := by by_contra hb; exact hok (.inr (.inl hb))
    obtain ⟨k3, k4⟩ : InInt (ce.x + r) := by by_contra hb; exact hok (.inr (.inr (.inl hb)))
    obtain ⟨-, k5⟩ : InInt (5 - 4 * r) := by by_contra hb; exact hok (.inr (.inr (.inr (.inl hb))))
    have k6 : filled = true → r = 0 → ce.x ≠ 2147483647 := fun h1 h2 h3 => hok (.inr (.inr (.inr (.inr ⟨h1, h2, h3⟩))))
    obtain ⟨ps, p1, p2⟩ := dotRound_ok filled ce r r3 ⟨a3, a4⟩ ⟨k1, k2⟩ ⟨k3, k4⟩ (by omega) k6
    rw [chk_ok (v := -r) (by constructor <;> omega)]; simp only [Res.bind_ok]
    rw [chk_ok (v := 2 * r) (by constructor <;> omega)]; simp only [Res.bind_ok]
    rw [chk_ok (v := 2 - 2 * r) (by constructor <;> omega)]; simp only [Res.bind_ok]
    rw [show 2 * r.natAbs + 4 = (2 * r.natAbs + 3) + 1 from rfl, hstep (by omega) _ ps p1]
    apply paint_paints h
    intro q _
    exact p2 _

/-- While the first column is drawn the error grows as a square, and the first step to the next column subtracts almost twice
the radius from about minus the radius. -/
theorem circleLoop_big (center : Pt) (filled : Bool) (r : Int) (hr : 715855176 ≤ r) (hr' : r < 1073741824) (n : Nat)
    (k : Int) (hk : 0 ≤ k) (hkr : k * k + 1 ≤ r) (hn : r - k < n) :
    circleLoop center filled (-r) k (k * k + 2 * k + 2 - 2 * r) n = .ub := by
  induction n generalizing k with
  | zero =>
    exfalso
    have : k ≤ k * k := by nlinarith
    omega
  | succ n ih =>
    have k1 : k < 32768 := by nlinarith
    have hbig : k * k + 4 * k + 8 - 4 * r < -2147483648 := by
      by_cases hsmall : k ≤ 26755
      · nlinarith
      · nlinarith
    have hkk : 0 ≤ k * k := by nlinarith
    have esq : (k + 1) * (k + 1) = k * k + 2 * k + 1 := by ring
    have ih' := ih (k + 1)
    rw [esq] at ih'
    generalize k * k = s at *
    unfold circleLoop
    by_cases hround : ∃ ps, circleRound center (-r) k filled = .ok ps
    swap
    · rw [(Ends.circleRound _ _ _ _).ub fun ps hps => hround ⟨ps, hps⟩]
      rfl
    obtain ⟨ps, hps⟩ := hround
    rw [hps]; simp only [Res.bind_ok]
    unfold circleStep
    rw [if_pos (by omega)]
    rw [chk_ok (v := k + 1) (by constructor <;> omega)]; simp only [Res.bind_ok]
    rw [chk_ok (v := (k + 1) * 2) (by constructor <;> omega)]; simp only [Res.bind_ok]
    rw [chk_ok (v := (k + 1) * 2 + 1) (by constructor <;> omega)]; simp only [Res.bind_ok]
    rw [chk_ok (v := s + 2 * k + 2 - 2 * r + ((k + 1) * 2 + 1)) (by constructor <;> omega)]; simp only [Res.bind_ok]
    rw [chk_ok (v := - -r) (by constructor <;> omega)]; simp only [Res.bind_ok]
    rw [if_neg (show ¬ (- -r = k + 1 ∧ s + 2 * k + 2 - 2 * r ≤ -r) by omega)]
    by_cases hx : s + 2 * k + 2 - 2 * r > -r
    · rw [if_pos hx]
      rw [chk_ok (v := -r + 1) (by constructor <;> omega)]; simp only [Res.bind_ok]
      rw [chk_ok (v := (-r + 1) * 2) (by constructor <;> omega)]; simp only [Res.bind_ok]
      rw [chk_ok (v := (-r + 1) * 2 + 1) (by constructor <;> omega)]; simp only [Res.bind_ok]
      rw [(Ends.chk _).ub fun a ha => by have := (chk_eq_ok.1 ha).1.1; omega]
      rfl
    · rw [if_neg hx]; simp only [Res.bind_ok]
      rw [if_pos (by omega)]
      rw [show s + 2 * k + 2 - 2 * r + ((k + 1) * 2 + 1) = s + 2 * k + 1 + 2 * (k + 1) + 2 - 2 * r by omega,
        ih' (by omega) (by omega) (by omega)]
      rfl

/-- Radii from 715855176 on are never fine. -/
theorem drawCircle_too_big (c : Canvas) (g : Geom) (fb : FB) (h : Ready c g fb) (p : Pt) (hp : IntPt p) (r : Int)
    (hr : 715855176 ≤ r) (filled : Bool) : c.drawCircle g fb p r filled = .ub := by
  have ht := fun q => transformPt_iff (q := q) h.size ⟨h.wlo, h.whi⟩ ⟨h.hlo, h.hhi⟩ hp
  unfold Canvas.drawCircle Canvas.circlePts
  by_cases ka : IntPt (phys c.rotate g.getWidth g.getHeight p)
  · rw [(ht _).2 ⟨ka, rfl⟩]; simp only [Res.bind_ok]
    by_cases hlt : r < 1073741824
    · rw [chk_ok (v := -r) (by constructor <;> omega)]; simp only [Res.bind_ok]
      rw [chk_ok (v := 2 * r) (by constructor <;> omega)]; simp only [Res.bind_ok]
      rw [chk_ok (v := 2 - 2 * r) (by constructor <;> omega)]; simp only [Res.bind_ok]
      have := circleLoop_big (phys c.rotate g.getWidth g.getHeight p) filled r hr hlt (2 * r.natAbs + 4) 0 (by omega)
        (by omega) (by omega)
      rw [show (0 : Int) * 0 + 2 * 0 + 2 - 2 * r = 2 - 2 * r by omega] at this
      rw [this]
      rfl
    · rw [(Ends.chk (2 * r)).ub (fun a ha => by have := (chk_eq_ok.1 ha).1.2; omega)]
      by_cases k : InInt (-r)
      · rw [chk_ok k]; rfl
      · rw [(Ends.chk (-r)).ub (fun a ha => k (chk_eq_ok.1 ha).1)]; rfl
  · rw [(Ends.transformPt c p).ub (fun q hq => ka ((ht q).1 hq).1)]
    rfl

/-- The error value is an `int` for radii up to 715827882. -/
theorem errOverflow_small {r : Int} (hr : 1 ≤ r) (hr' : r ≤ 715827882) : ¬ ErrOverflow r := by
  rintro ⟨A, B, h, hbad⟩
  obtain ⟨b1, b2⟩ := onCircle_le (by omega) h
  obtain ⟨h1, h2, h3, h4, h5⟩ := h
  unfold PixFine at hbad
  omega

/-- From 715829428 on it never is: the first pixel of the last row but one is too far out. -/
theorem errOverflow_big {r : Int} (hr : 715829428 ≤ r) : ErrOverflow r := by
  obtain ⟨n, hn⟩ : ∃ n : Nat, (n : Int) = 3 * r - 3 := ⟨(3 * r - 3).toNat, by omega⟩
  have s1 := Nat.sqrt_le n
  have s2 := Nat.lt_succ_sqrt n
  have s3 : 46341 ≤ Nat.sqrt n := Nat.le_sqrt.2 (by omega)
  generalize Nat.sqrt n = k at *
  have e1 : (k : Int) * k ≤ n := by exact_mod_cast s1
  have e2 : (46341 : Int) * 46341 ≤ (k : Int) * k := by
    have : (46341 : Int) ≤ k := by exact_mod_cast s3
    nlinarith
  have e3 : (n : Int) < ((k : Int) + 1) * (k + 1) := by exact_mod_cast s2
  have hk : (46341 : Int) ≤ k := by exact_mod_cast s3
  have e4 : ((k : Int) + 1) * (k + 1) ≤ 2 * (k * k) := by nlinarith
  have e5 : (k : Int) ≤ r - 1 - 1 := by
    by_contra hc
    nlinarith
  have eD : offset r k (r - 1) = k * k - 2 * r + 1 := by unfold offset; ring
  generalize (k : Int) * k = S at *
  refine ⟨k, r - 1, ⟨by omega, by omega, ?_, ?_, by omega⟩, ?_⟩
  · rw [eD, Int.max_eq_right (by omega)]; omega
  · rw [eD, Int.max_eq_right (by omega)]; omega
  · unfold PixFine
    rw [eD]
    omega

/-- **C142**: `drawCircle` for positive radii: undefined exactly if the circle does not fit into the plane, or if the error
value is too big at one of its pixels. -/
theorem drawCircle_domain (c : Canvas) (g : Geom) (fb : FB) (h : Ready c g fb) (p : Pt) (hp : IntPt p) (r : Int)
    (hr : 1 ≤ r) (filled : Bool) :
    DrawsUnless c g fb (c.drawCircle g fb p r filled)
      (CircleOverflow filled (phys c.rotate g.getWidth g.getHeight p) r ∨ ErrOverflow r)
      (fun q => if filled then InDisc r |q.x - p.x| |q.y - p.y| else OnCircle r |q.x - p.x| |q.y - p.y|) := by
  by_cases hr' : r ≤ 715855175
  · exact drawCircle_domain_upto c g fb h p hp r ⟨hr, hr'⟩ filled
  · exact ⟨fun _ => drawCircle_too_big c g fb h p hp r (by omega) filled,
      fun hn => absurd (.inr (errOverflow_big (by omega))) hn⟩

/-! ## The smallest radius with an error value which is too big -/

/-- The square root, bit by bit. -/
def root (n : Nat) : Nat → Nat → Nat
  | 0, s => s
  | k + 1, s => root n k (if (s + 2 ^ k) * (s + 2 ^ k) ≤ n then s + 2 ^ k else s)

/-- No pixel of the row `r - j` is too far out. -/
def rowFine (r j : Nat) : Bool :=
  let hi := (2 * j + 1) * r - (j * j + j + 1)
  let s := root hi 20 0
  decide (hi < (s + 1) * (s + 1) ∧ s * s + j * j + 2 * r + 1 ≤ 2147483647 + 2 * j * r + 2 * j)

theorem rowFine_sound {r j : Nat} (h : rowFine r j = true) (hr : j * j + j + 1 ≤ (2 * j + 1) * r)
    {A B : Int} (hAB : OnCircle r A B) (hB : B = r - j) (hlt : A ≤ B) : PixFine r A B := by
  obtain ⟨h1, h2, h3, h4, h5⟩ := hAB
  rw [Int.max_eq_right hlt] at h4
  obtain ⟨f1, f2⟩ := of_decide_eq_true h
  generalize root ((2 * j + 1) * r - (j * j + j + 1)) 20 0 = s at f1 f2
  obtain ⟨a, rfl⟩ := Int.eq_ofNat_of_zero_le h1
  have e : offset r a B = (a : Int) * a + (j : Int) * j - 2 * j * r := by
    rw [hB]; unfold offset; ring
  rw [e] at h4
  unfold PixFine
  rw [e]
  have key : (a : Int) * a ≤ ((2 * j + 1) * r - (j * j + j + 1) : Nat) := by
    push_cast [Nat.cast_sub hr]
    have : ((2 * j + 1) * r : Int) = 2 * j * r + r := by ring
    omega
  have key' : a * a ≤ (2 * j + 1) * r - (j * j + j + 1) := by exact_mod_cast key
  have has : a ≤ s := by
    by_contra hc
    have : (s + 1) * (s + 1) ≤ a * a := Nat.mul_le_mul (by omega) (by omega)
    omega
  have h6 : a * a ≤ s * s := Nat.mul_le_mul has has
  have h7 : a * a + j * j + 2 * r + 1 ≤ 2147483647 + 2 * j * r + 2 * j := by omega
  have h8 : (a : Int) * a + j * j + 2 * r + 1 ≤ 2147483647 + 2 * j * r + 2 * j := by exact_mod_cast h7
  omega

theorem rows_fine : (List.range 116).all (fun t => (List.range (t + 1)).all fun j => rowFine (715827883 + t) j) = true := by
  decide +kernel

/-- **C142**: the smallest radius for which `drawCircle` is undefined wherever its centre is. -/
theorem errOverflow_first : (∀ r : Int, 1 ≤ r → r < 715827999 → ¬ ErrOverflow r) ∧ ErrOverflow 715827999 := by
  constructor
  · intro r hr hr'
    by_cases hs : r ≤ 715827882
    · exact errOverflow_small hr hs
    rintro ⟨A, B, h, hbad⟩
    obtain ⟨b1, b2⟩ := onCircle_le (by omega) h
    have hlt : A ≤ B := by
      by_contra hc
      have := circle_octant hr (by omega) h (by omega)
      obtain ⟨h1, h2, h3, h4, h5⟩ := h
      unfold PixFine at hbad
      omega
    have hB : 715827883 ≤ B := by
      obtain ⟨h1, h2, h3, h4, h5⟩ := h
      unfold PixFine at hbad
      omega
    obtain ⟨t, rfl⟩ : ∃ t : Nat, r = ((715827883 + t : Nat) : Int) := ⟨(r - 715827883).toNat, by omega⟩
    obtain ⟨j, hj⟩ : ∃ j : Nat, B = ((715827883 + t : Nat) : Int) - j := ⟨(715827883 + t - B).toNat, by omega⟩
    have hall := List.all_eq_true.1 (List.all_eq_true.1 rows_fine t (List.mem_range.2 (by omega))) j
      (List.mem_range.2 (by omega))
    refine hbad (rowFine_sound hall ?_ h hj hlt)
    have : j ≤ 115 := by omega
    nlinarith
  · refine ⟨279330, 715827999 - 54, ?_, ?_⟩
    · unfold OnCircle offset; decide
    · unfold PixFine offset; decide

/-- **C142**: up to the radius 715827998 nothing matters but the place of the circle. -/
theorem drawCircle_domain_small (c : Canvas) (g : Geom) (fb : FB) (h : Ready c g fb) (p : Pt) (hp : IntPt p) (r : Int)
    (hr : 1 ≤ r ∧ r < 715827999) (filled : Bool) :
    DrawsUnless c g fb (c.drawCircle g fb p r filled)
      (CircleOverflow filled (phys c.rotate g.getWidth g.getHeight p) r)
      (fun q => if filled then InDisc r |q.x - p.x| |q.y - p.y| else OnCircle r |q.x - p.x| |q.y - p.y|) := by
  have d := drawCircle_domain c g fb h p hp r hr.1 filled
  rwa [or_iff_left (errOverflow_first.1 r hr.1 hr.2)] at d

/-- **C142**: from the radius 715829428 on nothing matters at all. -/
theorem drawCircle_never (c : Canvas) (g : Geom) (fb : FB) (h : Ready c g fb) (p : Pt) (hp : IntPt p) (r : Int)
    (hr : 715829428 ≤ r) (filled : Bool) : c.drawCircle g fb p r filled = .ub :=
  (drawCircle_domain c g fb h p hp r (by omega) filled).1 (.inr (errOverflow_big hr))

/-! ## Concrete cases -/

/-- A circle which touches the right border of the plane is fine, a disc there is undefined; a disc one pixel left of it is
fine. -/
example (c : Canvas) (g : Geom) (fb : FB) (h : Ready c g fb) (hr : c.rotate = .r0) :
    (∃ fb', c.drawCircle g fb ⟨2147483640, 0⟩ 7 false = .ok fb') ∧ c.drawCircle g fb ⟨2147483640, 0⟩ 7 true = .ub ∧
    (∃ fb', c.drawCircle g fb ⟨2147483640, 0⟩ 6 true = .ok fb') ∧ c.drawCircle g fb ⟨0, 0⟩ (-536870911) false = .ub := by
  have hI : ∀ x y : Int, (-2147483648 ≤ x ∧ x ≤ 2147483647) ∧ -2147483648 ≤ y ∧ y ≤ 2147483647 → IntPt ⟨x, y⟩ :=
    fun _ _ h => h
  have d := fun r hr' => drawCircle_domain c g fb h ⟨2147483640, 0⟩ (hI _ _ (by decide)) r hr'
  rw [hr] at d
  have d1 := (d 7 (by decide) false).2 (by
    refine not_or.2 ⟨?_, errOverflow_small (by decide) (by decide)⟩
    change ¬ CircleOverflow false ⟨2147483640, 0⟩ 7
    unfold CircleOverflow IntPt InInt; decide)
  have d3 := (d 6 (by decide) true).2 (by
    refine not_or.2 ⟨?_, errOverflow_small (by decide) (by decide)⟩
    change ¬ CircleOverflow true ⟨2147483640, 0⟩ 6
    unfold CircleOverflow IntPt InInt; decide)
  refine ⟨d1.imp fun _ k => k.1, (d 7 (by decide) true).1 ?_, d3.imp fun _ k => k.1,
    (drawCircle_domain_nonpos c g fb h ⟨0, 0⟩ (hI _ _ (by decide)) (-536870911) ⟨by decide, by decide⟩ false).1 ?_⟩
  · exact .inl (.inr (.inr (.inr ⟨rfl, rfl⟩)))
  · exact .inr (.inr (.inr (.inl (by decide))))

end Verif.Canvas
