import Verif.Canvas.Circle
/-!
# C102: circles are closed curves

An outline has no gaps, and it is tight: a flood fill starting at the centre stays inside and fills exactly what a filled
circle adds to the outline.
-/
namespace Verif.Canvas
open Verif.FrameBuffer

/-- Pixels touching in a side or a corner (or equal). -/
def Touch (p q : Pt) : Prop := |p.x - q.x| ≤ 1 ∧ |p.y - q.y| ≤ 1

/-- Pixels touching in a side. -/
def Side (p q : Pt) : Prop := |p.x - q.x| + |p.y - q.y| = 1

/-- There is a path from `p` to `q` in the set `S`, each pixel being related to the one before. -/
inductive Path (R : Pt → Pt → Prop) (S : Pt → Prop) : Pt → Pt → Prop
  | refl {p} : S p → Path R S p p
  | step {p q t} : Path R S p q → R q t → S t → Path R S p t

variable {R : Pt → Pt → Prop} {S : Pt → Prop}

theorem Path.left {p q : Pt} (h : Path R S p q) : S p := by
  induction h with
  | refl h => exact h
  | step _ _ _ ih => exact ih

theorem Path.right {p q : Pt} (h : Path R S p q) : S q := by
  cases h with
  | refl h => exact h
  | step _ _ h => exact h

theorem Path.trans {p q t : Pt} (h : Path R S p q) (h' : Path R S q t) : Path R S p t := by
  induction h' with
  | refl _ => exact h
  | step _ hr hs ih => exact .step ih hr hs

theorem Path.symm (hR : ∀ a b, R a b → R b a) {p q : Pt} (h : Path R S p q) : Path R S q p := by
  induction h with
  | refl h => exact .refl h
  | step hp hr hs ih => exact Path.trans (.step (.refl hs) (hR _ _ hr) hp.right) ih

theorem touch_symm (a b : Pt) (h : Touch a b) : Touch b a := by
  unfold Touch at *
  rw [abs_sub_comm b.x, abs_sub_comm b.y]; exact h

theorem side_symm (a b : Pt) (h : Side a b) : Side b a := by
  unfold Side at *
  rw [abs_sub_comm b.x, abs_sub_comm b.y]; exact h

/-- From every pixel of a quadrant but the last there is a touching one further on. -/
theorem circle_step {r X Y : Int} (h : OnCircle r X Y) (hX : 1 ≤ X) :
    ∃ X' Y', OnCircle r X' Y' ∧ (X' = X ∨ X' = X - 1) ∧ (Y' = Y ∨ Y' = Y + 1) ∧ mu X' Y' < mu X Y := by
  obtain ⟨h1, h2, h3, h4, h5⟩ := h
  have eA : offset r X (Y + 1) = offset r X Y + 2 * Y + 1 := by unfold offset; ring
  have eB : offset r (X - 1) (Y + 1) = offset r X Y + 2 * Y - 2 * X + 2 := by unfold offset; ring
  have eC : offset r (X - 1) Y = offset r X Y - 2 * X + 1 := by unfold offset; ring
  by_cases ka : Y + 1 < X ∧ offset r X Y ≤ X - 2 * Y - 2
  · refine ⟨X, Y + 1, ⟨h1, by omega, ?_, ?_, ?_⟩, .inl rfl, .inr rfl, by unfold mu; omega⟩ <;> rw [eA] <;> omega
  · by_cases kc : X < Y ∧ offset r X Y > 2 * X - Y - 2
    · refine ⟨X - 1, Y, ⟨by omega, by omega, ?_, ?_, ?_⟩, .inr rfl, .inl rfl, by unfold mu; omega⟩ <;> rw [eC] <;> omega
    · refine ⟨X - 1, Y + 1, ⟨by omega, by omega, ?_, ?_, ?_⟩, .inr rfl, .inr rfl, by unfold mu; omega⟩ <;>
        rw [eB] <;> omega

/-- The circle of radius `r` around `c`, and its disc. -/
def circleAt (c : Pt) (r : Int) (q : Pt) : Prop := OnCircle r |q.x - c.x| |q.y - c.y|
def discAt (c : Pt) (r : Int) (q : Pt) : Prop := InDisc r |q.x - c.x| |q.y - c.y|

/-- Every pixel of a quadrant is connected with the last one; `u`, `v` are the signs of the quadrant. -/
theorem path_to_pole (c : Pt) (r : Int) (hr : 1 ≤ r) (u v : Int) (hu : u = 1 ∨ u = -1) (hv : v = 1 ∨ v = -1) :
    ∀ (n : Nat) (X Y : Int), OnCircle r X Y → mu X Y ≤ n →
      Path Touch (circleAt c r) ⟨c.x + u * X, c.y + v * Y⟩ ⟨c.x, c.y + v * r⟩ := by
  have hmem : ∀ X Y, OnCircle r X Y → circleAt c r ⟨c.x + u * X, c.y + v * Y⟩ := by
    intro X Y h
    have h1 := h.1
    have h2 := h.2.1
    have e1 : |c.x + u * X - c.x| = X := by
      rcases hu with rfl | rfl
      · rw [show c.x + 1 * X - c.x = X by ring, abs_of_nonneg h1]
      · rw [show c.x + -1 * X - c.x = -X by ring, abs_neg, abs_of_nonneg h1]
    have e2 : |c.y + v * Y - c.y| = Y := by
      rcases hv with rfl | rfl
      · rw [show c.y + 1 * Y - c.y = Y by ring, abs_of_nonneg h2]
      · rw [show c.y + -1 * Y - c.y = -Y by ring, abs_neg, abs_of_nonneg h2]
    unfold circleAt
    simp only [e1, e2]; exact h
  intro n
  induction n with
  | zero =>
    intro X Y h hn
    have h1 := h.1
    have : X = 0 := by unfold mu at hn; omega
    subst this
    have hY : Y = r := col_unique (circle_near r hr).2.1 (by omega) h
    subst hY
    have := hmem 0 Y h
    rw [show c.x + u * 0 = c.x by ring] at this ⊢
    exact .refl this
  | succ n ih =>
    intro X Y h hn
    by_cases hX : X = 0
    · subst hX
      have hY : Y = r := col_unique (circle_near r hr).2.1 (by omega) h
      subst hY
      have := hmem 0 Y h
      rw [show c.x + u * 0 = c.x by ring] at this ⊢
      exact .refl this
    · have h1 := h.1
      obtain ⟨X', Y', g1, g2, g3, g4⟩ := circle_step h (by omega)
      refine Path.trans (.step (.refl (hmem X Y h)) ?_ (hmem X' Y' g1)) (ih X' Y' g1 (by omega))
      unfold Touch
      simp only
      rcases hu with rfl | rfl <;> rcases hv with rfl | rfl <;> rw [abs_le, abs_le] <;> omega

/-- **C102**: an outline has no gaps: any two of its pixels are connected by pixels of the outline, each touching the one
before. -/
theorem circle_connected (c : Pt) (r : Int) (hr : 1 ≤ r) (p q : Pt) (hp : circleAt c r p) (hq : circleAt c r q) :
    Path Touch (circleAt c r) p q := by
  have sgn : ∀ a b : Int, ∃ u, (u = 1 ∨ u = -1) ∧ a = b + u * |a - b| := by
    intro a b
    rcases abs_cases (a - b) with ⟨e, _⟩ | ⟨e, _⟩
    · exact ⟨1, .inl rfl, by rw [e]; ring⟩
    · exact ⟨-1, .inr rfl, by rw [e]; ring⟩
  -- the two poles are connected through the eastern point
  have poles : ∀ v, (v = 1 ∨ v = -1) → Path Touch (circleAt c r) ⟨c.x, c.y + v * r⟩ ⟨c.x, c.y + 1 * r⟩ := by
    intro v hv
    have a := path_to_pole c r hr 1 v (.inl rfl) hv (mu r 0).toNat r 0 (circle_near r hr).1 (Int.self_le_toNat _)
    have b := path_to_pole c r hr 1 1 (.inl rfl) (.inl rfl) (mu r 0).toNat r 0 (circle_near r hr).1 (Int.self_le_toNat _)
    rw [show c.y + v * 0 = c.y by ring] at a
    rw [show c.y + 1 * 0 = c.y by ring] at b
    exact (a.symm touch_symm).trans b
  have toNorth : ∀ p, circleAt c r p → Path Touch (circleAt c r) p ⟨c.x, c.y + 1 * r⟩ := by
    intro p hp
    obtain ⟨u, hu, eu⟩ := sgn p.x c.x
    obtain ⟨v, hv, ev⟩ := sgn p.y c.y
    have a := path_to_pole c r hr u v hu hv _ _ _ hp (Int.self_le_toNat _)
    rw [← eu, ← ev] at a
    exact Path.trans a (poles v hv)
  exact (toNorth p hp).trans ((toNorth q hq).symm touch_symm)

/-- A step in a direction changes one of the distances by one. -/
private theorem side_cases {a b : Pt} (h : Side a b) (c : Pt) :
    (|b.x - c.x| = |a.x - c.x| ∧ (|b.y - c.y| ≤ |a.y - c.y| + 1)) ∨
    (|b.y - c.y| = |a.y - c.y| ∧ (|b.x - c.x| ≤ |a.x - c.x| + 1)) := by
  unfold Side at h
  rcases abs_cases (a.x - b.x) with ⟨e1, _⟩ | ⟨e1, _⟩ <;> rcases abs_cases (a.y - b.y) with ⟨e2, _⟩ | ⟨e2, _⟩ <;>
    rcases abs_cases (a.x - c.x) with ⟨e3, _⟩ | ⟨e3, _⟩ <;> rcases abs_cases (b.x - c.x) with ⟨e4, _⟩ | ⟨e4, _⟩ <;>
    rcases abs_cases (a.y - c.y) with ⟨e5, _⟩ | ⟨e5, _⟩ <;> rcases abs_cases (b.y - c.y) with ⟨e6, _⟩ | ⟨e6, _⟩ <;>
    omega

/-- The interior: in the disc and not on the outline. -/
theorem interior_iff {r X Y : Int} (hX : 0 ≤ X) (hY : 0 ≤ Y) :
    (InDisc r X Y ∧ ¬ OnCircle r X Y) ↔ offset r X Y < -max X Y := by
  constructor
  · rintro ⟨⟨h1, h2⟩, h3⟩
    by_contra hc
    refine h3 ⟨hX, hY, by omega, h1, ?_⟩
    rintro ⟨rfl, h⟩
    by_cases hx : 1 ≤ X
    · exact h2 ⟨hx, rfl, h⟩
    · have : X = 0 := by omega
      subst this
      omega
  · intro h
    exact ⟨⟨by omega, by omega⟩, fun hc => by have := hc.2.2.1; omega⟩

private theorem offset_mono {r X X' Y : Int} (h0 : 0 ≤ X') (h : X' ≤ X) : offset r X' Y ≤ offset r X Y := by
  unfold offset
  have : X' * X' ≤ X * X := by nlinarith
  omega

/-- One step from the interior leads into the disc. -/
theorem interior_step {r X Y X' : Int} (hX' : 0 ≤ X') (hY : 0 ≤ Y) (h : offset r X Y < -max X Y)
    (hs : X' ≤ X + 1) : InDisc r X' Y := by
  have h1 : offset r X' Y ≤ offset r (X + 1) Y := offset_mono hX' hs
  have h2 : offset r (X + 1) Y = offset r X Y + 2 * X + 1 := by unfold offset; ring
  by_cases hc : X' = X + 1
  · subst hc
    exact ⟨by omega, by omega⟩
  · have h3 : offset r X' Y ≤ offset r X Y := offset_mono hX' (by omega)
    exact ⟨by omega, by omega⟩

private theorem inDisc_swap {r X Y : Int} : InDisc r X Y ↔ InDisc r Y X := by
  unfold InDisc
  rw [offset_swap r X Y]
  omega

/-- **C102**: an outline is tight: a path of side-to-side steps from the centre which never steps on the outline stays
inside the disc - and reaches every pixel inside. -/
theorem circle_tight (c : Pt) (r : Int) (hr : 1 ≤ r) (q : Pt) :
    Path Side (fun t => ¬ circleAt c r t) c q ↔ (discAt c r q ∧ ¬ circleAt c r q) := by
  have hin : ∀ t : Pt, (discAt c r t ∧ ¬ circleAt c r t) ↔
      offset r |t.x - c.x| |t.y - c.y| < -max |t.x - c.x| |t.y - c.y| :=
    fun t => interior_iff (abs_nonneg _) (abs_nonneg _)
  constructor
  · intro h
    induction h with
    | refl h =>
      refine ⟨?_, h⟩
      unfold discAt
      simp only [sub_self, abs_zero]
      unfold InDisc offset
      have : 1 ≤ r * r := by nlinarith
      exact ⟨by omega, by omega⟩
    | @step p t _ hr' hs ih =>
      refine ⟨?_, hs⟩
      have ih' := (hin p).1 ih
      unfold discAt
      rcases side_cases hr' c with ⟨e, hle⟩ | ⟨e, hle⟩
      · rw [e, inDisc_swap]
        refine interior_step (abs_nonneg _) (abs_nonneg _) ?_ hle
        rw [offset_swap, max_comm]; exact ih'
      · rw [e]
        exact interior_step (abs_nonneg _) (abs_nonneg _) ih' hle
  · intro h
    -- walk home, first along the row, then along the column
    have walk : ∀ (n : Nat) (t : Pt), |t.x - c.x| + |t.y - c.y| = n →
        offset r |t.x - c.x| |t.y - c.y| < -max |t.x - c.x| |t.y - c.y| →
        Path Side (fun t => ¬ circleAt c r t) c t := by
      intro n
      induction n with
      | zero =>
        intro t ht hi
        have h1 := abs_nonneg (t.x - c.x)
        have h2 := abs_nonneg (t.y - c.y)
        have : t = c := by
          obtain ⟨tx, ty⟩ := t
          obtain ⟨cx, cy⟩ := c
          simp only at *
          have e1 := abs_eq_zero.1 (show |tx - cx| = 0 by omega)
          have e2 := abs_eq_zero.1 (show |ty - cy| = 0 by omega)
          rw [Pt.mk.injEq]; omega
        subst this
        exact .refl ((hin t).2 hi).2
      | succ n ih =>
        intro t ht hi
        have key : ∃ s : Pt, Side s t ∧ |s.x - c.x| + |s.y - c.y| = n ∧
            |s.x - c.x| ≤ |t.x - c.x| ∧ |s.y - c.y| ≤ |t.y - c.y| := by
          have h1 := abs_nonneg (t.x - c.x)
          have h2 := abs_nonneg (t.y - c.y)
          by_cases hx : t.x = c.x
          · by_cases hy : c.y < t.y
            · refine ⟨⟨t.x, t.y - 1⟩, ?_, ?_, le_refl _, ?_⟩ <;> simp only [Side]
              · simp
              · rw [abs_of_nonneg (show 0 ≤ t.y - 1 - c.y by omega)]
                rw [abs_of_nonneg (show 0 ≤ t.y - c.y by omega)] at ht
                omega
              · rw [abs_of_nonneg (show 0 ≤ t.y - 1 - c.y by omega), abs_of_nonneg (show 0 ≤ t.y - c.y by omega)]
                omega
            · have e1 : |t.x - c.x| = 0 := by rw [hx]; simp
              have e2 : |t.y - c.y| = -(t.y - c.y) := abs_of_nonpos (by omega)
              have e3 : |t.y + 1 - c.y| = -(t.y + 1 - c.y) := abs_of_nonpos (by omega)
              refine ⟨⟨t.x, t.y + 1⟩, ?_, ?_, le_refl _, ?_⟩ <;> simp only [Side]
              · simp
              · rw [e3]; omega
              · rw [e3, e2]; omega
          · by_cases hy : c.x < t.x
            · have e2 : |t.x - c.x| = t.x - c.x := abs_of_nonneg (by omega)
              have e3 : |t.x - 1 - c.x| = t.x - 1 - c.x := abs_of_nonneg (by omega)
              refine ⟨⟨t.x - 1, t.y⟩, ?_, ?_, ?_, le_refl _⟩ <;> simp only [Side]
              · simp
              · rw [e3]; omega
              · rw [e3, e2]; omega
            · have e2 : |t.x - c.x| = -(t.x - c.x) := abs_of_nonpos (by omega)
              have e3 : |t.x + 1 - c.x| = -(t.x + 1 - c.x) := abs_of_nonpos (by omega)
              refine ⟨⟨t.x + 1, t.y⟩, ?_, ?_, ?_, le_refl _⟩ <;> simp only [Side]
              · simp
              · rw [e3]; omega
              · rw [e3, e2]; omega
        obtain ⟨s, k1, k2, k3, k4⟩ := key
        refine .step (ih s k2 ?_) k1 ((hin t).2 hi).2
        have m1 : offset r |s.x - c.x| |s.y - c.y| ≤ offset r |t.x - c.x| |s.y - c.y| :=
          offset_mono (abs_nonneg _) k3
        have m2 : offset r |t.x - c.x| |s.y - c.y| ≤ offset r |t.x - c.x| |t.y - c.y| := by
          rw [offset_swap r |t.x - c.x| |s.y - c.y|, offset_swap r |t.x - c.x| |t.y - c.y|]
          exact offset_mono (abs_nonneg _) k4
        omega
    obtain ⟨n, hn⟩ : ∃ n : Nat, |q.x - c.x| + |q.y - c.y| = n :=
      ⟨(|q.x - c.x| + |q.y - c.y|).toNat, by
        have := abs_nonneg (q.x - c.x)
        have := abs_nonneg (q.y - c.y)
        omega⟩
    exact walk n q hn ((hin q).1 h)

/-- **C102**, of the calls: `drawCircle` paints (the on-screen part of) a set without gaps, and with `filled` that set and
everything a flood fill from the centre would reach. -/
theorem drawCircle_closed (c : Canvas) (g : Geom) (fb : FB) (h : Ready c g fb) (p : Pt) (hp : SmallPt p)
    (r : Int) (hr : 1 ≤ r ∧ r ≤ 268435456) :
    ∃ S fb1 fb2, c.drawCircle g fb p r false = .ok fb1 ∧ Paints c g fb fb1 S ∧
      (∀ a b, S a → S b → Path Touch S a b) ∧
      c.drawCircle g fb p r true = .ok fb2 ∧
      Paints c g fb fb2 (fun q => S q ∨ Path Side (fun t => ¬ S t) p q) := by
  obtain ⟨fb1, a1, a2⟩ := drawCircle_exact c g fb h p hp r hr
  obtain ⟨fb2, b1, b2⟩ := drawFilledCircle_exact c g fb h p hp r hr
  refine ⟨circleAt p r, fb1, fb2, a1, a2, fun a b ha hb => circle_connected p r hr.1 a b ha hb, b1, ?_⟩
  have e : (fun q : Pt => InDisc r |q.x - p.x| |q.y - p.y|) =
      (fun q => circleAt p r q ∨ Path Side (fun t => ¬ circleAt p r t) p q) := by
    funext q
    rw [circle_tight p r hr.1 q]
    apply propext
    by_cases hc : circleAt p r q
    · refine ⟨fun _ => .inl hc, fun _ => ?_⟩
      obtain ⟨k1, k2, k3, k4, k5⟩ := hc
      exact ⟨k4, fun h => k5 h.2⟩
    · exact ⟨fun h => .inr ⟨h, hc⟩, fun h => by rcases h with h | h <;> [exact absurd h hc; exact h.1]⟩
  rw [e] at b2
  exact b2

/-- Non-vacuity: the circle of radius 2 has pixels in all directions, and an inside. -/
example : circleAt ⟨0, 0⟩ 2 ⟨-2, 1⟩ ∧ circleAt ⟨0, 0⟩ 2 ⟨1, -2⟩ ∧ ¬ circleAt ⟨0, 0⟩ 2 ⟨1, 1⟩ ∧
    Path Side (fun t => ¬ circleAt ⟨0, 0⟩ 2 t) ⟨0, 0⟩ ⟨1, 1⟩ ∧
    ¬ Path Side (fun t => ¬ circleAt ⟨0, 0⟩ 2 t) ⟨0, 0⟩ ⟨2, 2⟩ := by
  rw [circle_tight _ _ (by decide), circle_tight _ _ (by decide)]
  simp only [circleAt, discAt, OnCircle, InDisc, offset]
  decide

end Verif.Canvas
