import Verif.Canvas.Props
import Mathlib.Algebra.Order.Ring.Abs
import Mathlib.Tactic.Ring
import Mathlib.Tactic.Linarith
/-!
# C32, C33: lines
-/
set_option linter.dupNamespace false
namespace Verif.Canvas
open Verif.FrameBuffer

/-! ## Digital lines -/

theorem LineOver.symm {u v : Pt → Int} {a b : Pt} {S : Pt → Prop} (h : LineOver u v a b S) :
    LineOver u v b a S := by
  refine ⟨h.last, h.first, ?_, ?_, h.unique, ?_, h.connected⟩
  · intro p hp; have := h.range p hp; omega
  · intro t h1 h2; exact h.each t (by omega) (by omega)
  · intro p hp
    have e : (v p - v b) * (u a - u b) - (u p - u b) * (v a - v b) =
        -((v p - v a) * (u b - u a) - (u p - u a) * (v b - v a)) := by ring
    rw [e, abs_neg, abs_sub_comm (u a) (u b)]
    exact h.close p hp

/-- On a diagonal the two coordinates can be exchanged. -/
theorem LineOver.swap {u v : Pt → Int} {a b : Pt} {S : Pt → Prop} (h : LineOver u v a b S)
    (hd : |v b - v a| = |u b - u a|) : LineOver v u a b S := by
  have key : ∀ p, S p → (v b - v a = u b - u a ∧ v p - v a = u p - u a) ∨
      (v b - v a = -(u b - u a) ∧ v p - v a = -(u p - u a)) := by
    intro p hp
    have hc := h.close p hp
    have hr := h.range p hp
    by_cases h0 : u b - u a = 0
    · rw [h0, abs_zero] at hd
      have h1 : v b - v a = 0 := abs_eq_zero.1 hd
      have h2 := h.unique p a hp h.first (by omega)
      left; omega
    · have hL : 0 < |u b - u a| := abs_pos.2 h0
      rcases abs_eq_abs.1 hd with h1 | h1
      · left
        refine ⟨h1, ?_⟩
        rw [h1] at hc
        have e : (v p - v a) * (u b - u a) - (u p - u a) * (u b - u a) =
            ((v p - v a) - (u p - u a)) * (u b - u a) := by ring
        rw [e, abs_mul] at hc
        by_contra hne
        have h3 : 1 ≤ |v p - v a - (u p - u a)| := Int.one_le_abs (by omega)
        nlinarith
      · right
        refine ⟨h1, ?_⟩
        rw [h1] at hc
        have e : (v p - v a) * (u b - u a) - (u p - u a) * -(u b - u a) =
            ((v p - v a) + (u p - u a)) * (u b - u a) := by ring
        rw [e, abs_mul] at hc
        by_contra hne
        have h3 : 1 ≤ |v p - v a + (u p - u a)| := Int.one_le_abs (by omega)
        nlinarith
  refine ⟨h.first, h.last, ?_, ?_, ?_, ?_, ?_⟩
  · intro p hp
    have := h.range p hp
    rcases key p hp with ⟨h1, h2⟩ | ⟨h1, h2⟩ <;> omega
  · intro t h1 h2
    rcases key b h.last with ⟨h3, _⟩ | ⟨h3, _⟩
    · obtain ⟨p, hp, e⟩ := h.each (t - v a + u a) (by omega) (by omega)
      refine ⟨p, hp, ?_⟩
      rcases key p hp with ⟨h4, h5⟩ | ⟨h4, h5⟩
      · omega
      · have := h.range p hp; omega
    · obtain ⟨p, hp, e⟩ := h.each (u a - (t - v a)) (by omega) (by omega)
      refine ⟨p, hp, ?_⟩
      rcases key p hp with ⟨h4, h5⟩ | ⟨h4, h5⟩
      · have := h.range p hp; omega
      · omega
  · intro p q hp hq e
    have r1 := h.range p hp; have r2 := h.range q hq
    rcases key p hp with ⟨h1, h2⟩ | ⟨h1, h2⟩ <;> rcases key q hq with ⟨h3, h4⟩ | ⟨h3, h4⟩ <;> omega
  · intro p hp
    have e : (u p - u a) * (v b - v a) - (v p - v a) * (u b - u a) =
        -((v p - v a) * (u b - u a) - (u p - u a) * (v b - v a)) := by ring
    rw [e, abs_neg, hd]
    exact h.close p hp
  · intro p q hp hq e
    have r1 := h.range p hp; have r2 := h.range q hq
    rw [abs_le]
    rcases key p hp with ⟨h1, h2⟩ | ⟨h1, h2⟩ <;> rcases key q hq with ⟨h3, h4⟩ | ⟨h3, h4⟩ <;> omega

/-- Digital lines stay digital lines when coordinates are mirrored and shifted. -/
theorem LineOver.map {u v u' v' : Pt → Int} {f : Pt → Pt} {a b : Pt} {S : Pt → Prop}
    {e d c1 c2 : Int} (he : e = 1 ∨ e = -1) (hd : d = 1 ∨ d = -1)
    (hu : ∀ p, u (f p) = e * u' p + c1) (hv : ∀ p, v (f p) = d * v' p + c2)
    (hf : ∀ q, ∃ p, f p = q)
    (h : LineOver u v (f a) (f b) S) : LineOver u' v' a b (fun p => S (f p)) := by
  refine ⟨h.first, h.last, ?_, ?_, ?_, ?_, ?_⟩
  · intro p hp
    have := h.range _ hp
    rw [hu, hu, hu] at this
    rcases he with rfl | rfl <;> omega
  · intro t h1 h2
    obtain ⟨q, hq, hq'⟩ := h.each (e * t + c1) (by rw [hu, hu]; rcases he with rfl | rfl <;> omega)
      (by rw [hu, hu]; rcases he with rfl | rfl <;> omega)
    obtain ⟨p, rfl⟩ := hf q
    refine ⟨p, hq, ?_⟩
    rw [hu] at hq'
    rcases he with rfl | rfl <;> omega
  · intro p q hp hq hpq
    have := h.unique _ _ hp hq (by rw [hu, hu, hpq])
    rw [hv, hv] at this
    rcases hd with rfl | rfl <;> omega
  · intro p hp
    have := h.close _ hp
    rw [hv, hv, hv, hu, hu, hu] at this
    have e1 : (d * v' p + c2 - (d * v' a + c2)) * (e * u' b + c1 - (e * u' a + c1)) -
        (e * u' p + c1 - (e * u' a + c1)) * (d * v' b + c2 - (d * v' a + c2)) =
        (d * e) * ((v' p - v' a) * (u' b - u' a) - (u' p - u' a) * (v' b - v' a)) := by ring
    have e2 : e * u' b + c1 - (e * u' a + c1) = e * (u' b - u' a) := by ring
    have e3 : |d * e| = 1 := by rcases hd with rfl | rfl <;> rcases he with rfl | rfl <;> decide
    have e4 : |e| = 1 := by rcases he with rfl | rfl <;> decide
    rw [e1, e2, abs_mul (d * e), abs_mul e, e3, e4, one_mul, one_mul] at this
    exact this
  · intro p q hp hq hpq
    rcases he with rfl | rfl
    · have := h.connected _ _ hp hq (by rw [hu, hu, hpq]; ring)
      rw [hv, hv, abs_le] at this
      rw [abs_le]
      rcases hd with rfl | rfl <;> omega
    · have := h.connected _ _ hq hp (by rw [hu, hu, hpq]; ring)
      rw [hv, hv, abs_le] at this
      rw [abs_le]
      rcases hd with rfl | rfl <;> omega

theorem lineLike_phys (r : Rotation) (W H : Int) {a b : Pt} {S : Pt → Prop}
    (h : LineLike (phys r W H a) (phys r W H b) S) : LineLike a b (fun p => S (phys r W H p)) := by
  have hf : ∀ q, ∃ p, phys r W H p = q := fun q => ⟨_, phys_unphys r W H q⟩
  obtain ⟨h1, h2⟩ := h
  have e1 : ∀ s t : Int, W - 1 - s - (W - 1 - t) = -(s - t) := by intro s t; ring
  have e2 : ∀ s t : Int, H - 1 - s - (H - 1 - t) = -(s - t) := by intro s t; ring
  cases r
  · exact ⟨h1, h2⟩
  · simp only [phys, e1, abs_neg] at h1 h2
    exact ⟨fun h => LineOver.map (e := 1) (d := -1) (c1 := 0) (c2 := W - 1) (.inl rfl) (.inr rfl)
        (fun p => by simp only [phys]; ring) (fun p => by simp only [phys]; ring) hf (h2 h),
      fun h => LineOver.map (e := -1) (d := 1) (c1 := W - 1) (c2 := 0) (.inr rfl) (.inl rfl)
        (fun p => by simp only [phys]; ring) (fun p => by simp only [phys]; ring) hf (h1 h)⟩
  · simp only [phys, e1, e2, abs_neg] at h1 h2
    exact ⟨fun h => LineOver.map (e := -1) (d := -1) (c1 := W - 1) (c2 := H - 1) (.inr rfl) (.inr rfl)
        (fun p => by simp only [phys]; ring) (fun p => by simp only [phys]; ring) hf (h1 h),
      fun h => LineOver.map (e := -1) (d := -1) (c1 := H - 1) (c2 := W - 1) (.inr rfl) (.inr rfl)
        (fun p => by simp only [phys]; ring) (fun p => by simp only [phys]; ring) hf (h2 h)⟩
  · simp only [phys, e2, abs_neg] at h1 h2
    exact ⟨fun h => LineOver.map (e := -1) (d := 1) (c1 := H - 1) (c2 := 0) (.inr rfl) (.inl rfl)
        (fun p => by simp only [phys]; ring) (fun p => by simp only [phys]; ring) hf (h2 h),
      fun h => LineOver.map (e := 1) (d := -1) (c1 := 0) (c2 := H - 1) (.inl rfl) (.inr rfl)
        (fun p => by simp only [phys]; ring) (fun p => by simp only [phys]; ring) hf (h1 h)⟩

/-! ## The loop -/

theorem ptOf_inj {m : Bool} {a b c d : Int} : ptOf m a b = ptOf m c d ↔ a = c ∧ b = d := by
  cases m
  · show (⟨a, b⟩ : Pt) = ⟨c, d⟩ ↔ _
    rw [Pt.mk.injEq]
  · show (⟨b, a⟩ : Pt) = ⟨d, c⟩ ↔ _
    rw [Pt.mk.injEq]; exact And.comm

/-- The points drawn by the loop. -/
theorem bresLoop_ok (mv : Bool) (S L sg : Int) (hS : 0 ≤ S) (hSL : S ≤ L) (hL : 0 < L)
    (hL' : L ≤ 1073741824) (hsg : sg = 1 ∨ sg = -1) (n : Nat) (l s e : Int)
    (he : 0 ≤ e ∧ e < L) (hl : -2147483648 ≤ l ∧ l + n ≤ 2147483647)
    (hs : -2147483648 ≤ s - n ∧ s + n ≤ 2147483647) :
    ∃ ps, bresLoop mv S L sg l s e n = .ok ps ∧
      ∀ q, q ∈ ps ↔ ∃ j m : Int, (0 ≤ j ∧ j < n) ∧ 0 ≤ m ∧ q = ptOf mv (l + j) (s + sg * m) ∧
        0 ≤ e - j * S + m * L ∧ e - j * S + m * L < L := by
  induction n generalizing l s e with
  | zero =>
    refine ⟨[], rfl, ?_⟩
    intro q
    simp only [List.not_mem_nil, false_iff]
    rintro ⟨j, m, h, _⟩
    simp only [Int.natCast_zero] at h
    omega
  | succ n ih =>
    push_cast at hl hs
    have hhead : ∀ q, (q = ptOf mv l s ↔ ∃ m : Int, 0 ≤ m ∧ q = ptOf mv (l + 0) (s + sg * m) ∧
        0 ≤ e - 0 * S + m * L ∧ e - 0 * S + m * L < L) := by
      intro q
      constructor
      · intro hq
        exact ⟨0, Int.le_refl 0, by rw [hq]; congr 1 <;> ring, by linarith, by linarith⟩
      · rintro ⟨m, h1, h2, h3, h4⟩
        have : m = 0 := by
          by_contra hne
          have : 1 ≤ m := by omega
          nlinarith
        subst this
        rw [h2]; congr 1 <;> ring
    -- the tail, from the state after the step
    have hstep : ∃ s' e' d : Int, (0 ≤ e' ∧ e' < L) ∧ (d = 0 ∨ d = 1) ∧ s' = s + sg * d ∧ e' = e - S + d * L ∧
        bresLoop mv S L sg l s e (n + 1) = (do
          let ps ← bresLoop mv S L sg (l + 1) s' e' n
          .ok (ptOf mv l s :: ps)) ∧ (d = 1 → e - S < 0) := by
      by_cases hc : e - S < 0
      · refine ⟨s + sg, e - S + L, 1, by omega, .inr rfl, by ring, by ring, ?_, fun _ => hc⟩
        simp only [bresLoop]
        rw [chk_ok (v := e - S) (by constructor <;> omega)]; simp only [Res.bind_ok]
        rw [if_pos hc, chk_ok (v := s + sg) (by constructor <;> omega)]; simp only [Res.bind_ok]
        rw [chk_ok (v := e - S + L) (by constructor <;> omega)]; simp only [Res.bind_ok]
        rw [chk_ok (v := l + 1) (by constructor <;> omega)]; simp only [Res.bind_ok]
      · refine ⟨s, e - S, 0, by omega, .inl rfl, by ring, by ring, ?_, fun h => by omega⟩
        simp only [bresLoop]
        rw [chk_ok (v := e - S) (by constructor <;> omega)]; simp only [Res.bind_ok]
        rw [if_neg hc]; simp only [Res.bind_ok]
        rw [chk_ok (v := l + 1) (by constructor <;> omega)]; simp only [Res.bind_ok]
    obtain ⟨s', e', d, h1, h2, h3, h4, h5, h6⟩ := hstep
    have hs' : -2147483648 ≤ s' - n ∧ s' + n ≤ 2147483647 := by
      rcases h2 with rfl | rfl <;> rcases hsg with rfl | rfl <;> omega
    obtain ⟨ps, h7, h8⟩ := ih (l + 1) s' e' h1 (by omega) hs'
    refine ⟨ptOf mv l s :: ps, by rw [h5, h7]; rfl, ?_⟩
    intro q
    rw [List.mem_cons, h8, hhead]
    have hdn : 0 ≤ d := by omega
    constructor
    · rintro (⟨m, k1, k2, k3, k4⟩ | ⟨j, m, k0, k1, k2, k3, k4⟩)
      · exact ⟨0, m, by constructor <;> omega, k1, k2, k3, k4⟩
      · refine ⟨j + 1, m + d, by push_cast; omega, by omega, ?_, ?_, ?_⟩
        · rw [k2, h3]; congr 1 <;> ring
        · rw [h4] at k3; linarith [k3]
        · rw [h4] at k4; linarith [k4]
    · rintro ⟨j, m, k0, k1, k2, k3, k4⟩
      by_cases hj : j = 0
      · subst hj; exact .inl ⟨m, k1, k2, k3, k4⟩
      · right
        have hd0 : 0 ≤ m - d := by
          rcases h2 with hd | hd
          · omega
          · have := h6 hd
            by_contra hne
            have hm0 : m = 0 := by omega
            subst hm0
            have hj1 : 1 ≤ j := by omega
            nlinarith
        refine ⟨j - 1, m - d, by push_cast at k0; omega, hd0, ?_, ?_, ?_⟩
        · rw [k2, h3]; congr 1 <;> ring
        · rw [h4]; linarith
        · rw [h4]; linarith

/-- The points of the loop form a digital line. -/
theorem bres_line (u v : Pt → Int) (f : Int → Int → Pt) (hfu : ∀ x y, u (f x y) = x)
    (hfv : ∀ x y, v (f x y) = y) (hfe : ∀ p, f (u p) (v p) = p) (a b : Pt) (L S sg : Int) (T : Pt → Prop)
    (hS : 0 ≤ S) (hSL : S ≤ L) (hL : 0 < L) (hsg : sg = 1 ∨ sg = -1)
    (hub : u b = u a + L) (hvb : v b = v a + sg * S)
    (hT : ∀ q, T q ↔ ∃ j m : Int, (0 ≤ j ∧ j < L + 1) ∧ 0 ≤ m ∧ q = f (u a + j) (v a + sg * m) ∧
        0 ≤ L / 2 - j * S + m * L ∧ L / 2 - j * S + m * L < L) :
    LineOver u v a b T := by
  have hsg2 : sg * sg = 1 := by rcases hsg with rfl | rfl <;> decide
  refine ⟨?_, ?_, ?_, ?_, ?_, ?_, ?_⟩
  · rw [hT]
    refine ⟨0, 0, by omega, Int.le_refl 0, ?_, by omega, by omega⟩
    rw [← hfe a]; rw [hfu, hfv]; congr 1 <;> ring
  · rw [hT]
    refine ⟨L, S, by omega, hS, ?_, ?_, ?_⟩
    · rw [← hub, ← hvb, hfe]
    · have : L / 2 - L * S + S * L = L / 2 := by ring
      rw [this]; omega
    · have : L / 2 - L * S + S * L = L / 2 := by ring
      rw [this]; omega
  · intro p hp
    obtain ⟨j, m, h1, h2, h3, _⟩ := (hT p).1 hp
    rw [h3, hfu]
    omega
  · intro t h1 h2
    have ht : 0 ≤ t - u a ∧ t - u a < L + 1 := by omega
    have hd := Int.emod_nonneg (L / 2 - (t - u a) * S) (show L ≠ 0 by omega)
    have hd' := Int.emod_lt_of_pos (L / 2 - (t - u a) * S) hL
    have hd2 := Int.emod_add_mul_ediv (L / 2 - (t - u a) * S) L
    refine ⟨f (u a + (t - u a)) (v a + sg * (-((L / 2 - (t - u a) * S) / L))), ?_, by rw [hfu]; omega⟩
    rw [hT]
    refine ⟨t - u a, -((L / 2 - (t - u a) * S) / L), ht, ?_, rfl, ?_, ?_⟩
    · have : (L / 2 - (t - u a) * S) / L ≤ 0 := by
        by_contra hne
        have h3 : 1 ≤ (L / 2 - (t - u a) * S) / L := by omega
        have h4 : 0 ≤ (t - u a) * S := mul_nonneg ht.1 hS
        have h5 : L / 2 < L := by omega
        nlinarith
      omega
    · linarith
    · linarith
  · intro p q hp hq e
    obtain ⟨j, m, h1, h2, h3, h4, h5⟩ := (hT p).1 hp
    obtain ⟨j', m', k1, k2, k3, k4, k5⟩ := (hT q).1 hq
    rw [h3, k3, hfu, hfu] at e
    have hj : j = j' := by omega
    subst hj
    have hm : m = m' := by
      rcases lt_trichotomy m m' with hlt | heq | hgt
      · have : 1 ≤ m' - m := by omega
        nlinarith
      · exact heq
      · have : 1 ≤ m - m' := by omega
        nlinarith
    rw [h3, k3, hfv, hfv, hm]
  · intro p hp
    obtain ⟨j, m, h1, h2, h3, h4, h5⟩ := (hT p).1 hp
    rw [h3, hfu, hfv, hub, hvb]
    have e1 : (v a + sg * m - v a) * (u a + L - u a) - (u a + j - u a) * (v a + sg * S - v a) =
        sg * (m * L - j * S) := by ring
    have e2 : |sg| = 1 := by rcases hsg with rfl | rfl <;> decide
    have e3 : u a + L - u a = L := by ring
    rw [e1, e3, abs_mul, e2, one_mul, abs_of_pos hL]
    generalize m * L = A at *
    generalize j * S = B at *
    rcases abs_cases (A - B) with ⟨h, _⟩ | ⟨h, _⟩ <;> rw [h] <;> omega
  · intro p q hp hq e
    obtain ⟨j, m, h1, h2, h3, h4, h5⟩ := (hT p).1 hp
    obtain ⟨j', m', k1, k2, k3, k4, k5⟩ := (hT q).1 hq
    rw [h3, k3, hfu, hfu] at e
    have hj : j' = j + 1 := by omega
    subst hj
    have d0 : 0 ≤ m' - m := by
      by_contra hne
      have : m' - m ≤ -1 := by omega
      nlinarith
    have d1 : m' - m ≤ 1 := by
      by_contra hne
      have : 2 ≤ m' - m := by omega
      nlinarith
    rw [h3, k3, hfv, hfv, abs_le]
    rcases hsg with rfl | rfl <;> omega

/-! ## The line -/

theorem iabs_ok {v : Int} (h : -2147483647 ≤ v ∧ v ≤ 2147483647) : iabs v = .ok |v| := by
  unfold iabs
  rcases abs_cases v with ⟨h1, h2⟩ | ⟨h1, h2⟩
  · rw [if_neg (by omega), h1, chk_ok (by constructor <;> omega)]
  · rw [if_pos (by omega), h1, chk_ok (by constructor <;> omega)]

/-- A point of physical scale. -/
abbrev MidPt (p : Pt) : Prop := (-536870912 ≤ p.x ∧ p.x ≤ 536870912) ∧ -536870912 ≤ p.y ∧ p.y ≤ 536870912

/-- The part of `drawLine` after the transformations. -/
def physLine (start end_ : Pt) : Res (List Pt) := do
  let dx ← chk (end_.x - start.x)
  let diffX ← iabs dx
  let dy ← chk (end_.y - start.y)
  let diffY ← iabs dy
  if diffX = 0 then do
    let h ← chk (diffY + 1)
    vLine ⟨start.x, min start.y end_.y⟩ h
  else if diffY = 0 then do
    let w ← chk (diffX + 1)
    hLine ⟨min start.x end_.x, start.y⟩ w
  else do
    let moveY := decide (diffY > diffX)
    let shortDiff := if moveY then diffX else diffY
    let longDiff := if moveY then diffY else diffX
    let (s, e) := if longOf moveY start > longOf moveY end_ then (end_, start) else (start, end_)
    let err := longDiff.tdiv 2
    let sign : Int := if shortOf moveY s < shortOf moveY e then 1 else -1
    bresLoop moveY shortDiff longDiff sign (longOf moveY s) (shortOf moveY s) err
      (longOf moveY e - longOf moveY s + 1).toNat

theorem linePts_eq (c : Canvas) (a b : Pt) :
    c.linePts a b = (do let s ← c.transformPt a; let e ← c.transformPt b; physLine s e) := rfl

/-- The general branch, with the differences named. -/
def physSloped (mv : Bool) (S L : Int) (start end_ : Pt) : Res (List Pt) :=
  let (s, e) := if longOf mv start > longOf mv end_ then (end_, start) else (start, end_)
  let sign : Int := if shortOf mv s < shortOf mv e then 1 else -1
  bresLoop mv S L sign (longOf mv s) (shortOf mv s) (L.tdiv 2) (longOf mv e - longOf mv s + 1).toNat

theorem physLine_sloped {a b : Pt} (ha : MidPt a) (hb : MidPt b) (hx : a.x ≠ b.x) (hy : a.y ≠ b.y) :
    physLine a b = if |b.y - a.y| > |b.x - a.x| then physSloped true |b.x - a.x| |b.y - a.y| a b
      else physSloped false |b.y - a.y| |b.x - a.x| a b := by
  unfold physLine
  rw [chk_ok (v := b.x - a.x) (by constructor <;> omega)]; simp only [Res.bind_ok]
  rw [iabs_ok (v := b.x - a.x) (by omega)]; simp only [Res.bind_ok]
  rw [chk_ok (v := b.y - a.y) (by constructor <;> omega)]; simp only [Res.bind_ok]
  rw [iabs_ok (v := b.y - a.y) (by omega)]; simp only [Res.bind_ok]
  rw [if_neg (show ¬ |b.x - a.x| = 0 by rw [abs_eq_zero]; omega),
    if_neg (show ¬ |b.y - a.y| = 0 by rw [abs_eq_zero]; omega)]
  by_cases hc : |b.y - a.y| > |b.x - a.x|
  · rw [if_pos hc]; simp only [decide_eq_true hc]; rfl
  · rw [if_neg hc]; simp only [decide_eq_false hc]; rfl

theorem ptOf_self (mv : Bool) (p : Pt) : ptOf mv (longOf mv p) (shortOf mv p) = p := by
  cases mv <;> rfl

theorem physSloped_comm (mv : Bool) (S L : Int) (a b : Pt) (h : longOf mv a ≠ longOf mv b) :
    physSloped mv S L a b = physSloped mv S L b a := by
  unfold physSloped
  by_cases hc : longOf mv a > longOf mv b
  · rw [if_pos hc, if_neg (by omega)]
  · rw [if_neg hc, if_pos (by omega)]

theorem physSloped_line (mv : Bool) (S L : Int) (a b : Pt) (ha : MidPt a) (hb : MidPt b)
    (hL : L = |longOf mv b - longOf mv a|) (hS : S = |shortOf mv b - shortOf mv a|) (hSL : S ≤ L) (h0 : 0 < L) :
    ∃ ps, physSloped mv S L a b = .ok ps ∧ LineOver (longOf mv) (shortOf mv) a b (fun q => q ∈ ps) := by
  have main : ∀ a b : Pt, MidPt a → MidPt b → L = longOf mv b - longOf mv a → S = |shortOf mv b - shortOf mv a| →
      ∃ ps, physSloped mv S L a b = .ok ps ∧ LineOver (longOf mv) (shortOf mv) a b (fun q => q ∈ ps) := by
    intro a b ha hb hL hS
    have hla : -536870912 ≤ longOf mv a ∧ longOf mv a ≤ 536870912 := by
      cases mv
      · exact ha.1
      · exact ha.2
    have hlb : -536870912 ≤ longOf mv b ∧ longOf mv b ≤ 536870912 := by
      cases mv
      · exact hb.1
      · exact hb.2
    have hsa : -536870912 ≤ shortOf mv a ∧ shortOf mv a ≤ 536870912 := by
      cases mv
      · exact ha.2
      · exact ha.1
    have hS0 : 0 ≤ S := hS ▸ abs_nonneg _
    have hsgn : ∃ sg : Int, (sg = 1 ∨ sg = -1) ∧ sg = (if shortOf mv a < shortOf mv b then 1 else -1) ∧
        shortOf mv b = shortOf mv a + sg * S := by
      refine ⟨_, ?_, rfl, ?_⟩
      · split
        · exact .inl rfl
        · exact .inr rfl
      · rcases abs_cases (shortOf mv b - shortOf mv a) with ⟨h1, h2⟩ | ⟨h1, h2⟩
        · split <;> omega
        · rw [if_neg (by omega)]; omega
    obtain ⟨sg, g1, g2, g3⟩ := hsgn
    have hL2 : L.tdiv 2 = L / 2 := Int.tdiv_eq_ediv_of_nonneg (by omega)
    have hn : (longOf mv b - longOf mv a + 1).toNat = (L + 1).toNat := by rw [hL]
    obtain ⟨ps, p1, p2⟩ := bresLoop_ok mv S L sg hS0 hSL h0 (by omega) g1 (L + 1).toNat (longOf mv a)
      (shortOf mv a) (L / 2) (by omega) (by omega) (by omega)
    refine ⟨ps, ?_, ?_⟩
    · unfold physSloped
      rw [if_neg (show ¬ longOf mv a > longOf mv b by omega)]
      simp only
      rw [← g2, hL2, hn]
      exact p1
    · refine bres_line (longOf mv) (shortOf mv) (ptOf mv) ?_ ?_ (ptOf_self mv) a b L S sg _ hS0 hSL h0 g1
        (by omega) g3 ?_
      · intro x y; cases mv <;> rfl
      · intro x y; cases mv <;> rfl
      · intro q
        rw [p2]
        have : (((L + 1).toNat : Nat) : Int) = L + 1 := by omega
        rw [this]
  rcases abs_cases (longOf mv b - longOf mv a) with ⟨h1, h2⟩ | ⟨h1, h2⟩
  · exact main a b ha hb (by omega) hS
  · obtain ⟨ps, p1, p2⟩ := main b a hb ha (by omega) (by rw [hS, abs_sub_comm])
    refine ⟨ps, ?_, p2.symm⟩
    rw [physSloped_comm mv S L a b (by omega)]
    exact p1

theorem physLine_line (a b : Pt) (ha : MidPt a) (hb : MidPt b) :
    ∃ ps, physLine a b = .ok ps ∧ LineLike a b (fun q => q ∈ ps) := by
  by_cases hx : a.x = b.x
  · -- vertical
    obtain ⟨ps, p1, p2⟩ := vLine_ok ⟨a.x, min a.y b.y⟩ (|b.y - a.y| + 1) (by
      simp only
      rcases abs_cases (b.y - a.y) with ⟨h1, h2⟩ | ⟨h1, h2⟩ <;> omega)
    refine ⟨ps, ?_, ?_⟩
    · unfold physLine
      rw [chk_ok (v := b.x - a.x) (by constructor <;> omega)]; simp only [Res.bind_ok]
      rw [iabs_ok (v := b.x - a.x) (by omega)]; simp only [Res.bind_ok]
      rw [chk_ok (v := b.y - a.y) (by constructor <;> omega)]; simp only [Res.bind_ok]
      rw [iabs_ok (v := b.y - a.y) (by omega)]; simp only [Res.bind_ok]
      rw [if_pos (show |b.x - a.x| = 0 by rw [abs_eq_zero]; omega)]
      rw [chk_ok (v := |b.y - a.y| + 1) (by
        rcases abs_cases (b.y - a.y) with ⟨h1, h2⟩ | ⟨h1, h2⟩ <;> constructor <;> omega)]
      simp only [Res.bind_ok]
      exact p1
    · have hm : ∀ q, q ∈ ps ↔ q.x = a.x ∧ min a.y b.y ≤ q.y ∧ q.y ≤ max a.y b.y := by
        intro q
        rw [p2]
        simp only
        rcases abs_cases (b.y - a.y) with ⟨h1, h2⟩ | ⟨h1, h2⟩ <;> omega
      have hv : LineOver Pt.y Pt.x a b (fun q => q ∈ ps) := by
        refine ⟨?_, ?_, ?_, ?_, ?_, ?_, ?_⟩
        · show a ∈ ps; rw [hm]; omega
        · show b ∈ ps; rw [hm]; omega
        · intro p hp; rw [hm] at hp; omega
        · intro t h1 h2
          refine ⟨⟨a.x, t⟩, ?_, rfl⟩
          rw [hm]; exact ⟨rfl, h1, h2⟩
        · intro p q hp hq _
          rw [hm] at hp hq; omega
        · intro p hp
          rw [hm] at hp
          have e1 : p.x - a.x = 0 := by omega
          have e2 : b.x - a.x = 0 := by omega
          rw [e1, e2]
          simp only [Int.zero_mul, Int.mul_zero, Int.sub_zero, abs_zero]
          exact abs_nonneg _
        · intro p q hp hq _
          rw [hm] at hp hq
          have e1 : q.x - p.x = 0 := by omega
          rw [e1]; decide
      refine ⟨fun h => ?_, fun _ => hv⟩
      have e2 : b.x - a.x = 0 := by omega
      rw [e2, abs_zero] at h
      have h0 : |b.y - a.y| = 0 := Int.le_antisymm h (abs_nonneg _)
      exact hv.swap (by rw [h0, e2, abs_zero])
  · by_cases hy : a.y = b.y
    · obtain ⟨ps, p1, p2⟩ := hLine_ok ⟨min a.x b.x, a.y⟩ (|b.x - a.x| + 1) (by
        simp only
        rcases abs_cases (b.x - a.x) with ⟨h1, h2⟩ | ⟨h1, h2⟩ <;> omega)
      refine ⟨ps, ?_, ?_⟩
      · unfold physLine
        rw [chk_ok (v := b.x - a.x) (by constructor <;> omega)]; simp only [Res.bind_ok]
        rw [iabs_ok (v := b.x - a.x) (by omega)]; simp only [Res.bind_ok]
        rw [chk_ok (v := b.y - a.y) (by constructor <;> omega)]; simp only [Res.bind_ok]
        rw [iabs_ok (v := b.y - a.y) (by omega)]; simp only [Res.bind_ok]
        rw [if_neg (show ¬ |b.x - a.x| = 0 by rw [abs_eq_zero]; omega),
          if_pos (show |b.y - a.y| = 0 by rw [abs_eq_zero]; omega)]
        rw [chk_ok (v := |b.x - a.x| + 1) (by
          rcases abs_cases (b.x - a.x) with ⟨h1, h2⟩ | ⟨h1, h2⟩ <;> constructor <;> omega)]
        simp only [Res.bind_ok]
        exact p1
      · have hm : ∀ q, q ∈ ps ↔ q.y = a.y ∧ min a.x b.x ≤ q.x ∧ q.x ≤ max a.x b.x := by
          intro q
          rw [p2]
          simp only
          rcases abs_cases (b.x - a.x) with ⟨h1, h2⟩ | ⟨h1, h2⟩ <;> omega
        have hv : LineOver Pt.x Pt.y a b (fun q => q ∈ ps) := by
          refine ⟨?_, ?_, ?_, ?_, ?_, ?_, ?_⟩
          · show a ∈ ps; rw [hm]; omega
          · show b ∈ ps; rw [hm]; omega
          · intro p hp; rw [hm] at hp; omega
          · intro t h1 h2
            refine ⟨⟨t, a.y⟩, ?_, rfl⟩
            rw [hm]; exact ⟨rfl, h1, h2⟩
          · intro p q hp hq _
            rw [hm] at hp hq; omega
          · intro p hp
            rw [hm] at hp
            have e1 : p.y - a.y = 0 := by omega
            have e2 : b.y - a.y = 0 := by omega
            rw [e1, e2]
            simp only [Int.zero_mul, Int.mul_zero, Int.sub_zero, abs_zero]
            exact abs_nonneg _
          · intro p q hp hq _
            rw [hm] at hp hq
            have e1 : q.y - p.y = 0 := by omega
            rw [e1]; decide
        refine ⟨fun _ => hv, fun h => ?_⟩
        have e2 : b.y - a.y = 0 := by omega
        rw [e2, abs_zero] at h
        have h0 : |b.x - a.x| = 0 := Int.le_antisymm h (abs_nonneg _)
        exact hv.swap (by rw [h0, e2, abs_zero])
    · rw [physLine_sloped ha hb hx hy]
      by_cases hc : |b.y - a.y| > |b.x - a.x|
      · rw [if_pos hc]
        obtain ⟨ps, p1, p2⟩ := physSloped_line true |b.x - a.x| |b.y - a.y| a b ha hb rfl rfl (by omega)
          (abs_pos.2 (by omega))
        exact ⟨ps, p1, fun h => absurd h (by omega), fun _ => p2⟩
      · rw [if_neg hc]
        obtain ⟨ps, p1, p2⟩ := physSloped_line false |b.y - a.y| |b.x - a.x| a b ha hb rfl rfl (by omega)
          (abs_pos.2 (by omega))
        have p3 : LineOver Pt.x Pt.y a b (fun q => q ∈ ps) := p2
        exact ⟨ps, p1, fun _ => p3, fun h => p3.swap (by omega)⟩

theorem physLine_comm (a b : Pt) (ha : MidPt a) (hb : MidPt b) : physLine a b = physLine b a := by
  by_cases hx : a.x = b.x
  · unfold physLine
    rw [chk_ok (v := b.x - a.x) (by constructor <;> omega), chk_ok (v := a.x - b.x) (by constructor <;> omega)]
    simp only [Res.bind_ok]
    rw [iabs_ok (v := b.x - a.x) (by omega), iabs_ok (v := a.x - b.x) (by omega)]; simp only [Res.bind_ok]
    rw [chk_ok (v := b.y - a.y) (by constructor <;> omega), chk_ok (v := a.y - b.y) (by constructor <;> omega)]
    simp only [Res.bind_ok]
    rw [iabs_ok (v := b.y - a.y) (by omega), iabs_ok (v := a.y - b.y) (by omega)]; simp only [Res.bind_ok]
    rw [if_pos (show |b.x - a.x| = 0 by rw [abs_eq_zero]; omega),
      if_pos (show |a.x - b.x| = 0 by rw [abs_eq_zero]; omega), hx, abs_sub_comm, Int.min_comm]
  · by_cases hy : a.y = b.y
    · unfold physLine
      rw [chk_ok (v := b.x - a.x) (by constructor <;> omega), chk_ok (v := a.x - b.x) (by constructor <;> omega)]
      simp only [Res.bind_ok]
      rw [iabs_ok (v := b.x - a.x) (by omega), iabs_ok (v := a.x - b.x) (by omega)]; simp only [Res.bind_ok]
      rw [chk_ok (v := b.y - a.y) (by constructor <;> omega), chk_ok (v := a.y - b.y) (by constructor <;> omega)]
      simp only [Res.bind_ok]
      rw [iabs_ok (v := b.y - a.y) (by omega), iabs_ok (v := a.y - b.y) (by omega)]; simp only [Res.bind_ok]
      rw [if_neg (show ¬ |b.x - a.x| = 0 by rw [abs_eq_zero]; omega),
        if_neg (show ¬ |a.x - b.x| = 0 by rw [abs_eq_zero]; omega),
        if_pos (show |b.y - a.y| = 0 by rw [abs_eq_zero]; omega),
        if_pos (show |a.y - b.y| = 0 by rw [abs_eq_zero]; omega), hy, abs_sub_comm, Int.min_comm]
    · rw [physLine_sloped ha hb hx hy, physLine_sloped hb ha (fun h => hx h.symm) (fun h => hy h.symm),
        abs_sub_comm a.x b.x, abs_sub_comm a.y b.y, physSloped_comm true _ _ a b hy,
        physSloped_comm false _ _ a b hx]

theorem phys_mid {c : Canvas} {g : Geom} {fb : FB} (h : Ready c g fb) {p : Pt} (hp : SmallPt p) :
    MidPt (phys c.rotate g.getWidth g.getHeight p) := by
  have h1 := h.wlo; have h2 := h.whi; have h3 := h.hlo; have h4 := h.hhi
  obtain ⟨⟨p1, p2⟩, p3, p4⟩ := hp
  unfold MidPt
  cases c.rotate <;> simp only [phys] <;> omega

/-- **C32**: `drawLine(a, b)` paints exactly the on-screen part of a digital line from `a` to `b`. -/
theorem drawLine_line (c : Canvas) (g : Geom) (fb : FB) (h : Ready c g fb) (a b : Pt)
    (ha : SmallPt a) (hb : SmallPt b) :
    ∃ S fb', c.drawLine g fb a b = .ok fb' ∧ Paints c g fb fb' S ∧ LineLike a b S := by
  obtain ⟨ps, p1, p2⟩ := physLine_line _ _ (phys_mid h ha) (phys_mid h hb)
  obtain ⟨fb', q1, q2⟩ := paint_paints h ps (fun p => phys c.rotate g.getWidth g.getHeight p ∈ ps)
    (fun p _ => Iff.rfl)
  refine ⟨_, fb', ?_, q2, lineLike_phys _ _ _ p2⟩
  unfold Canvas.drawLine
  rw [linePts_eq, transform_is_phys c g fb h a (by omega), transform_is_phys c g fb h b (by omega)]
  simp only [Res.bind_ok]
  rw [p1]
  exact q1

/-- **C32**, horizontal, vertical and single-point lines: a digital line between ends sharing a
coordinate is exactly the straight run of pixels between them. -/
theorem straight_line_exact (a b : Pt) (S : Pt → Prop) (hS : LineLike a b S) :
    (a.y = b.y → ∀ p, S p ↔ p.y = a.y ∧ min a.x b.x ≤ p.x ∧ p.x ≤ max a.x b.x) ∧
    (a.x = b.x → ∀ p, S p ↔ p.x = a.x ∧ min a.y b.y ≤ p.y ∧ p.y ≤ max a.y b.y) := by
  constructor
  · intro he
    have e0 : b.y - a.y = 0 := by omega
    have h := hS.1 (by rw [e0, abs_zero]; exact abs_nonneg _)
    have flat : ∀ p, S p → p.y = a.y := by
      intro p hp
      have hc := h.close p hp
      have hr := h.range p hp
      by_cases hx : b.x - a.x = 0
      · exact h.unique p a hp h.first (by omega)
      · rw [e0, Int.mul_zero, Int.sub_zero, abs_mul] at hc
        have h1 : 0 < |b.x - a.x| := abs_pos.2 hx
        by_contra hne
        have h2 : 1 ≤ |p.y - a.y| := Int.one_le_abs (by omega)
        nlinarith
    intro p
    constructor
    · intro hp
      exact ⟨flat p hp, h.range p hp⟩
    · rintro ⟨h1, h2, h3⟩
      obtain ⟨q, hq, hx⟩ := h.each p.x h2 h3
      have : p = q := by
        have := flat q hq
        obtain ⟨px, py⟩ := p
        obtain ⟨qx, qy⟩ := q
        simp only at *
        rw [Pt.mk.injEq]; omega
      rw [this]; exact hq
  · intro he
    have e0 : b.x - a.x = 0 := by omega
    have h := hS.2 (by rw [e0, abs_zero]; exact abs_nonneg _)
    have flat : ∀ p, S p → p.x = a.x := by
      intro p hp
      have hc := h.close p hp
      have hr := h.range p hp
      by_cases hx : b.y - a.y = 0
      · exact h.unique p a hp h.first (by omega)
      · rw [e0, Int.mul_zero, Int.sub_zero, abs_mul] at hc
        have h1 : 0 < |b.y - a.y| := abs_pos.2 hx
        by_contra hne
        have h2 : 1 ≤ |p.x - a.x| := Int.one_le_abs (by omega)
        nlinarith
    intro p
    constructor
    · intro hp
      exact ⟨flat p hp, h.range p hp⟩
    · rintro ⟨h1, h2, h3⟩
      obtain ⟨q, hq, hx⟩ := h.each p.y h2 h3
      have : p = q := by
        have := flat q hq
        obtain ⟨px, py⟩ := p
        obtain ⟨qx, qy⟩ := q
        simp only at *
        rw [Pt.mk.injEq]; omega
      rw [this]; exact hq

/-- **C33**: the direction does not matter. -/
theorem drawLine_direction (c : Canvas) (g : Geom) (fb : FB) (h : Ready c g fb) (a b : Pt)
    (ha : SmallPt a) (hb : SmallPt b) : c.drawLine g fb a b = c.drawLine g fb b a := by
  unfold Canvas.drawLine
  rw [linePts_eq, linePts_eq, transform_is_phys c g fb h a (by omega), transform_is_phys c g fb h b (by omega)]
  simp only [Res.bind_ok]
  rw [physLine_comm _ _ (phys_mid h ha) (phys_mid h hb)]

example : Canvas.linePts ⟨⟨16, 8⟩, .r0⟩ ⟨0, 0⟩ ⟨5, 2⟩ =
    .ok [⟨0, 0⟩, ⟨1, 0⟩, ⟨2, 1⟩, ⟨3, 1⟩, ⟨4, 2⟩, ⟨5, 2⟩] := by decide +kernel
example : SmallPt ⟨-7, 300⟩ := by decide

end Verif.Canvas
