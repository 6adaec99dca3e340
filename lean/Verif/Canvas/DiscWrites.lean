import Verif.Canvas.Writes
/-!
# C105: how often a pixel of a filled circle is written
-/
set_option linter.dupNamespace false
namespace Verif.Canvas
open Verif.FrameBuffer

open Classical in
/-- The number of pixels of the outline which a pixel at the distances `A` and `B` from the centre has in its row, on its
side, at its place or further out. -/
noncomputable def outer (r A B : Int) : Nat :=
  (List.range (r.toNat + 1)).countP fun X : Nat => decide (A ≤ X ∧ OnCircle r X B)

private theorem round_count_filled (center : Pt) (hc : MidPt center) (X Y : Int) (hX : 0 ≤ X ∧ X ≤ 268435456)
    (hY : 0 ≤ Y ∧ Y ≤ 268435456) :
    ∃ ps, circleRound center (-X) Y true = .ok ps ∧
      ∀ q, ps.count q = (if |q.x - center.x| = X ∧ |q.y - center.y| = Y then fold X Y else 0) +
        (if |q.x - center.x| ≤ X ∧ |q.y - center.y| = Y then (if Y = 0 then 2 else 1) else 0) := by
  obtain ⟨ps, p1, -, p2⟩ := round_count center hc X Y hX hY
  obtain ⟨⟨c1, c2⟩, c3, c4⟩ := hc
  have hadd : ∀ a b : Int, (-268435456 ≤ a ∧ a ≤ 268435456) → (-268435456 ≤ b ∧ b ≤ 268435456) →
      center.add ⟨a, b⟩ = .ok ⟨center.x + a, center.y + b⟩ := by
    intro a b ha hb
    unfold Pt.add
    simp only
    rw [chk_ok (v := center.x + a) (by constructor <;> omega)]; simp only [Res.bind_ok]
    rw [chk_ok (v := center.y + b) (by constructor <;> omega)]; simp only [Res.bind_ok]
  unfold circleRound at p1 ⊢
  rw [chk_ok (v := - -X) (by constructor <;> omega)] at p1 ⊢; simp only [Res.bind_ok] at p1 ⊢
  rw [chk_ok (v := -Y) (by constructor <;> omega)] at p1 ⊢; simp only [Res.bind_ok] at p1 ⊢
  rw [hadd _ _ (by omega) (by omega), hadd _ _ (by omega) (by omega), hadd _ _ (by omega) (by omega),
    hadd _ _ (by omega) (by omega)] at p1 ⊢
  simp only [Res.bind_ok, Bool.false_eq_true, if_false, if_true] at p1 ⊢
  injection p1 with p1
  rw [chk_ok (v := 2 * - -X) (by constructor <;> omega)]; simp only [Res.bind_ok]
  rw [chk_ok (v := 2 * - -X + 1) (by constructor <;> omega)]; simp only [Res.bind_ok]
  obtain ⟨a, a1, -, -, -, a2⟩ := hLine_count ⟨center.x + -X, center.y + Y⟩ (2 * - -X + 1) (by simp only; omega)
  obtain ⟨b, b1, -, -, -, b2⟩ := hLine_count ⟨center.x + -X, center.y + -Y⟩ (2 * - -X + 1) (by simp only; omega)
  rw [a1]; simp only [Res.bind_ok]
  rw [b1]; simp only [Res.bind_ok]
  refine ⟨_, rfl, ?_⟩
  intro q
  rw [List.count_append, List.count_append, p1, p2, a2, b2, Nat.add_assoc]
  congr 1
  simp only
  have hx : |q.x - center.x| ≤ X ↔ center.x + -X ≤ q.x ∧ q.x < center.x + -X + (2 * - -X + 1) := by
    rw [abs_le]; omega
  have hy : |q.y - center.y| = Y ↔ q.y = center.y + Y ∨ q.y = center.y + -Y := by
    rcases abs_cases (q.y - center.y) with ⟨h1, h2⟩ | ⟨h1, h2⟩ <;> rw [h1] <;> omega
  simp only [hx, hy]
  split_ifs <;> omega

open Classical in
/-- The pixels of the outline which are still to come. -/
private noncomputable def pending (r X Y A B : Int) : Nat :=
  (List.range (r.toNat + 1)).countP fun X' : Nat => decide (A ≤ X' ∧ OnCircle r X' B ∧ Pend X Y X' B)

open Classical in
private theorem count_single (n : Nat) (v : Nat) (h : v ≤ n) :
    (List.range (n + 1)).countP (fun x => decide (x = v)) = 1 := by
  have := List.count_range (n := n + 1) (a := v)
  unfold List.count at this
  rw [if_pos (by omega)] at this
  refine Eq.trans ?_ this
  apply List.countP_congr
  intro x _
  simp

open Classical in
private theorem pending_split {r X Y A B : Int} {P : Int → Int → Prop} (h : OnCircle r X Y) (hr : 0 ≤ r)
    (hp : ∀ A B, OnCircle r A B → (Pend X Y A B ↔ (A = X ∧ B = Y) ∨ P A B)) (hd : ¬ P X Y) :
    pending r X Y A B = (if A ≤ X ∧ B = Y then 1 else 0) +
      (List.range (r.toNat + 1)).countP fun X' : Nat => decide (A ≤ X' ∧ OnCircle r X' B ∧ P X' B) := by
  obtain ⟨b1, b2⟩ := onCircle_le hr h
  have h0 := h.1
  by_cases hAB : A ≤ X ∧ B = Y
  · rw [if_pos hAB]
    obtain ⟨hA, rfl⟩ := hAB
    have hs := count_single r.toNat X.toNat (by omega)
    refine Eq.trans ?_ (congrArg (· + _) hs)
    unfold pending
    generalize List.range (r.toNat + 1) = l
    clear hs
    induction l with
    | nil => rfl
    | cons a l ih =>
      simp only [List.countP_cons, decide_eq_true_eq]
      rw [ih]
      by_cases ha : a = X.toNat
      · have e : (a : Int) = X := by omega
        rw [if_pos ha, if_pos, if_neg]
        · omega
        · rw [e]; exact fun hh => hd hh.2.2
        · rw [e]; exact ⟨hA, h, (hp _ _ h).2 (.inl ⟨rfl, rfl⟩)⟩
      · have e : (a : Int) ≠ X := by omega
        have : (A ≤ a ∧ OnCircle r a B ∧ Pend X B a B) ↔ (A ≤ a ∧ OnCircle r a B ∧ P a B) :=
          ⟨fun ⟨k1, k2, k3⟩ => ⟨k1, k2, ((hp _ _ k2).1 k3).resolve_left fun hh => e hh.1⟩,
            fun ⟨k1, k2, k3⟩ => ⟨k1, k2, (hp _ _ k2).2 (.inr k3)⟩⟩
        rw [if_neg ha]
        simp only [this]
        omega
  · rw [if_neg hAB, Nat.zero_add]
    unfold pending
    apply List.countP_congr
    intro a _
    rw [decide_eq_true_eq, decide_eq_true_eq]
    constructor
    · rintro ⟨k1, k2, k3⟩
      rcases (hp _ _ k2).1 k3 with ⟨e1, e2⟩ | k
      · exact absurd ⟨by omega, e2⟩ hAB
      · exact ⟨k1, k2, k⟩
    · rintro ⟨k1, k2, k3⟩
      exact ⟨k1, k2, (hp _ _ k2).2 (.inr k3)⟩

open Classical in
private theorem loop_count_filled (center : Pt) (hc : MidPt center) (r : Int) (hr : 1 ≤ r) (hr' : r ≤ 268435456) (n : Nat)
    (X Y e : Int) (h : OnCircle r X Y) (he : e = offset r X Y - 2 * X + 2 * Y + 2) (hn : mu X Y < n) :
    ∃ ps, circleLoop center true (-X) Y e n = .ok ps ∧
      ∀ q, ps.count q = (if OnCircle r |q.x - center.x| |q.y - center.y| ∧ Pend X Y |q.x - center.x| |q.y - center.y|
        then fold |q.x - center.x| |q.y - center.y| else 0) +
        (if |q.y - center.y| = 0 then 2 else 1) * pending r X Y |q.x - center.x| |q.y - center.y| := by
  induction n generalizing X Y e with
  | zero =>
    exfalso
    have := h.1
    unfold mu at hn
    omega
  | succ n ih =>
    obtain ⟨b1, b2⟩ := onCircle_le (by omega) h
    have hmu : 0 ≤ mu X Y := by have := h.1; unfold mu; omega
    obtain ⟨ps, p1, p2⟩ := round_count_filled center hc X Y ⟨h.1, by omega⟩ ⟨h.2.1, by omega⟩
    obtain ⟨X', Y', s1, s2⟩ := circle_next hr (by omega) h he
    have hnext := pend_next hr hr' h he s1
    have hself : Pend X Y X Y := by unfold Pend; split <;> omega
    unfold circleLoop
    rw [p1]; simp only [Res.bind_ok]
    rw [s1]; simp only [Res.bind_ok]
    have hone : ∀ A B : Int, (if A ≤ X ∧ B = Y then (if Y = 0 then 2 else 1) else 0) =
        (if B = 0 then 2 else 1) * (if A ≤ X ∧ B = Y then 1 else 0) := by
      intro A B
      by_cases hAB : A ≤ X ∧ B = Y
      · rw [if_pos hAB, if_pos hAB, hAB.2, Nat.mul_one]
      · rw [if_neg hAB, if_neg hAB, Nat.mul_zero]
    rcases s2 with ⟨x0, on', m', pend'⟩ | ⟨x1, pend'⟩
    · rw [if_pos (by omega)]
      obtain ⟨qs, q1, q2⟩ := ih X' Y' _ on' rfl (by omega)
      rw [q1]
      refine ⟨_, rfl, ?_⟩
      intro q
      rw [List.count_append, p2, q2]
      generalize |q.x - center.x| = A
      generalize |q.y - center.y| = B
      have e1 : pending r X Y A B = (if A ≤ X ∧ B = Y then 1 else 0) + pending r X' Y' A B :=
        pending_split h (by omega) pend' hnext
      rw [e1, hone, Nat.mul_add]
      have e2 : (if A = X ∧ B = Y then fold X Y else 0) + (if OnCircle r A B ∧ Pend X' Y' A B then fold A B else 0) =
          if OnCircle r A B ∧ Pend X Y A B then fold A B else 0 := by
        by_cases hon : OnCircle r A B
        · have hp := pend' A B hon
          by_cases hAB : A = X ∧ B = Y
          · obtain ⟨rfl, rfl⟩ := hAB
            rw [if_pos ⟨rfl, rfl⟩, if_neg (fun hh => hnext hh.2), if_pos ⟨h, hself⟩]; rfl
          · rw [if_neg hAB]
            by_cases hq : Pend X' Y' A B
            · rw [if_pos ⟨hon, hq⟩, if_pos ⟨hon, hp.2 (.inr hq)⟩]; omega
            · rw [if_neg (fun hh => hq hh.2), if_neg (fun hh => (hp.1 hh.2).elim hAB hq)]
        · have hne : ¬ (A = X ∧ B = Y) := by
            rintro ⟨rfl, rfl⟩
            exact hon h
          rw [if_neg hne, if_neg (fun hh => hon hh.1), if_neg (fun hh => hon hh.1)]
      omega
    · rw [if_neg (by omega)]
      refine ⟨_, rfl, ?_⟩
      intro q
      rw [p2]
      generalize |q.x - center.x| = A
      generalize |q.y - center.y| = B
      have e1 : pending r X Y A B = (if A ≤ X ∧ B = Y then 1 else 0) + 0 := by
        rw [pending_split (P := fun _ _ => False) h (by omega) (fun A B k => by rw [pend' A B k, or_false]) id]
        congr 1
        rw [List.countP_eq_zero]
        intro a _
        simp
      rw [e1, hone, Nat.add_zero]
      congr 1
      by_cases hAB : A = X ∧ B = Y
      · obtain ⟨rfl, rfl⟩ := hAB
        rw [if_pos ⟨rfl, rfl⟩, if_pos ⟨h, hself⟩]
      · rw [if_neg hAB, if_neg]
        rintro ⟨k1, k2⟩
        exact hAB ((pend' A B k1).1 k2)

open Classical in
/-- **C105**, filled circles: a pixel is written as often as for the outline and once more (twice in the row of the centre,
in the sense of the unrotated screen) for every pixel of the outline which its row has at its place or further out. -/
theorem disc_writes (c : Canvas) (g : Geom) (fb : FB) (h : Ready c g fb) (p : Pt) (hp : SmallPt p) (r : Int)
    (hr : 1 ≤ r ∧ r ≤ 268435456) :
    ∃ qs, c.calls (.circle p r true) = .ok qs ∧ ∀ q, OnScreen c q → qs.count (phys c.rotate g.getWidth g.getHeight q) =
      (if OnCircle r |q.x - p.x| |q.y - p.y| then (if q.x = p.x ∨ q.y = p.y then 2 else 1) else 0) +
      match c.rotate with
      | .r0 | .r180 => (if q.y = p.y then 2 else 1) * outer r |q.x - p.x| |q.y - p.y|
      | .r90 | .r270 => (if q.x = p.x then 2 else 1) * outer r |q.y - p.y| |q.x - p.x| := by
  have h0 : OnCircle r r 0 := by
    have e : offset r r 0 = 0 := by unfold offset; ring
    refine ⟨by omega, Int.le_refl 0, by rw [e]; omega, by rw [e]; omega, by omega⟩
  obtain ⟨ps, p1, p2⟩ := loop_count_filled _ (phys_mid h hp) r hr.1 hr.2 (2 * r.natAbs + 4) r 0 (2 - 2 * r) h0
    (by unfold offset; ring) (by unfold mu; omega)
  have hps : c.points (.circle p r true) = .ok ps := by
    show c.circlePts p r true = _
    unfold Canvas.circlePts
    rw [transform_is_phys c g fb h p (by omega)]; simp only [Res.bind_ok]
    rw [chk_ok (v := -r) (by constructor <;> omega)]; simp only [Res.bind_ok]
    rw [chk_ok (v := 2 * r) (by constructor <;> omega)]; simp only [Res.bind_ok]
    rw [chk_ok (v := 2 - 2 * r) (by constructor <;> omega)]; simp only [Res.bind_ok]
    exact p1
  obtain ⟨h1, h2⟩ := calls_count h hps
  refine ⟨_, h1, fun q hq => ?_⟩
  obtain ⟨os, qs, o1, -, o2, o3⟩ := circle_writes c g fb h p hp r hr
  obtain ⟨o4, o5⟩ := calls_count h o1
  have hout := o3 q hq
  rw [show qs = os.filter c.visible by rw [o4] at o2; injection o2 with o2; exact o2.symm, o5 q hq] at hout
  have hpend : ∀ A B, 0 ≤ B → Pend r 0 A B := by
    intro A B k
    unfold Pend
    rw [if_pos (by omega)]
    exact k
  obtain ⟨os', l1, -, l3⟩ := loop_count _ (phys_mid h hp) r hr.1 hr.2 (2 * r.natAbs + 4) r 0 (2 - 2 * r) h0
    (by unfold offset; ring) (by unfold mu; omega)
  have hos : c.points (.circle p r false) = .ok os' := by
    show c.circlePts p r false = _
    unfold Canvas.circlePts
    rw [transform_is_phys c g fb h p (by omega)]; simp only [Res.bind_ok]
    rw [chk_ok (v := -r) (by constructor <;> omega)]; simp only [Res.bind_ok]
    rw [chk_ok (v := 2 * r) (by constructor <;> omega)]; simp only [Res.bind_ok]
    rw [chk_ok (v := 2 - 2 * r) (by constructor <;> omega)]; simp only [Res.bind_ok]
    exact l1
  rw [hos] at o1
  injection o1 with o1
  subst o1
  rw [h2 q hq, p2, ← l3, hout]
  congr 1
  have hpo : ∀ A B, 0 ≤ B → pending r r 0 A B = outer r A B := by
    intro A B hB
    unfold pending outer
    apply List.countP_congr
    intro a _
    rw [decide_eq_true_eq, decide_eq_true_eq]
    exact ⟨fun k => ⟨k.1, k.2.1⟩, fun k => ⟨k.1, k.2, hpend _ _ hB⟩⟩
  rw [hpo _ _ (abs_nonneg _)]
  have e1 : |q.x - p.x| = 0 ↔ q.x = p.x := by rw [abs_eq_zero]; omega
  have e2 : |q.y - p.y| = 0 ↔ q.y = p.y := by rw [abs_eq_zero]; omega
  cases c.rotate with
  | r0 =>
    have d1 : |(phys .r0 g.getWidth g.getHeight q).x - (phys .r0 g.getWidth g.getHeight p).x| = |q.x - p.x| := rfl
    have d2 : |(phys .r0 g.getWidth g.getHeight q).y - (phys .r0 g.getWidth g.getHeight p).y| = |q.y - p.y| := rfl
    simp only [d1, d2, e2]
  | r90 =>
    have d1 : |(phys .r90 g.getWidth g.getHeight q).x - (phys .r90 g.getWidth g.getHeight p).x| = |q.y - p.y| := by
      rw [abs_sub_comm q.y]; unfold phys; simp only; congr 1; omega
    have d2 : |(phys .r90 g.getWidth g.getHeight q).y - (phys .r90 g.getWidth g.getHeight p).y| = |q.x - p.x| := rfl
    simp only [d1, d2, e1]
  | r180 =>
    have d1 : |(phys .r180 g.getWidth g.getHeight q).x - (phys .r180 g.getWidth g.getHeight p).x| = |q.x - p.x| := by
      rw [abs_sub_comm q.x]; unfold phys; simp only; congr 1; omega
    have d2 : |(phys .r180 g.getWidth g.getHeight q).y - (phys .r180 g.getWidth g.getHeight p).y| = |q.y - p.y| := by
      rw [abs_sub_comm q.y]; unfold phys; simp only; congr 1; omega
    simp only [d1, d2, e2]
  | r270 =>
    have d1 : |(phys .r270 g.getWidth g.getHeight q).x - (phys .r270 g.getWidth g.getHeight p).x| = |q.y - p.y| := rfl
    have d2 : |(phys .r270 g.getWidth g.getHeight q).y - (phys .r270 g.getWidth g.getHeight p).y| = |q.x - p.x| := by
      rw [abs_sub_comm q.x]; unfold phys; simp only; congr 1; omega
    simp only [d1, d2, e1]

/-- **C105**: in the rows whose outline is steep there is one such pixel. -/
theorem outer_steep {r X A B : Int} (hr : 0 ≤ r) (h : OnCircle r X B) (hB : B ≤ X) (hA : A ≤ X) : outer r A B = 1 := by
  classical
  obtain ⟨b1, b2⟩ := onCircle_le hr h
  have h0 := h.1
  rw [← count_single r.toNat X.toNat (by omega)]
  unfold outer
  apply List.countP_congr
  intro a _
  rw [decide_eq_true_eq, decide_eq_true_eq]
  constructor
  · rintro ⟨-, k⟩
    have := row_unique h hB k
    omega
  · intro k
    have : (a : Int) = X := by omega
    rw [this]
    exact ⟨hA, h⟩

/-- **C105**, radius 0: the only pixel is written four times, and six times by the filled circle. -/
theorem dot_writes (c : Canvas) (g : Geom) (fb : FB) (h : Ready c g fb) (p : Pt) (hp : SmallPt p) (filled : Bool) :
    ∃ qs, c.calls (.circle p 0 filled) = .ok qs ∧ ∀ q, OnScreen c q → qs.count (phys c.rotate g.getWidth g.getHeight q) =
      if q = p then (if filled then 6 else 4) else 0 := by
  have key : ∃ ps, c.points (.circle p 0 filled) = .ok ps ∧
      ∀ q, ps.count q = if q = phys c.rotate g.getWidth g.getHeight p then (if filled then 6 else 4) else 0 := by
    have hround : ∃ ps, circleRound (phys c.rotate g.getWidth g.getHeight p) 0 0 filled = .ok ps ∧
        ∀ q, ps.count q = if q = phys c.rotate g.getWidth g.getHeight p then (if filled then 6 else 4) else 0 := by
      have hq : ∀ q : Pt, q = phys c.rotate g.getWidth g.getHeight p ↔
          |q.x - (phys c.rotate g.getWidth g.getHeight p).x| = 0 ∧
            |q.y - (phys c.rotate g.getWidth g.getHeight p).y| = 0 := by
        intro q
        rw [abs_eq_zero, abs_eq_zero]
        generalize phys c.rotate g.getWidth g.getHeight p = a
        obtain ⟨ax, ay⟩ := a
        obtain ⟨bx, b'⟩ := q
        rw [Pt.mk.injEq]
        simp only
        omega
      cases filled with
      | false =>
        obtain ⟨ps, p1, -, p2⟩ := round_count _ (phys_mid h hp) 0 0 (by omega) (by omega)
        refine ⟨ps, p1, fun q => ?_⟩
        rw [p2]
        simp only [hq]
        rfl
      | true =>
        obtain ⟨ps, p1, p2⟩ := round_count_filled _ (phys_mid h hp) 0 0 (by omega) (by omega)
        refine ⟨ps, p1, fun q => ?_⟩
        have a1 := abs_nonneg (q.x - (phys c.rotate g.getWidth g.getHeight p).x)
        have hle : |q.x - (phys c.rotate g.getWidth g.getHeight p).x| ≤ 0 ↔
          |q.x - (phys c.rotate g.getWidth g.getHeight p).x| = 0 := by omega
        rw [p2]
        simp only [hq, hle]
        split <;> rfl
    obtain ⟨ps, p1, p2⟩ := hround
    refine ⟨ps, ?_, p2⟩
    show c.circlePts p 0 filled = _
    unfold Canvas.circlePts
    rw [transform_is_phys c g fb h p (by omega)]; simp only [Res.bind_ok]
    show circleLoop _ filled 0 0 2 4 = _
    unfold circleLoop
    rw [p1]
    rfl
  obtain ⟨ps, hps, p2⟩ := key
  obtain ⟨h1, h2⟩ := calls_count h hps
  refine ⟨_, h1, fun q hq => ?_⟩
  rw [h2 q hq, p2]
  have : phys c.rotate g.getWidth g.getHeight q = phys c.rotate g.getWidth g.getHeight p ↔ q = p :=
    ⟨fun e => phys_inj _ _ _ e, fun e => by rw [e]⟩
  simp only [this]

/-- The filled circle of radius 2 around (3, 3): the centre is written twice, the end of its row four times (twice for the
outline), the pixel above the centre once, the top four times (its row has two pixels of the outline on each side). -/
example : ∃ qs, Canvas.calls ⟨⟨16, 8⟩, .r0⟩ (.circle ⟨3, 3⟩ 2 true) = .ok qs ∧ qs.count ⟨3, 3⟩ = 2 ∧
    qs.count ⟨5, 3⟩ = 4 ∧ qs.count ⟨3, 2⟩ = 1 ∧ qs.count ⟨3, 1⟩ = 4 ∧ qs.count ⟨4, 1⟩ = 2 ∧ qs.count ⟨5, 1⟩ = 0 := by
  refine ⟨_, rfl, by decide +kernel, by decide +kernel, by decide +kernel, by decide +kernel, by decide +kernel, by decide +kernel⟩

end Verif.Canvas
