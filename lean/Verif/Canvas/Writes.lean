import Verif.Canvas.Circle
import Mathlib.Data.List.Nodup
/-!
# C105: how often a pixel is written
-/
set_option linter.dupNamespace false
namespace Verif.Canvas
open Verif.FrameBuffer

/-- The calls of `IFrameBuffer::drawPixel` made by a drawing routine, Canvas.h:84-90 for each of the points. -/
def Canvas.calls (c : Canvas) (s : Shape) : Res (List Pt) := do
  let ps ← c.points s
  .ok (ps.filter c.visible)

/-! ## Runs of pixels -/

private theorem hLoop_runs (n : Nat) (p : Pt) (ps : List Pt) (h : hLoop p n = .ok ps) :
    ps.length = n ∧ ps.Nodup ∧ ∀ q ∈ ps, p.x ≤ q.x := by
  induction n generalizing p ps with
  | zero =>
    injection h with h
    subst h
    simp
  | succ n ih =>
    rw [hLoop, Res.bind_eq_ok] at h
    obtain ⟨x, hx, h⟩ := h
    rw [Res.bind_eq_ok] at h
    obtain ⟨qs, hq, h⟩ := h
    injection h with h
    subst h
    have hx' : x = p.x + 1 := by
      unfold chk at hx
      split at hx
      · injection hx with hx; exact hx.symm
      · cases hx
    obtain ⟨h1, h2, h3⟩ := ih _ _ hq
    refine ⟨by simp [h1], List.nodup_cons.2 ⟨fun hm => ?_, h2⟩, ?_⟩
    · have := h3 p hm
      simp only at this
      omega
    · intro q hm
      rcases List.mem_cons.1 hm with rfl | hm
      · exact Int.le_refl _
      · have := h3 q hm
        simp only at this
        omega

private theorem vLoop_runs (n : Nat) (p : Pt) (ps : List Pt) (h : vLoop p n = .ok ps) :
    ps.length = n ∧ ps.Nodup ∧ ∀ q ∈ ps, p.y ≤ q.y := by
  induction n generalizing p ps with
  | zero =>
    injection h with h
    subst h
    simp
  | succ n ih =>
    rw [vLoop, Res.bind_eq_ok] at h
    obtain ⟨x, hx, h⟩ := h
    rw [Res.bind_eq_ok] at h
    obtain ⟨qs, hq, h⟩ := h
    injection h with h
    subst h
    have hx' : x = p.y + 1 := by
      unfold chk at hx
      split at hx
      · injection hx with hx; exact hx.symm
      · cases hx
    obtain ⟨h1, h2, h3⟩ := ih _ _ hq
    refine ⟨by simp [h1], List.nodup_cons.2 ⟨fun hm => ?_, h2⟩, ?_⟩
    · have := h3 p hm
      simp only at this
      omega
    · intro q hm
      rcases List.mem_cons.1 hm with rfl | hm
      · exact Int.le_refl _
      · have := h3 q hm
        simp only at this
        omega

private theorem chk_eq {v w : Int} (h : chk v = .ok w) : w = v := by
  unfold chk at h
  split at h
  · injection h with h; exact h.symm
  · cases h

private theorem longOf_ptOf (mv : Bool) (a b : Int) : longOf mv (ptOf mv a b) = a := by cases mv <;> rfl

private theorem bresLoop_runs (mv : Bool) (S L sg : Int) (n : Nat) (l s e : Int) (ps : List Pt)
    (h : bresLoop mv S L sg l s e n = .ok ps) : ps.length = n ∧ ps.Nodup ∧ ∀ q ∈ ps, l ≤ longOf mv q := by
  induction n generalizing l s e ps with
  | zero =>
    injection h with h
    subst h
    simp
  | succ n ih =>
    rw [bresLoop, Res.bind_eq_ok] at h
    obtain ⟨e1, -, h⟩ := h
    rw [Res.bind_eq_ok] at h
    obtain ⟨⟨s1, e2⟩, -, h⟩ := h
    simp only at h
    rw [Res.bind_eq_ok] at h
    obtain ⟨l1, hl, h⟩ := h
    rw [Res.bind_eq_ok] at h
    obtain ⟨qs, hq, h⟩ := h
    injection h with h
    subst h
    have hl' := chk_eq hl
    obtain ⟨h1, h2, h3⟩ := ih _ _ _ _ hq
    refine ⟨by simp [h1], List.nodup_cons.2 ⟨fun hm => ?_, h2⟩, ?_⟩
    · have := h3 _ hm
      rw [longOf_ptOf] at this
      omega
    · intro q hm
      rcases List.mem_cons.1 hm with rfl | hm
      · rw [longOf_ptOf]
      · have := h3 q hm
        omega

/-! ## Lines -/

private theorem physLine_runs (a b : Pt) (ha : MidPt a) (hb : MidPt b) (ps : List Pt) (h : physLine a b = .ok ps) :
    (ps.length : Int) = max |b.x - a.x| |b.y - a.y| + 1 ∧ ps.Nodup := by
  have hax := abs_nonneg (b.x - a.x)
  have hay := abs_nonneg (b.y - a.y)
  by_cases hx : a.x = b.x
  · unfold physLine at h
    rw [chk_ok (v := b.x - a.x) (by constructor <;> omega)] at h; simp only [Res.bind_ok] at h
    rw [iabs_ok (v := b.x - a.x) (by omega)] at h; simp only [Res.bind_ok] at h
    rw [chk_ok (v := b.y - a.y) (by constructor <;> omega)] at h; simp only [Res.bind_ok] at h
    rw [iabs_ok (v := b.y - a.y) (by omega)] at h; simp only [Res.bind_ok] at h
    have h0 : |b.x - a.x| = 0 := by rw [abs_eq_zero]; omega
    rw [if_pos h0, Res.bind_eq_ok] at h
    obtain ⟨w, hw, h⟩ := h
    have := chk_eq hw
    obtain ⟨h1, h2, -⟩ := vLoop_runs _ _ _ h
    exact ⟨by omega, h2⟩
  · by_cases hy : a.y = b.y
    · unfold physLine at h
      rw [chk_ok (v := b.x - a.x) (by constructor <;> omega)] at h; simp only [Res.bind_ok] at h
      rw [iabs_ok (v := b.x - a.x) (by omega)] at h; simp only [Res.bind_ok] at h
      rw [chk_ok (v := b.y - a.y) (by constructor <;> omega)] at h; simp only [Res.bind_ok] at h
      rw [iabs_ok (v := b.y - a.y) (by omega)] at h; simp only [Res.bind_ok] at h
      have h0 : |b.y - a.y| = 0 := by rw [abs_eq_zero]; omega
      rw [if_neg (show ¬ |b.x - a.x| = 0 by rw [abs_eq_zero]; omega), if_pos h0, Res.bind_eq_ok] at h
      obtain ⟨w, hw, h⟩ := h
      have := chk_eq hw
      obtain ⟨h1, h2, -⟩ := hLoop_runs _ _ _ h
      exact ⟨by omega, h2⟩
    · rw [physLine_sloped ha hb hx hy] at h
      have key : ∀ mv S L, physSloped mv S L a b = .ok ps → (ps.length : Int) = |longOf mv b - longOf mv a| + 1 ∧
          ps.Nodup := by
        intro mv S L h
        unfold physSloped at h
        rcases abs_cases (longOf mv b - longOf mv a) with ⟨h1, h2⟩ | ⟨h1, h2⟩
        · rw [if_neg (by omega)] at h
          obtain ⟨k1, k2, -⟩ := bresLoop_runs _ _ _ _ _ _ _ _ _ h
          exact ⟨by omega, k2⟩
        · rw [if_pos (by omega)] at h
          obtain ⟨k1, k2, -⟩ := bresLoop_runs _ _ _ _ _ _ _ _ _ h
          exact ⟨by omega, k2⟩
      split at h
      · obtain ⟨k1, k2⟩ := key true _ _ h
        simp only [longOf, if_true] at k1
        exact ⟨by omega, k2⟩
      · obtain ⟨k1, k2⟩ := key false _ _ h
        simp only [longOf, Bool.false_eq_true, if_false] at k1
        exact ⟨by omega, k2⟩

private theorem phys_diff (r : Rotation) (W H : Int) (a b : Pt) :
    max |(phys r W H b).x - (phys r W H a).x| |(phys r W H b).y - (phys r W H a).y| =
      max |b.x - a.x| |b.y - a.y| := by
  have e1 : ∀ W s t : Int, |W - 1 - s - (W - 1 - t)| = |s - t| := by
    intro W s t
    rw [← abs_neg]; congr 1; ring
  cases r <;> simp only [phys, e1]
  · exact Int.max_comm _ _
  · exact Int.max_comm _ _

/-- **C105**, lines: no pixel is written twice, and the number of pixels, on and off the screen, is that of the longer
extent. -/
theorem line_writes (c : Canvas) (g : Geom) (fb : FB) (h : Ready c g fb) (a b : Pt) (ha : SmallPt a) (hb : SmallPt b) :
    ∃ ps qs, c.points (.line a b) = .ok ps ∧ (ps.length : Int) = max |b.x - a.x| |b.y - a.y| + 1 ∧
      c.calls (.line a b) = .ok qs ∧ qs.Nodup := by
  obtain ⟨ps, p1, p2⟩ := physLine_line _ _ (phys_mid h ha) (phys_mid h hb)
  obtain ⟨h1, h2⟩ := physLine_runs _ _ (phys_mid h ha) (phys_mid h hb) ps p1
  have hp : c.points (.line a b) = .ok ps := by
    show c.linePts a b = _
    rw [linePts_eq, transform_is_phys c g fb h a (by omega), transform_is_phys c g fb h b (by omega)]
    exact p1
  rw [phys_diff] at h1
  refine ⟨ps, _, hp, h1, ?_, h2.filter c.visible⟩
  unfold Canvas.calls
  rw [hp]
  rfl

/-! ## Rectangles -/

theorem count_ind {ps : List Pt} (hn : ps.Nodup) (q : Pt) {P : Prop} [Decidable P] (hm : q ∈ ps ↔ P) :
    ps.count q = if P then 1 else 0 := by
  split
  · next hp => exact List.nodup_iff_count_eq_one.1 hn q (hm.2 hp)
  · next hp => exact List.count_eq_zero.2 fun h => hp (hm.1 h)

theorem hLine_count (p : Pt) (w : Int) (h : -2147483648 ≤ p.x ∧ p.x + max w 0 ≤ 2147483647) :
    ∃ ps, hLine p w = .ok ps ∧ ps.length = w.toNat ∧ ps.Nodup ∧
      (∀ q : Pt, q ∈ ps ↔ q.y = p.y ∧ p.x ≤ q.x ∧ q.x < p.x + w) ∧
      ∀ q : Pt, ps.count q = if q.y = p.y ∧ p.x ≤ q.x ∧ q.x < p.x + w then 1 else 0 := by
  obtain ⟨ps, h1, h2⟩ := hLine_ok p w h
  obtain ⟨h3, h4, -⟩ := hLoop_runs _ _ _ h1
  exact ⟨ps, h1, h3, h4, h2, fun q => count_ind h4 q (h2 q)⟩

private theorem vLine_count (p : Pt) (w : Int) (h : -2147483648 ≤ p.y ∧ p.y + max w 0 ≤ 2147483647) :
    ∃ ps, vLine p w = .ok ps ∧ ps.length = w.toNat ∧
      ∀ q : Pt, ps.count q = if q.x = p.x ∧ p.y ≤ q.y ∧ q.y < p.y + w then 1 else 0 := by
  obtain ⟨ps, h1, h2⟩ := vLine_ok p w h
  obtain ⟨h3, h4, -⟩ := vLoop_runs _ _ _ h1
  exact ⟨ps, h1, h3, fun q => count_ind h4 q (h2 q)⟩

/-- On how many of the four sides of the rectangle the pixel lies. -/
def sides (r : Rect) (p : Pt) : Nat :=
  (if p.y = r.topLeft.y ∧ r.topLeft.x ≤ p.x ∧ p.x < r.topLeft.x + r.size.width then 1 else 0) +
  (if p.y = r.topLeft.y + r.size.height - 1 ∧ r.topLeft.x ≤ p.x ∧ p.x < r.topLeft.x + r.size.width then 1 else 0) +
  (if p.x = r.topLeft.x ∧ r.topLeft.y ≤ p.y ∧ p.y < r.topLeft.y + r.size.height then 1 else 0) +
  (if p.x = r.topLeft.x + r.size.width - 1 ∧ r.topLeft.y ≤ p.y ∧ p.y < r.topLeft.y + r.size.height then 1 else 0)

private theorem ite_congr_nat {P Q : Prop} [Decidable P] [Decidable Q] (h : P ↔ Q) :
    (if P then 1 else 0 : Nat) = if Q then 1 else 0 := by
  by_cases hp : P
  · rw [if_pos hp, if_pos (h.1 hp)]
  · rw [if_neg hp, if_neg (fun hq => hp (h.2 hq))]

private theorem sides_phys (rot : Rotation) (W H : Int) (r : Rect) (p : Pt) :
    sides (physRect rot W H r) (phys rot W H p) = sides r p := by
  obtain ⟨⟨x, y⟩, ⟨w, h⟩⟩ := r
  obtain ⟨a, b⟩ := p
  have p1 : ∀ {a b c d a' b' c' d' : Nat}, a = c' → b = d' → c = b' → d = a' → a + b + c + d = a' + b' + c' + d' := by
    omega
  have p2 : ∀ {a b c d a' b' c' d' : Nat}, a = b' → b = a' → c = d' → d = c' → a + b + c + d = a' + b' + c' + d' := by
    omega
  have p3 : ∀ {a b c d a' b' c' d' : Nat}, a = d' → b = c' → c = a' → d = b' → a + b + c + d = a' + b' + c' + d' := by
    omega
  cases rot <;> simp only [sides, physRect, phys]
  · rfl
  · refine p1 ?_ ?_ ?_ ?_ <;> exact ite_congr_nat (by omega)
  · refine p2 ?_ ?_ ?_ ?_ <;> exact ite_congr_nat (by omega)
  · refine p3 ?_ ?_ ?_ ?_ <;> exact ite_congr_nat (by omega)

theorem calls_count {c : Canvas} {g : Geom} {fb : FB} (h : Ready c g fb) {s : Shape} {ps : List Pt}
    (hp : c.points s = .ok ps) :
    c.calls s = .ok (ps.filter c.visible) ∧ ∀ p, OnScreen c p →
      (ps.filter c.visible).count (phys c.rotate g.getWidth g.getHeight p) =
        ps.count (phys c.rotate g.getWidth g.getHeight p) := by
  refine ⟨by unfold Canvas.calls; rw [hp]; rfl, fun p hs => List.count_filter ?_⟩
  have := (onScreen_iff c p).1 hs
  rw [h.size] at this
  exact this

/-- **C105**, rectangles: a pixel is written once for each of the four sides it lies on – the corners twice, and the pixels of
a rectangle of width or height 1 twice as well. -/
theorem rectangle_writes (c : Canvas) (g : Geom) (fb : FB) (h : Ready c g fb) (r : Rect) (hr : SmallRect r) :
    ∃ qs, c.calls (.rect r) = .ok qs ∧
      ∀ p, OnScreen c p → qs.count (phys c.rotate g.getWidth g.getHeight p) = sides r p := by
  have hW : 0 ≤ g.getWidth ∧ g.getWidth ≤ 2 ^ 28 := ⟨h.wlo, h.whi⟩
  have hH : 0 ≤ g.getHeight ∧ g.getHeight ≤ 2 ^ 28 := ⟨h.hlo, h.hhi⟩
  have hb := physRect_small hW hH c.rotate hr
  have key : ∃ ps, c.points (.rect r) = .ok ps ∧
      ∀ q, ps.count q = sides (physRect c.rotate g.getWidth g.getHeight r) q := by
    show ∃ ps, c.rectPts r = .ok ps ∧ _
    unfold Canvas.rectPts
    rw [transformRect_ok h.size hW hH hr]
    simp only [Res.bind_ok]
    generalize physRect c.rotate g.getWidth g.getHeight r = t at *
    obtain ⟨a, a1, -, -, -, a2⟩ := hLine_count t.topLeft t.size.width (by omega)
    obtain ⟨b, b1, -, -, -, b2⟩ := hLine_count ⟨t.topLeft.x, t.topLeft.y + t.size.height - 1⟩ t.size.width
      (by simp only; omega)
    obtain ⟨d, d1, -, d2⟩ := vLine_count t.topLeft t.size.height (by omega)
    obtain ⟨e, e1, -, e2⟩ := vLine_count ⟨t.topLeft.x + t.size.width - 1, t.topLeft.y⟩ t.size.height (by simp only; omega)
    rw [a1]; simp only [Res.bind_ok]
    rw [bottomLeft_ok (by omega)]; simp only [Res.bind_ok]
    rw [b1]; simp only [Res.bind_ok]
    rw [d1]; simp only [Res.bind_ok]
    rw [topRight_ok (by omega)]; simp only [Res.bind_ok]
    rw [e1]; simp only [Res.bind_ok]
    refine ⟨_, rfl, ?_⟩
    intro q
    rw [List.count_append, List.count_append, List.count_append, a2, b2, d2, e2]
    rfl
  obtain ⟨ps, k1, k2⟩ := key
  obtain ⟨h1, h2⟩ := calls_count h k1
  exact ⟨_, h1, fun p hp => by rw [h2 p hp, k2, sides_phys]⟩

private theorem fillLoop_runs (p : Pt) (w : Int) (n : Nat) (h : -2147483648 ≤ p.x ∧ p.x + max w 0 ≤ 2147483647)
    (ps : List Pt) (hp : fillLoop p w n = .ok ps) : ps.length = n * w.toNat ∧ ps.Nodup ∧ ∀ q ∈ ps, p.y ≤ q.y := by
  induction n generalizing p ps with
  | zero =>
    injection hp with hp
    subst hp
    simp
  | succ n ih =>
    obtain ⟨row, r1, r2, r3, r4, -⟩ := hLine_count p w h
    rw [fillLoop, r1, Res.bind_ok, Res.bind_eq_ok] at hp
    obtain ⟨y, hy, hp⟩ := hp
    rw [Res.bind_eq_ok] at hp
    obtain ⟨qs, hq, hp⟩ := hp
    injection hp with hp
    subst hp
    have hy' := chk_eq hy
    obtain ⟨h1, h2, h3⟩ := ih ⟨p.x, y⟩ h _ hq
    refine ⟨by rw [List.length_append, r2, h1, Nat.add_mul]; omega, ?_, ?_⟩
    · refine List.nodup_append.2 ⟨r3, h2, ?_⟩
      rintro a ha b hb rfl
      have := (r4 a).1 ha
      have := h3 a hb
      simp only at this
      omega
    · intro q hm
      rcases List.mem_append.1 hm with hm | hm
      · have := (r4 q).1 hm
        omega
      · have := h3 q hm
        simp only at this
        omega

/-- **C105**, filled rectangles: no pixel is written twice, and nothing is computed for pixels off the screen. -/
theorem filled_rectangle_writes (c : Canvas) (g : Geom) (fb : FB) (h : Ready c g fb) (r : Rect) (hr : SmallRect r) :
    ∃ qs, c.points (.fillRect r) = .ok qs ∧ c.calls (.fillRect r) = .ok qs ∧ qs.Nodup := by
  have hW : 0 ≤ g.getWidth ∧ g.getWidth ≤ 2 ^ 28 := ⟨h.wlo, h.whi⟩
  have hH : 0 ≤ g.getHeight ∧ g.getHeight ≤ 2 ^ 28 := ⟨h.hlo, h.hhi⟩
  have hb := physRect_small hW hH c.rotate hr
  have key : ∃ ps, c.points (.fillRect r) = .ok ps ∧ ps.Nodup ∧ ∀ q ∈ ps, c.visible q = true := by
    show ∃ ps, c.fillRectPts r = .ok ps ∧ _
    unfold Canvas.fillRectPts
    rw [transformRect_ok h.size hW hH hr]
    simp only [Res.bind_ok]
    generalize physRect c.rotate g.getWidth g.getHeight r = t at *
    rw [bottomRight_ok (by omega) (by omega), h.size]
    simp only [Res.bind_ok]
    rw [chk_ok (v := g.getWidth - 1) (by constructor <;> omega),
      chk_ok (v := g.getHeight - 1) (by constructor <;> omega)]
    simp only [Res.bind_ok]
    rw [chk_ok (v := min (t.topLeft.x + (t.size.width - 1)) (g.getWidth - 1) - max t.topLeft.x 0)
      (by constructor <;> omega)]
    simp only [Res.bind_ok]
    rw [chk_ok (v := min (t.topLeft.x + (t.size.width - 1)) (g.getWidth - 1) - max t.topLeft.x 0 + 1)
      (by constructor <;> omega)]
    simp only [Res.bind_ok]
    obtain ⟨ps, h1, h2⟩ := fillLoop_ok ⟨max t.topLeft.x 0, max t.topLeft.y 0⟩
      (min (t.topLeft.x + (t.size.width - 1)) (g.getWidth - 1) - max t.topLeft.x 0 + 1)
      (min (t.topLeft.y + (t.size.height - 1)) (g.getHeight - 1) - max t.topLeft.y 0 + 1).toNat
      (by simp only; omega) (by simp only; omega)
    obtain ⟨-, h3, -⟩ := fillLoop_runs _ _ _ (by simp only; omega) _ h1
    refine ⟨ps, h1, h3, ?_⟩
    intro q hq
    rw [h2] at hq
    simp only at hq
    rw [visible_iff, h.size]
    simp only
    omega
  obtain ⟨ps, k1, k2, k3⟩ := key
  refine ⟨ps, k1, ?_, k2⟩
  unfold Canvas.calls
  rw [k1, Res.bind_ok, List.filter_eq_self.2 k3]

/-! ## Circles -/

/-- How often a round writes a pixel of its four. -/
def fold (X Y : Int) : Nat := (if X = 0 then 2 else 1) * if Y = 0 then 2 else 1

theorem round_count (center : Pt) (hc : MidPt center) (X Y : Int) (hX : 0 ≤ X ∧ X ≤ 268435456)
    (hY : 0 ≤ Y ∧ Y ≤ 268435456) :
    ∃ ps, circleRound center (-X) Y false = .ok ps ∧ ps.length = 4 ∧
      ∀ q, ps.count q = if |q.x - center.x| = X ∧ |q.y - center.y| = Y then fold X Y else 0 := by
  obtain ⟨⟨c1, c2⟩, c3, c4⟩ := hc
  have hadd : ∀ a b : Int, (-268435456 ≤ a ∧ a ≤ 268435456) → (-268435456 ≤ b ∧ b ≤ 268435456) →
      center.add ⟨a, b⟩ = .ok ⟨center.x + a, center.y + b⟩ := by
    intro a b ha hb
    unfold Pt.add
    simp only
    rw [chk_ok (v := center.x + a) (by constructor <;> omega)]; simp only [Res.bind_ok]
    rw [chk_ok (v := center.y + b) (by constructor <;> omega)]; simp only [Res.bind_ok]
  unfold circleRound
  rw [chk_ok (v := - -X) (by constructor <;> omega)]; simp only [Res.bind_ok]
  rw [chk_ok (v := -Y) (by constructor <;> omega)]; simp only [Res.bind_ok]
  rw [hadd _ _ (by omega) (by omega), hadd _ _ (by omega) (by omega), hadd _ _ (by omega) (by omega),
    hadd _ _ (by omega) (by omega)]
  simp only [Res.bind_ok, Bool.false_eq_true, if_false]
  refine ⟨_, rfl, rfl, ?_⟩
  rintro ⟨x, y⟩
  simp only [List.count_cons, List.count_nil, beq_iff_eq, Pt.mk.injEq, fold]
  have hx : |x - center.x| = X ↔ center.x + - -X = x ∨ center.x + -X = x := by
    rcases abs_cases (x - center.x) with ⟨h1, h2⟩ | ⟨h1, h2⟩ <;> rw [h1] <;> omega
  have hy : |y - center.y| = Y ↔ center.y + Y = y ∨ center.y + -Y = y := by
    rcases abs_cases (y - center.y) with ⟨h1, h2⟩ | ⟨h1, h2⟩ <;> rw [h1] <;> omega
  by_cases a1 : center.x + - -X = x <;> by_cases a2 : center.x + -X = x <;> by_cases b1 : center.y + Y = y <;>
    by_cases b2 : center.y + -Y = y <;> simp only [hx, hy, a1, a2, b1, b2, or_self, or_true, or_false, and_self,
      and_true, and_false, if_true, if_false] <;>
    by_cases a0 : X = 0 <;> by_cases b0 : Y = 0 <;> simp only [a0, b0, if_true, if_false] <;> omega

theorem pend_next {r X Y e X' Y' : Int} (hr : 1 ≤ r) (hr' : r ≤ 268435456) (h : OnCircle r X Y)
    (he : e = offset r X Y - 2 * X + 2 * Y + 2)
    (hs : circleStep (-X) Y e = .ok (-X', Y', offset r X' Y' - 2 * X' + 2 * Y' + 2)) : ¬ Pend X' Y' X Y := by
  obtain ⟨X1, Y1, s1, s2⟩ := circleStep_ok hr (by omega) h he
  rw [hs] at s1
  injection s1 with s1
  injection s1 with e1 s1
  injection s1 with e2 s1
  have e1' : X' = X1 := by omega
  subst e1' e2
  unfold Pend
  rcases s2 with ⟨rfl, rfl, k1, k2⟩ | ⟨rfl, rfl, k1, k2⟩ | ⟨rfl, rfl, k1, k2⟩ <;> split <;> omega

open Classical in
theorem loop_count (center : Pt) (hc : MidPt center) (r : Int) (hr : 1 ≤ r) (hr' : r ≤ 268435456) (n : Nat)
    (X Y e : Int) (h : OnCircle r X Y) (he : e = offset r X Y - 2 * X + 2 * Y + 2) (hn : mu X Y < n) :
    ∃ ps, circleLoop center false (-X) Y e n = .ok ps ∧ (ps.length : Int) ≤ 4 * (mu X Y + 1) ∧
      ∀ q, ps.count q = if OnCircle r |q.x - center.x| |q.y - center.y| ∧ Pend X Y |q.x - center.x| |q.y - center.y|
        then fold |q.x - center.x| |q.y - center.y| else 0 := by
  induction n generalizing X Y e with
  | zero =>
    exfalso
    have := h.1
    unfold mu at hn
    omega
  | succ n ih =>
    obtain ⟨b1, b2⟩ := onCircle_le (by omega) h
    have hmu : 0 ≤ mu X Y := by have := h.1; unfold mu; omega
    obtain ⟨ps, p1, p0, p2⟩ := round_count center hc X Y ⟨h.1, by omega⟩ ⟨h.2.1, by omega⟩
    obtain ⟨X', Y', s1, s2⟩ := circle_next hr (by omega) h he
    have hnext := pend_next hr hr' h he s1
    have hself : Pend X Y X Y := by unfold Pend; split <;> omega
    unfold circleLoop
    rw [p1]; simp only [Res.bind_ok]
    rw [s1]; simp only [Res.bind_ok]
    rcases s2 with ⟨x0, on', m', pend'⟩ | ⟨x1, pend'⟩
    · rw [if_pos (by omega)]
      obtain ⟨qs, q1, q0, q2⟩ := ih X' Y' _ on' rfl (by omega)
      rw [q1]
      refine ⟨_, rfl, by rw [List.length_append]; push_cast; omega, ?_⟩
      intro q
      rw [List.count_append, p2, q2]
      generalize |q.x - center.x| = A
      generalize |q.y - center.y| = B
      by_cases hon : OnCircle r A B
      · have hp := pend' A B hon
        by_cases hAB : A = X ∧ B = Y
        · obtain ⟨rfl, rfl⟩ := hAB
          rw [if_pos ⟨rfl, rfl⟩, if_neg (fun hh => hnext hh.2), if_pos ⟨h, hself⟩]; rfl
        · rw [if_neg hAB]
          by_cases hq : Pend X' Y' A B
          · rw [if_pos ⟨hon, hq⟩, if_pos ⟨hon, hp.2 (.inr hq)⟩]; omega
          · rw [if_neg (fun hh => hq hh.2), if_neg (fun hh => (hp.1 hh.2).elim hAB hq)]
      · have hne : ¬ (A = X ∧ B = Y) := by
          rintro ⟨rfl, rfl⟩
          exact hon h
        rw [if_neg hne, if_neg (fun hh => hon hh.1), if_neg (fun hh => hon hh.1)]
    · rw [if_neg (by omega)]
      refine ⟨_, rfl, by omega, ?_⟩
      intro q
      rw [p2]
      generalize |q.x - center.x| = A
      generalize |q.y - center.y| = B
      by_cases hAB : A = X ∧ B = Y
      · obtain ⟨rfl, rfl⟩ := hAB
        rw [if_pos ⟨rfl, rfl⟩, if_pos ⟨h, hself⟩]
      · rw [if_neg hAB, if_neg]
        rintro ⟨k1, k2⟩
        exact hAB ((pend' A B k1).1 k2)

open Classical in
/-- **C105**, circles: every pixel of the outline is written once, but those straight left, right, above and below of the
centre are written twice; at most `8 * r + 4` pixels are computed. -/
theorem circle_writes (c : Canvas) (g : Geom) (fb : FB) (h : Ready c g fb) (p : Pt) (hp : SmallPt p) (r : Int)
    (hr : 1 ≤ r ∧ r ≤ 268435456) :
    ∃ ps qs, c.points (.circle p r false) = .ok ps ∧ (ps.length : Int) ≤ 8 * r + 4 ∧
      c.calls (.circle p r false) = .ok qs ∧ ∀ q, OnScreen c q → qs.count (phys c.rotate g.getWidth g.getHeight q) =
        if OnCircle r |q.x - p.x| |q.y - p.y| then (if q.x = p.x ∨ q.y = p.y then 2 else 1) else 0 := by
  have h0 : OnCircle r r 0 := by
    have e : offset r r 0 = 0 := by unfold offset; ring
    refine ⟨by omega, Int.le_refl 0, by rw [e]; omega, by rw [e]; omega, by omega⟩
  obtain ⟨ps, p1, p0, p2⟩ := loop_count _ (phys_mid h hp) r hr.1 hr.2 (2 * r.natAbs + 4) r 0 (2 - 2 * r) h0
    (by unfold offset; ring) (by unfold mu; omega)
  have hps : c.points (.circle p r false) = .ok ps := by
    show c.circlePts p r false = _
    unfold Canvas.circlePts
    rw [transform_is_phys c g fb h p (by omega)]; simp only [Res.bind_ok]
    rw [chk_ok (v := -r) (by constructor <;> omega)]; simp only [Res.bind_ok]
    rw [chk_ok (v := 2 * r) (by constructor <;> omega)]; simp only [Res.bind_ok]
    rw [chk_ok (v := 2 - 2 * r) (by constructor <;> omega)]; simp only [Res.bind_ok]
    exact p1
  obtain ⟨h1, h2⟩ := calls_count h hps
  refine ⟨ps, _, hps, by unfold mu at p0; omega, h1, fun q hq => ?_⟩
  rw [h2 q hq, p2]
  have hpend : ∀ A B, OnCircle r A B → Pend r 0 A B := by
    intro A B k
    unfold Pend
    rw [if_pos (by omega)]
    exact k.2.1
  have hfold : ∀ A B, OnCircle r A B → fold A B = if A = 0 ∨ B = 0 then 2 else 1 := by
    intro A B k
    have : ¬ (A = 0 ∧ B = 0) := by
      rintro ⟨rfl, rfl⟩
      have h3 := k.2.2.1
      have e : offset r 0 0 = -(r * r) := by unfold offset; ring
      rw [e] at h3
      have : 1 ≤ r * r := by nlinarith [hr.1]
      simp at h3
      omega
    unfold fold
    by_cases hA : A = 0 <;> by_cases hB : B = 0 <;> simp [hA, hB]; tauto
  have key : ∀ A B A' B' : Int, (A = A' ∧ B = B') ∨ (A = B' ∧ B = A') →
      (if OnCircle r A B ∧ Pend r 0 A B then fold A B else 0) =
        if OnCircle r A' B' then (if A' = 0 ∨ B' = 0 then 2 else 1) else 0 := by
    rintro A B A' B' (⟨rfl, rfl⟩ | ⟨rfl, rfl⟩)
    · by_cases k : OnCircle r A B
      · rw [if_pos ⟨k, hpend A B k⟩, if_pos k, hfold A B k]
      · rw [if_neg (fun hh => k hh.1), if_neg k]
    · by_cases k : OnCircle r A B
      · rw [if_pos ⟨k, hpend A B k⟩, if_pos k.symm, hfold A B k]
        simp only [Or.comm]
      · rw [if_neg (fun hh => k hh.1), if_neg (fun hh => k hh.symm)]
  rw [key _ _ |q.x - p.x| |q.y - p.y| ?_]
  · have e1 : |q.x - p.x| = 0 ↔ q.x = p.x := by rw [abs_eq_zero]; omega
    have e2 : |q.y - p.y| = 0 ↔ q.y = p.y := by rw [abs_eq_zero]; omega
    simp only [e1, e2]
  · rcases phys_dist c.rotate g.getWidth g.getHeight p q with ⟨e1, e2⟩ | ⟨e1, e2⟩
    · exact .inl ⟨e1, e2⟩
    · exact .inr ⟨e1, e2⟩

/-- A line of 4 pixels, a rectangle of 3 x 3 with 12 writes for its 8 pixels, a circle of radius 1 with 8 for 4. -/
example : (Canvas.points ⟨⟨16, 8⟩, .r90⟩ (.line ⟨0, 1⟩ ⟨3, 2⟩)) = .ok [⟨14, 0⟩, ⟨14, 1⟩, ⟨13, 2⟩, ⟨13, 3⟩] ∧
    sides ⟨⟨2, 1⟩, ⟨3, 3⟩⟩ ⟨2, 1⟩ = 2 ∧ sides ⟨⟨2, 1⟩, ⟨3, 3⟩⟩ ⟨2, 2⟩ = 1 ∧ sides ⟨⟨2, 1⟩, ⟨3, 3⟩⟩ ⟨3, 2⟩ = 0 ∧
    OnCircle 1 1 0 := by
  refine ⟨by decide +kernel, by decide, by decide, by decide, ?_⟩
  unfold OnCircle offset
  decide

end Verif.Canvas
