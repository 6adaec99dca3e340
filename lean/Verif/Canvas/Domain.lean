import Verif.Canvas.Exact
/-!
# C142: drawing over the whole range of `int`

The other theorems about drawing are about arguments of screen scale.  Here the arguments are any values of type `int`:
a call is undefined behaviour exactly when one of the sums and differences of a short list is not an `int`, and in every
other case it returns having painted exactly what the others say.
-/
set_option linter.dupNamespace false
namespace Verif.Canvas
open Verif.FrameBuffer

/-! ## Specification -/

/-- The call is undefined behaviour exactly when `bad` holds; otherwise it returns and has painted exactly `S`. -/
def DrawsUnless (c : Canvas) (g : Geom) (fb : FB) (call : Res FB) (bad : Prop) (S : Pt → Prop) : Prop :=
  (bad → call = .ub) ∧ (¬ bad → ∃ fb', call = .ok fb' ∧ Paints c g fb fb' S)

/-- Both coordinates are values of type `int`. -/
def IntPt (p : Pt) : Prop := InInt p.x ∧ InInt p.y

/-- All members are values of type `int`. -/
def IntRect (r : Rect) : Prop := IntPt r.topLeft ∧ InInt r.size.width ∧ InInt r.size.height

/-- The values which must be of type `int` for drawing the outline of a rectangle at `x`, `y` of width `w` and height `h`
on a physical screen of `W` by `H` pixels. -/
def outlineValues (r : Rotation) (W H x y w h : Int) : List Int :=
  match r with
  | .r0 => [x + w, x + w - 1, y + h, y + h - 1]
  | .r90 => [x + w, x + w - 1, y + h, y + h - 1, W - y, W - y - 1, W - y - h]
  | .r180 => [w - 1, h - 1, x + w - 1, y + h - 1, W - x, W - x - 1, W - x - w, H - y, H - y - 1, H - y - h]
  | .r270 => [x + w, x + w - 1, y + h, y + h - 1, H - x, H - x - 1, H - x - w]

/-- The same for a filled rectangle. -/
def fillValues (r : Rotation) (W H x y w h : Int) : List Int :=
  match r with
  | .r0 => [w - 1, h - 1, x + w - 1, y + h - 1]
  | .r90 => [w - 1, h - 1, x + w - 1, y + h, y + h - 1, W - y - 1, W - y - h]
  | .r180 => [w - 1, h - 1, x + w - 1, y + h - 1, W - x - 1, W - x - w, H - y - 1, H - y - h]
  | .r270 => [w - 1, h - 1, x + w, x + w - 1, y + h - 1, H - x - 1, H - x - w]

/-- One of the values is not of type `int`. -/
def Overflow (vs : List Int) : Prop := ∃ v ∈ vs, ¬ InInt v

/-- Going on in the same direction is not possible behind `e`. -/
def AtEdge (s e : Int) : Prop := (s < e ∧ e = 2147483647) ∨ (e < s ∧ e = -2147483648)

/-- A sloped line over `u` can not be finished: the loop counts one step too far in `u`, and in `v` too if the line is
steep. -/
def SlopedOverflow (u v : Pt → Int) (a b : Pt) : Prop :=
  max (u a) (u b) = 2147483647 ∨
    (|u b - u a| / 2 < |v b - v a| ∧ (u a < u b ∧ AtEdge (v a) (v b) ∨ u b < u a ∧ AtEdge (v b) (v a)))

/-- A line between the physical points `a` and `b` can not be drawn. -/
def LineOverflow (a b : Pt) : Prop :=
  ¬ IntPt a ∨ ¬ IntPt b ∨ 2147483647 < |b.x - a.x| ∨ 2147483647 < |b.y - a.y| ∨
    (if a.x = b.x then |b.y - a.y| = 2147483647 ∨ max a.y b.y = 2147483647
      else if a.y = b.y then |b.x - a.x| = 2147483647 ∨ max a.x b.x = 2147483647
      else if |b.x - a.x| < |b.y - a.y| then SlopedOverflow Pt.y Pt.x a b
      else SlopedOverflow Pt.x Pt.y a b)

/-! ## Tools -/

theorem chk_eq_ok {v w : Int} : chk v = .ok w ↔ InInt v ∧ w = v := by
  unfold chk
  split
  · next h => exact ⟨fun e => by injection e with e; exact ⟨h, e.symm⟩, fun e => by rw [e.2]⟩
  · next h => exact ⟨fun e => (by cases e), fun e => absurd e.1 h⟩

/-- The computation returns or is undefined. -/
def Ends {α : Type} (r : Res α) : Prop := r ≠ .hang

theorem Ends.ok {α : Type} (a : α) : Ends (Res.ok a) := by intro h; cases h

theorem Ends.chk (v : Int) : Ends (chk v) := by
  unfold FrameBuffer.chk Ends
  split <;> (intro h; cases h)

theorem Ends.bind {α β : Type} {x : Res α} {f : α → Res β} (hx : Ends x) (hf : ∀ a, Ends (f a)) : Ends (x >>= f) := by
  cases x with
  | ok a => exact hf a
  | ub => intro h; cases h
  | hang => exact absurd rfl hx

theorem Ends.ub {α : Type} {r : Res α} (h : Ends r) (hn : ∀ a, r ≠ .ok a) : r = .ub := by
  cases r with
  | ok a => exact absurd rfl (hn a)
  | ub => rfl
  | hang => exact absurd rfl h

theorem Ends.transformPt (c : Canvas) (p : Pt) : Ends (c.transformPt p) := by
  unfold Canvas.transformPt
  cases c.rotate
  · exact Ends.ok _
  · exact (Ends.chk _).bind fun _ => (Ends.chk _).bind fun _ => Ends.ok _
  · exact (Ends.chk _).bind fun _ => (Ends.chk _).bind fun _ => (Ends.chk _).bind fun _ => (Ends.chk _).bind fun _ =>
      Ends.ok _
  · exact (Ends.chk _).bind fun _ => (Ends.chk _).bind fun _ => Ends.ok _

theorem Ends.bottomLeft (r : Rect) : Ends r.bottomLeft :=
  (Ends.chk _).bind fun _ => (Ends.chk _).bind fun _ => Ends.ok _

theorem Ends.topRight (r : Rect) : Ends r.topRight :=
  (Ends.chk _).bind fun _ => (Ends.chk _).bind fun _ => Ends.ok _

theorem Ends.bottomRight (r : Rect) : Ends r.bottomRight :=
  Ends.bind ((Ends.chk _).bind fun _ => (Ends.chk _).bind fun _ => Ends.ok _)
    fun _ => (Ends.chk _).bind fun _ => (Ends.chk _).bind fun _ => Ends.ok _

theorem Ends.transformRect (c : Canvas) (r : Rect) : Ends (c.transformRect r) := by
  unfold Canvas.transformRect
  cases c.rotate
  · exact Ends.ok _
  · exact (Ends.bottomLeft _).bind fun _ => (Ends.transformPt _ _).bind fun _ => Ends.ok _
  · exact (Ends.bottomRight _).bind fun _ => (Ends.transformPt _ _).bind fun _ => Ends.ok _
  · exact (Ends.topRight _).bind fun _ => (Ends.transformPt _ _).bind fun _ => Ends.ok _

theorem Ends.hLine (p : Pt) (w : Int) : Ends (hLine p w) := by
  unfold Canvas.hLine
  generalize w.toNat = n
  induction n generalizing p with
  | zero => exact Ends.ok _
  | succ n ih => exact (Ends.chk _).bind fun _ => (ih _).bind fun _ => Ends.ok _

theorem Ends.vLine (p : Pt) (w : Int) : Ends (vLine p w) := by
  unfold Canvas.vLine
  generalize w.toNat = n
  induction n generalizing p with
  | zero => exact Ends.ok _
  | succ n ih => exact (Ends.chk _).bind fun _ => (ih _).bind fun _ => Ends.ok _

theorem Ends.fillLoop (p : Pt) (w : Int) (n : Nat) : Ends (fillLoop p w n) := by
  induction n generalizing p with
  | zero => exact Ends.ok _
  | succ n ih => exact (Ends.hLine _ _).bind fun _ => (Ends.chk _).bind fun _ => (ih _).bind fun _ => Ends.ok _

theorem hLine_needs {p : Pt} {w : Int} {ps : List Pt} (h : hLine p w = .ok ps) (hp : InInt p.x) (hw : 0 < w) :
    p.x + w ≤ 2147483647 := by
  unfold hLine at h
  have key : ∀ (n : Nat) (p : Pt) (ps : List Pt), hLoop p n = .ok ps → InInt p.x → p.x + n ≤ 2147483647 := by
    intro n
    induction n with
    | zero => intro p ps _ hp; simp only [Int.natCast_zero, Int.add_zero]; exact hp.2
    | succ n ih =>
      intro p ps h hp
      simp only [hLoop] at h
      obtain ⟨x, hx, h⟩ := Res.bind_eq_ok.1 h
      obtain ⟨ps', h', _⟩ := Res.bind_eq_ok.1 h
      obtain ⟨h1, h2⟩ := chk_eq_ok.1 hx
      have := ih _ _ h' (by rw [h2]; exact h1)
      simp only at this
      push_cast
      omega
  have := key _ _ _ h hp
  omega

theorem vLine_needs {p : Pt} {w : Int} {ps : List Pt} (h : vLine p w = .ok ps) (hp : InInt p.y) (hw : 0 < w) :
    p.y + w ≤ 2147483647 := by
  unfold vLine at h
  have key : ∀ (n : Nat) (p : Pt) (ps : List Pt), vLoop p n = .ok ps → InInt p.y → p.y + n ≤ 2147483647 := by
    intro n
    induction n with
    | zero => intro p ps _ hp; simp only [Int.natCast_zero, Int.add_zero]; exact hp.2
    | succ n ih =>
      intro p ps h hp
      simp only [vLoop] at h
      obtain ⟨x, hx, h⟩ := Res.bind_eq_ok.1 h
      obtain ⟨ps', h', _⟩ := Res.bind_eq_ok.1 h
      obtain ⟨h1, h2⟩ := chk_eq_ok.1 hx
      have := ih _ _ h' (by rw [h2]; exact h1)
      simp only at this
      push_cast
      omega
  have := key _ _ _ h hp
  omega

theorem bottomLeft_iff {r : Rect} {q : Pt} : r.bottomLeft = .ok q ↔
    (InInt (r.topLeft.y + r.size.height) ∧ InInt (r.topLeft.y + r.size.height - 1)) ∧
      q = ⟨r.topLeft.x, r.topLeft.y + r.size.height - 1⟩ := by
  unfold Rect.bottomLeft
  constructor
  · intro h
    obtain ⟨a, ha, h⟩ := Res.bind_eq_ok.1 h
    obtain ⟨y, hy, h⟩ := Res.bind_eq_ok.1 h
    obtain ⟨h1, rfl⟩ := chk_eq_ok.1 ha
    obtain ⟨h2, rfl⟩ := chk_eq_ok.1 hy
    injection h with h
    exact ⟨⟨h1, h2⟩, h.symm⟩
  · rintro ⟨⟨h1, h2⟩, rfl⟩
    rw [chk_ok h1]; simp only [Res.bind_ok]; rw [chk_ok h2]; rfl

theorem topRight_iff {r : Rect} {q : Pt} : r.topRight = .ok q ↔
    (InInt (r.topLeft.x + r.size.width) ∧ InInt (r.topLeft.x + r.size.width - 1)) ∧
      q = ⟨r.topLeft.x + r.size.width - 1, r.topLeft.y⟩ := by
  unfold Rect.topRight
  constructor
  · intro h
    obtain ⟨a, ha, h⟩ := Res.bind_eq_ok.1 h
    obtain ⟨y, hy, h⟩ := Res.bind_eq_ok.1 h
    obtain ⟨h1, rfl⟩ := chk_eq_ok.1 ha
    obtain ⟨h2, rfl⟩ := chk_eq_ok.1 hy
    injection h with h
    exact ⟨⟨h1, h2⟩, h.symm⟩
  · rintro ⟨⟨h1, h2⟩, rfl⟩
    rw [chk_ok h1]; simp only [Res.bind_ok]; rw [chk_ok h2]; rfl

theorem bottomRight_iff {r : Rect} {q : Pt} : r.bottomRight = .ok q ↔
    (InInt (r.size.width - 1) ∧ InInt (r.size.height - 1) ∧ InInt (r.topLeft.x + (r.size.width - 1)) ∧
      InInt (r.topLeft.y + (r.size.height - 1))) ∧
      q = ⟨r.topLeft.x + (r.size.width - 1), r.topLeft.y + (r.size.height - 1)⟩ := by
  unfold Rect.bottomRight Sz.sub Pt.add
  constructor
  · intro h
    obtain ⟨s, hs, h⟩ := Res.bind_eq_ok.1 h
    obtain ⟨a, ha, hs⟩ := Res.bind_eq_ok.1 hs
    obtain ⟨b, hb, hs⟩ := Res.bind_eq_ok.1 hs
    injection hs with hs
    obtain ⟨h1, rfl⟩ := chk_eq_ok.1 ha
    obtain ⟨h2, rfl⟩ := chk_eq_ok.1 hb
    subst hs
    obtain ⟨x, hx, h⟩ := Res.bind_eq_ok.1 h
    obtain ⟨y, hy, h⟩ := Res.bind_eq_ok.1 h
    obtain ⟨h3, rfl⟩ := chk_eq_ok.1 hx
    obtain ⟨h4, rfl⟩ := chk_eq_ok.1 hy
    injection h with h
    exact ⟨⟨h1, h2, h3, h4⟩, h.symm⟩
  · rintro ⟨⟨h1, h2, h3, h4⟩, rfl⟩
    rw [chk_ok h1, chk_ok h2]; simp only [Res.bind_ok]; rw [chk_ok h3, chk_ok h4]; rfl

theorem transformPt_iff {c : Canvas} {W H : Int} (hs : c.size = ⟨W, H⟩) (hW : 0 ≤ W ∧ W ≤ 2 ^ 28)
    (hH : 0 ≤ H ∧ H ≤ 2 ^ 28) {p q : Pt} (hp : IntPt p) :
    c.transformPt p = .ok q ↔ IntPt (phys c.rotate W H p) ∧ q = phys c.rotate W H p := by
  obtain ⟨x, y⟩ := p
  obtain ⟨s, r⟩ := c
  simp only at hs
  subst hs
  have cW : chk (W - 1) = .ok (W - 1) := chk_ok (by constructor <;> omega)
  have cH : chk (H - 1) = .ok (H - 1) := chk_ok (by constructor <;> omega)
  cases r
  · simp only [Canvas.transformPt, phys]
    exact ⟨fun h => by injection h with h; exact ⟨hp, h.symm⟩, fun h => by rw [h.2]⟩
  · simp only [Canvas.transformPt, phys]
    rw [cW]; simp only [Res.bind_ok]
    constructor
    · intro h
      obtain ⟨a, ha, h⟩ := Res.bind_eq_ok.1 h
      obtain ⟨h1, rfl⟩ := chk_eq_ok.1 ha
      injection h with h
      exact ⟨⟨h1, hp.1⟩, h.symm⟩
    · rintro ⟨h, rfl⟩
      rw [chk_ok h.1]; rfl
  · simp only [Canvas.transformPt, phys]
    rw [cW, cH]; simp only [Res.bind_ok]
    constructor
    · intro h
      obtain ⟨a, ha, h⟩ := Res.bind_eq_ok.1 h
      obtain ⟨b, hb, h⟩ := Res.bind_eq_ok.1 h
      obtain ⟨h1, rfl⟩ := chk_eq_ok.1 ha
      obtain ⟨h2, rfl⟩ := chk_eq_ok.1 hb
      injection h with h
      exact ⟨⟨h1, h2⟩, h.symm⟩
    · rintro ⟨h, rfl⟩
      rw [chk_ok h.1, chk_ok h.2]; rfl
  · simp only [Canvas.transformPt, phys]
    rw [cH]; simp only [Res.bind_ok]
    constructor
    · intro h
      obtain ⟨a, ha, h⟩ := Res.bind_eq_ok.1 h
      obtain ⟨h1, rfl⟩ := chk_eq_ok.1 ha
      injection h with h
      exact ⟨⟨hp.2, h1⟩, h.symm⟩
    · rintro ⟨h, rfl⟩
      rw [chk_ok h.2]; rfl

/-- The values which must be of type `int` for transforming a rectangle. -/
def turnValues (r : Rotation) (W H x y w h : Int) : List Int :=
  match r with
  | .r0 => []
  | .r90 => [y + h, y + h - 1, W - y - h]
  | .r180 => [w - 1, h - 1, x + w - 1, y + h - 1, W - x - w, H - y - h]
  | .r270 => [x + w, x + w - 1, H - x - w]

theorem transformRect_iff {c : Canvas} {W H : Int} (hs : c.size = ⟨W, H⟩) (hW : 0 ≤ W ∧ W ≤ 2 ^ 28)
    (hH : 0 ≤ H ∧ H ≤ 2 ^ 28) {r q : Rect} (hr : IntRect r) :
    c.transformRect r = .ok q ↔
      ¬ Overflow (turnValues c.rotate W H r.topLeft.x r.topLeft.y r.size.width r.size.height) ∧
        q = physRect c.rotate W H r := by
  obtain ⟨⟨x, y⟩, ⟨w, h⟩⟩ := r
  obtain ⟨⟨hx, hy⟩, hw, hh⟩ := hr
  simp only at hx hy hw hh
  unfold Canvas.transformRect
  cases hrot : c.rotate
  · simp only [turnValues, Overflow, physRect, List.not_mem_nil, false_and, exists_false, not_false_eq_true, true_and]
    exact ⟨fun h => by injection h with h; exact h.symm, fun h => by rw [h]⟩
  · simp only [turnValues, Overflow, physRect, List.mem_cons, List.not_mem_nil, or_false, exists_eq_or_imp, exists_eq_left,
      not_or, not_not]
    constructor
    · intro e
      obtain ⟨p, hp, e⟩ := Res.bind_eq_ok.1 e
      obtain ⟨t, ht, e⟩ := Res.bind_eq_ok.1 e
      obtain ⟨⟨h1, h2⟩, rfl⟩ := bottomLeft_iff.1 hp
      obtain ⟨⟨h3, h4⟩, rfl⟩ := (transformPt_iff hs hW hH ⟨hx, h2⟩).1 ht
      injection e with e
      simp only [hrot, phys] at h3 h4 e h1 h2
      refine ⟨⟨h1, h2, ?_⟩, e.symm⟩
      exact ⟨by omega, by omega⟩
    · rintro ⟨⟨h1, h2, h3⟩, rfl⟩
      rw [bottomLeft_iff.2 ⟨⟨h1, h2⟩, rfl⟩]
      simp only [Res.bind_ok]
      rw [(transformPt_iff hs hW hH ⟨hx, h2⟩).2 ⟨by rw [hrot]; exact ⟨⟨by simp only [phys]; omega, by simp only [phys]; omega⟩, hx⟩, rfl⟩, hrot]
      rfl
  · simp only [turnValues, Overflow, physRect, List.mem_cons, List.not_mem_nil, or_false, exists_eq_or_imp, exists_eq_left,
      not_or, not_not]
    constructor
    · intro e
      obtain ⟨p, hp, e⟩ := Res.bind_eq_ok.1 e
      obtain ⟨t, ht, e⟩ := Res.bind_eq_ok.1 e
      obtain ⟨⟨h1, h2, h5, h6⟩, rfl⟩ := bottomRight_iff.1 hp
      obtain ⟨⟨h3, h4⟩, rfl⟩ := (transformPt_iff hs hW hH ⟨h5, h6⟩).1 ht
      injection e with e
      simp only [hrot, phys] at h3 h4 e h1 h2 h5 h6
      refine ⟨⟨h1, h2, ⟨by omega, by omega⟩, ⟨by omega, by omega⟩, ⟨by omega, by omega⟩, ⟨by omega, by omega⟩⟩, e.symm⟩
    · rintro ⟨⟨h1, h2, h5, h6, h3, h4⟩, rfl⟩
      have h5' : InInt (x + (w - 1)) := ⟨by omega, by omega⟩
      have h6' : InInt (y + (h - 1)) := ⟨by omega, by omega⟩
      rw [bottomRight_iff.2 ⟨⟨h1, h2, h5', h6'⟩, rfl⟩]
      simp only [Res.bind_ok]
      rw [(transformPt_iff hs hW hH ⟨h5', h6'⟩).2
        ⟨by rw [hrot]; exact ⟨⟨by simp only [phys]; omega, by simp only [phys]; omega⟩, ⟨by simp only [phys]; omega, by simp only [phys]; omega⟩⟩, rfl⟩, hrot]
      rfl
  · simp only [turnValues, Overflow, physRect, List.mem_cons, List.not_mem_nil, or_false, exists_eq_or_imp, exists_eq_left,
      not_or, not_not]
    constructor
    · intro e
      obtain ⟨p, hp, e⟩ := Res.bind_eq_ok.1 e
      obtain ⟨t, ht, e⟩ := Res.bind_eq_ok.1 e
      obtain ⟨⟨h1, h2⟩, rfl⟩ := topRight_iff.1 hp
      obtain ⟨⟨h3, h4⟩, rfl⟩ := (transformPt_iff hs hW hH ⟨h2, hy⟩).1 ht
      injection e with e
      simp only [hrot, phys] at h3 h4 e h1 h2
      refine ⟨⟨h1, h2, ?_⟩, e.symm⟩
      exact ⟨by omega, by omega⟩
    · rintro ⟨⟨h1, h2, h3⟩, rfl⟩
      rw [topRight_iff.2 ⟨⟨h1, h2⟩, rfl⟩]
      simp only [Res.bind_ok]
      rw [(transformPt_iff hs hW hH ⟨h2, hy⟩).2 ⟨by rw [hrot]; exact ⟨hy, ⟨by simp only [phys]; omega, by simp only [phys]; omega⟩⟩, rfl⟩, hrot]
      rfl

/-! ## Pixels and rectangles -/

/-- **C142**: `drawPixel`. -/
theorem drawPixel_domain (c : Canvas) (g : Geom) (fb : FB) (h : Ready c g fb) (p : Pt) (hp : IntPt p) :
    DrawsUnless c g fb (c.drawPixel g fb p) (¬ IntPt (phys c.rotate g.getWidth g.getHeight p)) (fun q => q = p) := by
  have ht := fun q => transformPt_iff (q := q) h.size ⟨h.wlo, h.whi⟩ ⟨h.hlo, h.hhi⟩ hp
  unfold Canvas.drawPixel Canvas.pixelPts
  constructor
  · intro hb
    rw [(Ends.transformPt c p).ub (fun a ha => hb ((ht a).1 ha).1)]
    rfl
  · intro hb
    rw [(ht _).2 ⟨not_not.1 hb, rfl⟩]
    simp only [Res.bind_ok]
    apply paint_paints h
    intro q _
    rw [List.mem_singleton]
    exact ⟨fun e => phys_inj _ _ _ e, fun e => by rw [e]⟩

private theorem outline_turned (rot : Rotation) (W H : Int) (r : Rect) (p : Pt) :
    outline (physRect rot W H r) (phys rot W H p) ↔ outline r p := by
  obtain ⟨⟨x, y⟩, ⟨w, h⟩⟩ := r
  obtain ⟨a, b⟩ := p
  cases rot <;> simp only [outline, physRect, phys] <;> omega

/-- **C142**: `drawRectangle`; for positive sizes `outline` is the border (`drawRectangle_border`). -/
theorem drawRectangle_domain (c : Canvas) (g : Geom) (fb : FB) (h : Ready c g fb) (r : Rect) (hr : IntRect r) :
    DrawsUnless c g fb (c.drawRectangle g fb r)
      (Overflow (outlineValues c.rotate g.getWidth g.getHeight r.topLeft.x r.topLeft.y r.size.width r.size.height))
      (outline r) := by
  have hW : 0 ≤ g.getWidth ∧ g.getWidth ≤ 2 ^ 28 := ⟨h.wlo, h.whi⟩
  have hH : 0 ≤ g.getHeight ∧ g.getHeight ≤ 2 ^ 28 := ⟨h.hlo, h.hhi⟩
  have ht := fun q => transformRect_iff (q := q) h.size hW hH hr
  have hvals : (¬ Overflow (turnValues c.rotate g.getWidth g.getHeight r.topLeft.x r.topLeft.y r.size.width r.size.height) ∧
      (InInt ((physRect c.rotate g.getWidth g.getHeight r).topLeft.y + (physRect c.rotate g.getWidth g.getHeight r).size.height) ∧
        InInt ((physRect c.rotate g.getWidth g.getHeight r).topLeft.y + (physRect c.rotate g.getWidth g.getHeight r).size.height - 1)) ∧
      (InInt ((physRect c.rotate g.getWidth g.getHeight r).topLeft.x + (physRect c.rotate g.getWidth g.getHeight r).size.width) ∧
        InInt ((physRect c.rotate g.getWidth g.getHeight r).topLeft.x + (physRect c.rotate g.getWidth g.getHeight r).size.width - 1))) ↔
      ¬ Overflow (outlineValues c.rotate g.getWidth g.getHeight r.topLeft.x r.topLeft.y r.size.width r.size.height) := by
    obtain ⟨⟨x, y⟩, ⟨w, hh⟩⟩ := r
    obtain ⟨⟨h1, h2⟩, h3, h4⟩ := hr
    simp only at h1 h2 h3 h4
    cases c.rotate <;>
      simp only [turnValues, outlineValues, Overflow, physRect, List.mem_cons, List.not_mem_nil, or_false, exists_eq_or_imp,
        exists_eq_left, not_or, not_not, false_and, exists_false, not_false_eq_true, true_and] <;>
      omega
  have hin : ¬ Overflow (turnValues c.rotate g.getWidth g.getHeight r.topLeft.x r.topLeft.y r.size.width r.size.height) →
      IntPt (physRect c.rotate g.getWidth g.getHeight r).topLeft := by
    obtain ⟨⟨x, y⟩, ⟨w, hh⟩⟩ := r
    obtain ⟨⟨h1, h2⟩, h3, h4⟩ := hr
    simp only at h1 h2 h3 h4
    unfold IntPt
    cases c.rotate <;>
      simp only [turnValues, Overflow, physRect, List.mem_cons, List.not_mem_nil, or_false, exists_eq_or_imp,
        exists_eq_left, not_or, not_not, false_and, exists_false, not_false_eq_true] <;>
      omega
  have ends : Ends (c.rectPts r) := by
    unfold Canvas.rectPts
    exact (Ends.transformRect _ _).bind fun _ => (Ends.hLine _ _).bind fun _ => (Ends.bottomLeft _).bind fun _ =>
      (Ends.hLine _ _).bind fun _ => (Ends.vLine _ _).bind fun _ => (Ends.topRight _).bind fun _ =>
      (Ends.vLine _ _).bind fun _ => Ends.ok _
  constructor
  · intro hb
    unfold Canvas.drawRectangle
    have : c.rectPts r = .ub := by
      refine ends.ub fun ps hps => ?_
      unfold Canvas.rectPts at hps
      obtain ⟨t, e1, hps⟩ := Res.bind_eq_ok.1 hps
      obtain ⟨_, _, hps⟩ := Res.bind_eq_ok.1 hps
      obtain ⟨_, e2, hps⟩ := Res.bind_eq_ok.1 hps
      obtain ⟨_, _, hps⟩ := Res.bind_eq_ok.1 hps
      obtain ⟨_, _, hps⟩ := Res.bind_eq_ok.1 hps
      obtain ⟨_, e3, hps⟩ := Res.bind_eq_ok.1 hps
      obtain ⟨k1, rfl⟩ := (ht t).1 e1
      exact hvals.1 ⟨k1, (bottomLeft_iff.1 e2).1, (topRight_iff.1 e3).1⟩ hb
    rw [this]
    rfl
  · intro hb
    obtain ⟨k1, k2, k3⟩ := hvals.2 hb
    have k4 := hin k1
    have key : ∃ ps, c.rectPts r = .ok ps ∧ ∀ q, q ∈ ps ↔ outline (physRect c.rotate g.getWidth g.getHeight r) q := by
      unfold Canvas.rectPts
      rw [(ht _).2 ⟨k1, rfl⟩]
      simp only [Res.bind_ok]
      generalize physRect c.rotate g.getWidth g.getHeight r = t at k2 k3 k4 ⊢
      obtain ⟨k4, k5⟩ := k4
      obtain ⟨a, a1, a2⟩ := hLine_ok t.topLeft t.size.width (by omega)
      obtain ⟨b, b1, b2⟩ := hLine_ok ⟨t.topLeft.x, t.topLeft.y + t.size.height - 1⟩ t.size.width (by simp only; omega)
      obtain ⟨d, d1, d2⟩ := vLine_ok t.topLeft t.size.height (by omega)
      obtain ⟨e, e1, e2⟩ := vLine_ok ⟨t.topLeft.x + t.size.width - 1, t.topLeft.y⟩ t.size.height (by simp only; omega)
      rw [a1]; simp only [Res.bind_ok]
      rw [bottomLeft_iff.2 ⟨k2, rfl⟩]; simp only [Res.bind_ok]
      rw [b1]; simp only [Res.bind_ok]
      rw [d1]; simp only [Res.bind_ok]
      rw [topRight_iff.2 ⟨k3, rfl⟩]; simp only [Res.bind_ok]
      rw [e1]; simp only [Res.bind_ok]
      refine ⟨_, rfl, ?_⟩
      intro q
      simp only [List.mem_append, a2, b2, d2, e2, outline]
      omega
    obtain ⟨ps, p1, p2⟩ := key
    unfold Canvas.drawRectangle
    rw [p1]
    apply paint_paints h
    intro p _
    rw [p2, outline_turned]

/-- **C142**: `drawFilledRectangle`. -/
theorem drawFilledRectangle_domain (c : Canvas) (g : Geom) (fb : FB) (h : Ready c g fb) (r : Rect) (hr : IntRect r) :
    DrawsUnless c g fb (c.drawFilledRectangle g fb r)
      (Overflow (fillValues c.rotate g.getWidth g.getHeight r.topLeft.x r.topLeft.y r.size.width r.size.height))
      (inRect r) := by
  have hW : 0 ≤ g.getWidth ∧ g.getWidth ≤ 2 ^ 28 := ⟨h.wlo, h.whi⟩
  have hH : 0 ≤ g.getHeight ∧ g.getHeight ≤ 2 ^ 28 := ⟨h.hlo, h.hhi⟩
  have ht := fun q => transformRect_iff (q := q) h.size hW hH hr
  have hvals : (¬ Overflow (turnValues c.rotate g.getWidth g.getHeight r.topLeft.x r.topLeft.y r.size.width r.size.height) ∧
      InInt ((physRect c.rotate g.getWidth g.getHeight r).size.width - 1) ∧
      InInt ((physRect c.rotate g.getWidth g.getHeight r).size.height - 1) ∧
      InInt ((physRect c.rotate g.getWidth g.getHeight r).topLeft.x + ((physRect c.rotate g.getWidth g.getHeight r).size.width - 1)) ∧
      InInt ((physRect c.rotate g.getWidth g.getHeight r).topLeft.y + ((physRect c.rotate g.getWidth g.getHeight r).size.height - 1))) ↔
      ¬ Overflow (fillValues c.rotate g.getWidth g.getHeight r.topLeft.x r.topLeft.y r.size.width r.size.height) := by
    obtain ⟨⟨x, y⟩, ⟨w, hh⟩⟩ := r
    obtain ⟨⟨h1, h2⟩, h3, h4⟩ := hr
    simp only at h1 h2 h3 h4
    cases c.rotate <;>
      simp only [turnValues, fillValues, Overflow, physRect, List.mem_cons, List.not_mem_nil, or_false, exists_eq_or_imp,
        exists_eq_left, not_or, not_not, false_and, exists_false, not_false_eq_true, true_and] <;>
      omega
  have hin : ¬ Overflow (turnValues c.rotate g.getWidth g.getHeight r.topLeft.x r.topLeft.y r.size.width r.size.height) →
      IntRect (physRect c.rotate g.getWidth g.getHeight r) := by
    obtain ⟨⟨x, y⟩, ⟨w, hh⟩⟩ := r
    obtain ⟨⟨h1, h2⟩, h3, h4⟩ := hr
    simp only at h1 h2 h3 h4
    unfold IntRect IntPt
    cases c.rotate <;>
      simp only [turnValues, Overflow, physRect, List.mem_cons, List.not_mem_nil, or_false, exists_eq_or_imp,
        exists_eq_left, not_or, not_not, false_and, exists_false, not_false_eq_true] <;>
      omega
  have ends : Ends (c.fillRectPts r) := by
    unfold Canvas.fillRectPts
    exact (Ends.transformRect _ _).bind fun _ => (Ends.bottomRight _).bind fun _ => (Ends.chk _).bind fun _ =>
      (Ends.chk _).bind fun _ => (Ends.chk _).bind fun _ => (Ends.chk _).bind fun _ => Ends.fillLoop _ _ _
  constructor
  · intro hb
    unfold Canvas.drawFilledRectangle
    have : c.fillRectPts r = .ub := by
      refine ends.ub fun ps hps => ?_
      unfold Canvas.fillRectPts at hps
      obtain ⟨t, e1, hps⟩ := Res.bind_eq_ok.1 hps
      obtain ⟨_, e2, hps⟩ := Res.bind_eq_ok.1 hps
      obtain ⟨k1, rfl⟩ := (ht t).1 e1
      exact hvals.1 ⟨k1, (bottomRight_iff.1 e2).1⟩ hb
    rw [this]
    rfl
  · intro hb
    obtain ⟨k1, k2⟩ := hvals.2 hb
    have k4 := hin k1
    have key : ∃ ps, c.fillRectPts r = .ok ps ∧ ∀ q, InRange g q.x q.y →
        (q ∈ ps ↔ inRect (physRect c.rotate g.getWidth g.getHeight r) q) := by
      unfold Canvas.fillRectPts
      rw [(ht _).2 ⟨k1, rfl⟩]
      simp only [Res.bind_ok]
      generalize physRect c.rotate g.getWidth g.getHeight r = t at k2 k4 ⊢
      obtain ⟨⟨k5, k6⟩, k7, k8⟩ := k4
      rw [bottomRight_iff.2 ⟨k2, rfl⟩, h.size]
      simp only [Res.bind_ok]
      rw [chk_ok (v := g.getWidth - 1) (by constructor <;> omega),
        chk_ok (v := g.getHeight - 1) (by constructor <;> omega)]
      simp only [Res.bind_ok]
      rw [chk_ok (v := min (t.topLeft.x + (t.size.width - 1)) (g.getWidth - 1) - max t.topLeft.x 0)
        (by constructor <;> omega)]
      simp only [Res.bind_ok]
      rw [chk_ok (v := min (t.topLeft.x + (t.size.width - 1)) (g.getWidth - 1) - max t.topLeft.x 0 + 1)
        (by constructor <;> omega)]
      simp only [Res.bind_ok]
      obtain ⟨ps, h1, h2⟩ := fillLoop_ok ⟨max t.topLeft.x 0, max t.topLeft.y 0⟩
        (min (t.topLeft.x + (t.size.width - 1)) (g.getWidth - 1) - max t.topLeft.x 0 + 1)
        (min (t.topLeft.y + (t.size.height - 1)) (g.getHeight - 1) - max t.topLeft.y 0 + 1).toNat
        (by simp only; omega) (by simp only; omega)
      refine ⟨ps, h1, ?_⟩
      intro q hq
      obtain ⟨q1, q2, q3, q4⟩ := hq
      rw [h2]
      simp only [inRect]
      omega
    obtain ⟨ps, p1, p2⟩ := key
    unfold Canvas.drawFilledRectangle
    rw [p1]
    apply paint_paints h
    intro p hp
    rw [p2 _ (((rotation_bijective c g fb h).1 p).1 hp), physRect_mem]

/-! ## Lines -/

/-- The loop, from a state in the middle of the line; `M` is how many steps are left in the short coordinate, counting the
one the last pass may take behind the end. -/
theorem bresLoop_domain (mv : Bool) (S L sg : Int) (hS : 0 ≤ S) (hSL : S ≤ L) (hL : 0 < L) (hL' : L ≤ 2147483647)
    (hsg : sg = 1 ∨ sg = -1) (n : Nat) (l s e M : Int) (he : 0 ≤ e ∧ e < L) (hM : 0 ≤ M)
    (hm : 0 ≤ e - n * S + M * L ∧ e - n * S + M * L < L) (hl : InInt l) (hs : InInt s) :
    (l + n ≤ 2147483647 ∧ InInt (s + sg * M) → ∃ ps, bresLoop mv S L sg l s e n = .ok ps ∧
      ∀ q, q ∈ ps ↔ ∃ j m : Int, (0 ≤ j ∧ j < n) ∧ 0 ≤ m ∧ q = ptOf mv (l + j) (s + sg * m) ∧
        0 ≤ e - j * S + m * L ∧ e - j * S + m * L < L) ∧
    (∀ ps, bresLoop mv S L sg l s e n = .ok ps → l + n ≤ 2147483647 ∧ InInt (s + sg * M)) := by
  induction n generalizing l s e M with
  | zero =>
    have hM0 : M = 0 := by
      simp only [Int.natCast_zero] at hm
      by_contra hne
      have : 1 ≤ M := by omega
      nlinarith
    subst hM0
    refine ⟨fun _ => ⟨[], rfl, ?_⟩, fun _ _ => ⟨by simp only [Int.natCast_zero, Int.add_zero]; exact hl.2, by simpa using hs⟩⟩
    intro q
    simp only [List.not_mem_nil, false_iff]
    rintro ⟨j, m, h, _⟩
    simp only [Int.natCast_zero] at h
    omega
  | succ n ih =>
    push_cast at hm
    push_cast
    -- the state after the step
    obtain ⟨d, hd, hd1, hd0⟩ : ∃ d : Int, (d = 0 ∨ d = 1) ∧ (d = 1 → e - S < 0) ∧ (d = 0 → ¬ e - S < 0) := by
      by_cases hc : e - S < 0
      · exact ⟨1, .inr rfl, fun _ => hc, fun h => by omega⟩
      · exact ⟨0, .inl rfl, fun h => by omega, fun _ => hc⟩
    have he' : 0 ≤ e - S + d * L ∧ e - S + d * L < L := by
      rcases hd with rfl | rfl
      · have := hd0 rfl; omega
      · have := hd1 rfl; omega
    have hMd : 0 ≤ M - d := by
      rcases hd with rfl | rfl
      · omega
      · have h1 := hd1 rfl
        by_contra hne
        have : M = 0 := by omega
        subst this
        nlinarith
    have hm' : 0 ≤ e - S + d * L - n * S + (M - d) * L ∧ e - S + d * L - n * S + (M - d) * L < L := by
      constructor
      · linarith [hm.1]
      · linarith [hm.2]
    have hsM : s + sg * d + sg * (M - d) = s + sg * M := by ring
    have hstep : InInt (s + sg * d) → InInt (l + 1) → bresLoop mv S L sg l s e (n + 1) = (do
          let ps ← bresLoop mv S L sg (l + 1) (s + sg * d) (e - S + d * L) n
          .ok (ptOf mv l s :: ps)) := by
      intro k1 k2
      simp only [bresLoop]
      rw [chk_ok (v := e - S) (by constructor <;> omega)]; simp only [Res.bind_ok]
      rcases hd with rfl | rfl
      · rw [if_neg (hd0 rfl)]; simp only [Res.bind_ok]
        rw [chk_ok k2]; simp only [Res.bind_ok]
        rw [show s + sg * 0 = s by ring, show e - S + 0 * L = e - S by ring]
      · have := hd1 rfl
        rw [if_pos this, chk_ok (v := s + sg) (by rwa [mul_one] at k1)]; simp only [Res.bind_ok]
        rw [chk_ok (v := e - S + L) (by constructor <;> omega)]; simp only [Res.bind_ok]
        rw [chk_ok k2]; simp only [Res.bind_ok]
        rw [show s + sg * 1 = s + sg by ring, show e - S + 1 * L = e - S + L by ring]
    constructor
    · rintro ⟨hl2, hs2⟩
      have ks : InInt (s + sg * d) := by
        rcases hsg with rfl | rfl <;> constructor <;> [skip; skip; skip; skip] <;>
          (have := hs.1; have := hs.2; have := hs2.1; have := hs2.2; omega)
      have kl : InInt (l + 1) := ⟨by have := hl.1; omega, by omega⟩
      obtain ⟨ps, h7, h8⟩ := (ih (l + 1) (s + sg * d) (e - S + d * L) (M - d) he' hMd hm' kl ks).1
        ⟨by omega, by rw [hsM]; exact hs2⟩
      refine ⟨ptOf mv l s :: ps, by rw [hstep ks kl, h7]; rfl, ?_⟩
      intro q
      rw [List.mem_cons, h8]
      constructor
      · rintro (hq | ⟨j, m, k0, k1, k2, k3, k4⟩)
        · exact ⟨0, 0, by constructor <;> omega, Int.le_refl 0, by rw [hq]; congr 1 <;> ring, by linarith [he.1],
            by linarith [he.2]⟩
        · refine ⟨j + 1, m + d, by omega, by omega, ?_, ?_, ?_⟩
          · rw [k2]; congr 1 <;> ring
          · linarith [k3]
          · linarith [k4]
      · rintro ⟨j, m, k0, k1, k2, k3, k4⟩
        by_cases hj : j = 0
        · left
          subst hj
          have : m = 0 := by
            by_contra hne
            have : 1 ≤ m := by omega
            nlinarith
          subst this
          rw [k2]; congr 1 <;> ring
        · right
          have hmd : 0 ≤ m - d := by
            rcases hd with h0 | h1
            · omega
            · have := hd1 h1
              by_contra hne
              have hm0 : m = 0 := by omega
              subst hm0
              have hj1 : 1 ≤ j := by omega
              nlinarith
          refine ⟨j - 1, m - d, by omega, hmd, ?_, ?_, ?_⟩
          · rw [k2]; congr 1 <;> ring
          · linarith
          · linarith
    · intro ps hps
      have kk : InInt (s + sg * d) ∧ InInt (l + 1) := by
        simp only [bresLoop] at hps
        rw [chk_ok (v := e - S) (by constructor <;> omega)] at hps
        simp only [Res.bind_ok] at hps
        obtain ⟨t, h1, hps⟩ := Res.bind_eq_ok.1 hps
        obtain ⟨l2, h2, _⟩ := Res.bind_eq_ok.1 hps
        refine ⟨?_, (chk_eq_ok.1 h2).1⟩
        rcases hd with rfl | rfl
        · simpa using hs
        · rw [if_pos (hd1 rfl)] at h1
          obtain ⟨s2, h3, _⟩ := Res.bind_eq_ok.1 h1
          rw [mul_one]
          exact (chk_eq_ok.1 h3).1
      rw [hstep kk.1 kk.2] at hps
      obtain ⟨ps', h1, _⟩ := Res.bind_eq_ok.1 hps
      have := (ih (l + 1) (s + sg * d) (e - S + d * L) (M - d) he' hMd hm' kk.2 kk.1).2 ps' h1
      rw [hsM] at this
      exact ⟨by omega, this.2⟩

theorem Ends.bresLoop (mv : Bool) (S L sg l s e : Int) (n : Nat) : Ends (bresLoop mv S L sg l s e n) := by
  induction n generalizing l s e with
  | zero => exact Ends.ok _
  | succ n ih =>
    refine (Ends.chk _).bind fun _ => Ends.bind ?_ fun _ => (Ends.chk _).bind fun _ => (ih _ _ _).bind fun _ => Ends.ok _
    split
    · exact (Ends.chk _).bind fun _ => (Ends.chk _).bind fun _ => Ends.ok _
    · exact Ends.ok _

/-- The points are computed exactly unless `bad`. -/
def PtsUnless (r : Res (List Pt)) (bad : Prop) (S : Pt → Prop) : Prop :=
  (bad → r = .ub) ∧ (¬ bad → ∃ ps, r = .ok ps ∧ ∀ q, q ∈ ps ↔ S q)

theorem physSloped_domain (mv : Bool) (S L : Int) (a b : Pt) (ha : IntPt a) (hb : IntPt b)
    (hL : L = |longOf mv b - longOf mv a|) (hS : S = |shortOf mv b - shortOf mv a|) (hSL : S ≤ L) (h0 : 0 < S)
    (hmax : L ≤ 2147483647) :
    PtsUnless (physSloped mv S L a b) (SlopedOverflow (longOf mv) (shortOf mv) a b)
      (LineFrom false (longOf mv) (shortOf mv) a b) := by
  have main : ∀ a b : Pt, IntPt a → IntPt b → L = longOf mv b - longOf mv a → S = |shortOf mv b - shortOf mv a| →
      PtsUnless (physSloped mv S L a b)
        (longOf mv b = 2147483647 ∨ L / 2 < S ∧ AtEdge (shortOf mv a) (shortOf mv b))
        (Nearest (longOf mv) (shortOf mv) a b) := by
    intro a b ha hb hL hS
    have hla : InInt (longOf mv a) := by
      cases mv
      · exact ha.1
      · exact ha.2
    have hlb : InInt (longOf mv b) := by
      cases mv
      · exact hb.1
      · exact hb.2
    have hsa : InInt (shortOf mv a) := by
      cases mv
      · exact ha.2
      · exact ha.1
    have hsb : InInt (shortOf mv b) := by
      cases mv
      · exact hb.2
      · exact hb.1
    have hsgn : ∃ sg : Int, ((sg = 1 ∧ shortOf mv a < shortOf mv b) ∨ (sg = -1 ∧ shortOf mv b < shortOf mv a)) ∧
        sg = (if shortOf mv a < shortOf mv b then 1 else -1) ∧ shortOf mv b = shortOf mv a + sg * S := by
      refine ⟨_, ?_, rfl, ?_⟩
      · split
        · exact .inl ⟨rfl, by assumption⟩
        · refine .inr ⟨rfl, ?_⟩
          rcases abs_cases (shortOf mv b - shortOf mv a) with ⟨h1, h2⟩ | ⟨h1, h2⟩ <;> omega
      · rcases abs_cases (shortOf mv b - shortOf mv a) with ⟨h1, h2⟩ | ⟨h1, h2⟩
        · split <;> omega
        · rw [if_neg (by omega)]; omega
    obtain ⟨sg, g0, g2, g3⟩ := hsgn
    have g1 : sg = 1 ∨ sg = -1 := g0.imp And.left And.left
    have hL2 : L.tdiv 2 = L / 2 := Int.tdiv_eq_ediv_of_nonneg (by omega)
    have hn : (longOf mv b - longOf mv a + 1).toNat = (L + 1).toNat := by rw [hL]
    have hcast : (((L + 1).toNat : Nat) : Int) = L + 1 := by omega
    have heq : physSloped mv S L a b = bresLoop mv S L sg (longOf mv a) (shortOf mv a) (L / 2) (L + 1).toNat := by
      unfold physSloped
      rw [if_neg (show ¬ longOf mv a > longOf mv b by omega)]
      simp only
      rw [← g2, hL2, hn]
    obtain ⟨M, hM0, hM1, hM2⟩ : ∃ M : Int, 0 ≤ M ∧ (0 ≤ L / 2 - (L + 1) * S + M * L ∧ L / 2 - (L + 1) * S + M * L < L) ∧
        (L / 2 < S ∧ M = S + 1 ∨ ¬ L / 2 < S ∧ M = S) := by
      by_cases hc : L / 2 < S
      · refine ⟨S + 1, by omega, ?_, .inl ⟨hc, rfl⟩⟩
        rw [show L / 2 - (L + 1) * S + (S + 1) * L = L / 2 - S + L by ring]
        omega
      · refine ⟨S, by omega, ?_, .inr ⟨hc, rfl⟩⟩
        rw [show L / 2 - (L + 1) * S + S * L = L / 2 - S by ring]
        omega
    obtain ⟨d1, d2⟩ := bresLoop_domain mv S L sg (by omega) hSL (by omega) hmax g1 (L + 1).toNat (longOf mv a)
      (shortOf mv a) (L / 2) M (by omega) hM0 (by rw [hcast]; exact hM1) hla hsa
    rw [hcast] at d1 d2
    have hbad : ¬ (longOf mv b = 2147483647 ∨ L / 2 < S ∧ AtEdge (shortOf mv a) (shortOf mv b)) ↔
        longOf mv a + (L + 1) ≤ 2147483647 ∧ InInt (shortOf mv a + sg * M) := by
      unfold AtEdge
      rcases g0 with ⟨rfl, g0⟩ | ⟨rfl, g0⟩ <;> rcases hM2 with ⟨h1, rfl⟩ | ⟨h1, rfl⟩ <;> omega
    rw [heq]
    constructor
    · intro hb
      exact (Ends.bresLoop _ _ _ _ _ _ _ _).ub fun ps hps => hbad.2 (d2 ps hps) hb
    · intro hb
      obtain ⟨ps, p1, p2⟩ := d1 (hbad.1 hb)
      refine ⟨ps, p1, ?_⟩
      intro q
      rw [p2, bres_nearest (longOf mv) (shortOf mv) (ptOf mv) (by intro x y; cases mv <;> rfl)
        (by intro x y; cases mv <;> rfl) (ptOf_self mv) a b L S sg (by omega) (by omega) g1 (by omega) g3]
  unfold LineFrom SlopedOverflow
  simp only [true_and, Bool.false_eq_true, false_and, or_false]
  rw [← hL, ← hS]
  rcases abs_cases (longOf mv b - longOf mv a) with ⟨h1, h2⟩ | ⟨h1, h2⟩
  · simp only [if_pos (show longOf mv a ≤ longOf mv b by omega)]
    have e1 : (max (longOf mv a) (longOf mv b) = 2147483647 ∨ L / 2 < S ∧
        (longOf mv a < longOf mv b ∧ AtEdge (shortOf mv a) (shortOf mv b) ∨
          longOf mv b < longOf mv a ∧ AtEdge (shortOf mv b) (shortOf mv a))) ↔
        (longOf mv b = 2147483647 ∨ L / 2 < S ∧ AtEdge (shortOf mv a) (shortOf mv b)) := by
      have k1 : longOf mv a < longOf mv b := by omega
      have k2 : ¬ longOf mv b < longOf mv a := by omega
      simp only [k1, k2, true_and, false_and, or_false, max_eq_right (le_of_lt k1)]
    unfold PtsUnless
    rw [e1]
    exact main a b ha hb (by omega) hS
  · simp only [if_neg (show ¬ longOf mv a ≤ longOf mv b by omega)]
    have e1 : (max (longOf mv a) (longOf mv b) = 2147483647 ∨ L / 2 < S ∧
        (longOf mv a < longOf mv b ∧ AtEdge (shortOf mv a) (shortOf mv b) ∨
          longOf mv b < longOf mv a ∧ AtEdge (shortOf mv b) (shortOf mv a))) ↔
        (longOf mv a = 2147483647 ∨ L / 2 < S ∧ AtEdge (shortOf mv b) (shortOf mv a)) := by
      have k1 : longOf mv b < longOf mv a := by omega
      have k2 : ¬ longOf mv a < longOf mv b := by omega
      simp only [k1, k2, true_and, false_and, false_or, max_eq_left (le_of_lt k1)]
    unfold PtsUnless
    rw [e1, physSloped_comm mv S L a b (by omega)]
    exact main b a hb ha (by omega) (by rw [hS, abs_sub_comm])

private theorem straight_nearest (u v : Pt → Int) (a b p : Pt) (h : v a = v b) :
    Nearest u v a b p ↔ v p = v a ∧ min (u a) (u b) ≤ u p ∧ u p ≤ max (u a) (u b) := by
  unfold Nearest
  constructor
  · rintro ⟨h1, h2, -⟩
    omega
  · rintro ⟨h1, h2⟩
    rw [show v p - v a = 0 by omega, show v b - v a = 0 by omega]
    refine ⟨h2, by omega, ?_, ?_⟩
    · simp
    · simp

private theorem straight_lineFrom (back : Bool) (u v : Pt → Int) (a b p : Pt) (h : v a = v b) :
    LineFrom back u v a b p ↔ v p = v a ∧ min (u a) (u b) ≤ u p ∧ u p ≤ max (u a) (u b) := by
  unfold LineFrom
  split
  · exact straight_nearest u v a b p h
  · rw [straight_nearest u v b a p h.symm, h, Int.min_comm (u b), Int.max_comm (u b)]

theorem iabs_iff {v w : Int} : iabs v = .ok w ↔ |v| ≤ 2147483647 ∧ w = |v| := by
  unfold iabs
  rw [chk_eq_ok]
  unfold InInt
  rcases abs_cases v with ⟨h1, h2⟩ | ⟨h1, h2⟩
  · rw [if_neg (by omega)]; omega
  · rw [if_pos (by omega)]; omega

theorem Ends.iabs (v : Int) : Ends (iabs v) := Ends.chk _

theorem Ends.physLine (a b : Pt) : Ends (physLine a b) := by
  unfold Canvas.physLine
  refine (Ends.chk _).bind fun _ => (Ends.iabs _).bind fun _ => (Ends.chk _).bind fun _ => (Ends.iabs _).bind fun _ => ?_
  split
  · exact (Ends.chk _).bind fun _ => Ends.vLine _ _
  · split
    · exact (Ends.chk _).bind fun _ => Ends.hLine _ _
    · exact Ends.bresLoop _ _ _ _ _ _ _ _

theorem physLine_domain (a b : Pt) (ha : IntPt a) (hb : IntPt b) :
    PtsUnless (physLine a b) (LineOverflow a b) (lineAt .r0 a b) := by
  have hdx : |b.x - a.x| ≤ 2147483647 → InInt (b.x - a.x) := by
    intro h; rcases abs_cases (b.x - a.x) with ⟨h1, h2⟩ | ⟨h1, h2⟩ <;> constructor <;> omega
  have hdy : |b.y - a.y| ≤ 2147483647 → InInt (b.y - a.y) := by
    intro h; rcases abs_cases (b.y - a.y) with ⟨h1, h2⟩ | ⟨h1, h2⟩ <;> constructor <;> omega
  by_cases hbig : 2147483647 < |b.x - a.x| ∨ 2147483647 < |b.y - a.y|
  · refine ⟨fun _ => ?_, fun hn => ?_⟩
    · refine (Ends.physLine a b).ub fun ps hps => ?_
      unfold physLine at hps
      obtain ⟨dx, e1, hps⟩ := Res.bind_eq_ok.1 hps
      obtain ⟨ax, e2, hps⟩ := Res.bind_eq_ok.1 hps
      obtain ⟨dy, e3, hps⟩ := Res.bind_eq_ok.1 hps
      obtain ⟨ay, e4, hps⟩ := Res.bind_eq_ok.1 hps
      obtain ⟨_, rfl⟩ := chk_eq_ok.1 e1
      obtain ⟨_, rfl⟩ := chk_eq_ok.1 e3
      have := (iabs_iff.1 e2).1
      have := (iabs_iff.1 e4).1
      omega
    · exact absurd (hbig.elim (fun h => .inr (.inr (.inl h))) fun h => .inr (.inr (.inr (.inl h)))) hn
  · have hx' : |b.x - a.x| ≤ 2147483647 := by omega
    have hy' : |b.y - a.y| ≤ 2147483647 := by omega
    have hov : LineOverflow a b ↔
      (if a.x = b.x then |b.y - a.y| = 2147483647 ∨ max a.y b.y = 2147483647
        else if a.y = b.y then |b.x - a.x| = 2147483647 ∨ max a.x b.x = 2147483647
        else if |b.x - a.x| < |b.y - a.y| then SlopedOverflow Pt.y Pt.x a b
        else SlopedOverflow Pt.x Pt.y a b) := by
      unfold LineOverflow
      have n1 : ¬ 2147483647 < |b.x - a.x| := by omega
      have n2 : ¬ 2147483647 < |b.y - a.y| := by omega
      simp only [ha, hb, n1, n2, not_true_eq_false, false_or]
    unfold PtsUnless
    rw [hov]
    unfold physLine
    rw [chk_ok (hdx hx')]; simp only [Res.bind_ok]
    rw [iabs_iff.2 ⟨hx', rfl⟩]; simp only [Res.bind_ok]
    rw [chk_ok (hdy hy')]; simp only [Res.bind_ok]
    rw [iabs_iff.2 ⟨hy', rfl⟩]; simp only [Res.bind_ok]
    by_cases hx : a.x = b.x
    · rw [if_pos hx, if_pos (show |b.x - a.x| = 0 by rw [abs_eq_zero]; omega)]
      have hpix : ∀ q, lineAt .r0 a b q ↔ q.x = a.x ∧ min a.y b.y ≤ q.y ∧ q.y ≤ max a.y b.y := by
        intro q
        unfold lineAt
        split
        · next h =>
          have h0 : a.y = b.y := by
            rw [show b.x - a.x = 0 by omega, abs_zero] at h
            have := abs_eq_zero.1 (Int.le_antisymm h (abs_nonneg _))
            omega
          rw [straight_lineFrom _ _ _ _ _ _ h0]; omega
        · exact straight_lineFrom _ _ _ _ _ _ hx
      have hI : InInt (min a.y b.y) := by
        have := ha.2; have := hb.2; constructor <;> omega
      have hsum : min a.y b.y + (|b.y - a.y| + 1) = max a.y b.y + 1 := by
        rcases abs_cases (b.y - a.y) with ⟨h1, h2⟩ | ⟨h1, h2⟩ <;> omega
      have h0 := abs_nonneg (b.y - a.y)
      have hmx : max a.y b.y ≤ 2147483647 := by have := ha.2.2; have := hb.2.2; omega
      constructor
      · intro hbad
        refine Ends.ub ((Ends.chk _).bind fun _ => Ends.vLine _ _) fun ps hps => ?_
        obtain ⟨w, e1, hps⟩ := Res.bind_eq_ok.1 hps
        obtain ⟨e2, rfl⟩ := chk_eq_ok.1 e1
        have := vLine_needs hps hI (by omega)
        have := e2.2
        simp only at *
        omega
      · intro hok
        rw [chk_ok (v := |b.y - a.y| + 1) (by constructor <;> omega)]
        simp only [Res.bind_ok]
        obtain ⟨ps, p1, p2⟩ := vLine_ok ⟨a.x, min a.y b.y⟩ (|b.y - a.y| + 1) (by simp only; omega)
        refine ⟨ps, p1, ?_⟩
        intro q
        rw [p2, hpix]
        simp only
        omega
    · rw [if_neg hx, if_neg (show ¬ |b.x - a.x| = 0 by rw [abs_eq_zero]; omega)]
      by_cases hy : a.y = b.y
      · rw [if_pos hy, if_pos (show |b.y - a.y| = 0 by rw [abs_eq_zero]; omega)]
        have hpix : ∀ q, lineAt .r0 a b q ↔ q.y = a.y ∧ min a.x b.x ≤ q.x ∧ q.x ≤ max a.x b.x := by
          intro q
          unfold lineAt
          rw [if_pos (by rw [show b.y - a.y = 0 by omega, abs_zero]; exact abs_nonneg _)]
          exact straight_lineFrom _ _ _ _ _ _ hy
        have hI : InInt (min a.x b.x) := by
          have := ha.1; have := hb.1; constructor <;> omega
        have hsum : min a.x b.x + (|b.x - a.x| + 1) = max a.x b.x + 1 := by
          rcases abs_cases (b.x - a.x) with ⟨h1, h2⟩ | ⟨h1, h2⟩ <;> omega
        have h0 := abs_nonneg (b.x - a.x)
        have hmx : max a.x b.x ≤ 2147483647 := by have := ha.1.2; have := hb.1.2; omega
        constructor
        · intro hbad
          refine Ends.ub ((Ends.chk _).bind fun _ => Ends.hLine _ _) fun ps hps => ?_
          obtain ⟨w, e1, hps⟩ := Res.bind_eq_ok.1 hps
          obtain ⟨e2, rfl⟩ := chk_eq_ok.1 e1
          have := hLine_needs hps hI (by omega)
          have := e2.2
          simp only at *
          omega
        · intro hok
          rw [chk_ok (v := |b.x - a.x| + 1) (by constructor <;> omega)]
          simp only [Res.bind_ok]
          obtain ⟨ps, p1, p2⟩ := hLine_ok ⟨min a.x b.x, a.y⟩ (|b.x - a.x| + 1) (by simp only; omega)
          refine ⟨ps, p1, ?_⟩
          intro q
          rw [p2, hpix]
          simp only
          omega
      · rw [if_neg hy, if_neg (show ¬ |b.y - a.y| = 0 by rw [abs_eq_zero]; omega)]
        have px := abs_pos.2 (show b.x - a.x ≠ 0 by omega)
        have py := abs_pos.2 (show b.y - a.y ≠ 0 by omega)
        unfold lineAt
        by_cases hc : |b.x - a.x| < |b.y - a.y|
        · rw [if_pos hc]
          have hgt : |b.y - a.y| > |b.x - a.x| := hc
          simp only [decide_eq_true hgt, if_neg (show ¬ |b.y - a.y| ≤ |b.x - a.x| by omega)]
          exact physSloped_domain true |b.x - a.x| |b.y - a.y| a b ha hb rfl rfl (by omega) px hy'
        · rw [if_neg hc]
          have hgt : ¬ |b.y - a.y| > |b.x - a.x| := hc
          simp only [decide_eq_false hgt, if_pos (show |b.y - a.y| ≤ |b.x - a.x| by omega)]
          exact physSloped_domain false |b.y - a.y| |b.x - a.x| a b ha hb rfl rfl (by omega) py hx'

/-- **C142**: `drawLine`. -/
theorem drawLine_domain (c : Canvas) (g : Geom) (fb : FB) (h : Ready c g fb) (a b : Pt) (ha : IntPt a) (hb : IntPt b) :
    DrawsUnless c g fb (c.drawLine g fb a b)
      (LineOverflow (phys c.rotate g.getWidth g.getHeight a) (phys c.rotate g.getWidth g.getHeight b))
      (lineAt c.rotate a b) := by
  have hW : 0 ≤ g.getWidth ∧ g.getWidth ≤ 2 ^ 28 := ⟨h.wlo, h.whi⟩
  have hH : 0 ≤ g.getHeight ∧ g.getHeight ≤ 2 ^ 28 := ⟨h.hlo, h.hhi⟩
  have hta := fun q => transformPt_iff (q := q) h.size hW hH ha
  have htb := fun q => transformPt_iff (q := q) h.size hW hH hb
  unfold Canvas.drawLine
  rw [linePts_eq]
  by_cases ka : IntPt (phys c.rotate g.getWidth g.getHeight a)
  · by_cases kb : IntPt (phys c.rotate g.getWidth g.getHeight b)
    · rw [(hta _).2 ⟨ka, rfl⟩, (htb _).2 ⟨kb, rfl⟩]
      simp only [Res.bind_ok]
      obtain ⟨d1, d2⟩ := physLine_domain _ _ ka kb
      constructor
      · intro hbad
        rw [d1 hbad]; rfl
      · intro hok
        obtain ⟨ps, p1, p2⟩ := d2 hok
        rw [p1]
        exact paint_paints h ps _ (fun p _ => by rw [p2]; exact lineAt_phys c.rotate g.getWidth g.getHeight a b p)
    · refine ⟨fun _ => ?_, fun hn => absurd (.inr (.inl kb)) hn⟩
      rw [(hta _).2 ⟨ka, rfl⟩, (Ends.transformPt c b).ub (fun q hq => kb ((htb q).1 hq).1)]
      rfl
  · refine ⟨fun _ => ?_, fun hn => absurd (.inl ka) hn⟩
    rw [(Ends.transformPt c a).ub (fun q hq => ka ((hta q).1 hq).1)]
    rfl

/-! ## Concrete cases -/

/-- A filled rectangle of the greatest size which begins on the second row and column is fine on every screen of this
kind; its outline is undefined. -/
example (c : Canvas) (g : Geom) (fb : FB) (h : Ready c g fb) (hr : c.rotate = .r0) :
    (∃ fb', c.drawFilledRectangle g fb ⟨⟨1, 1⟩, ⟨2147483647, 2147483647⟩⟩ = .ok fb' ∧
      Paints c g fb fb' (inRect ⟨⟨1, 1⟩, ⟨2147483647, 2147483647⟩⟩)) ∧
    c.drawFilledRectangle g fb ⟨⟨2, 1⟩, ⟨2147483647, 2147483647⟩⟩ = .ub ∧
    c.drawRectangle g fb ⟨⟨1, 1⟩, ⟨2147483647, 2147483647⟩⟩ = .ub := by
  have hI : IntRect ⟨⟨1, 1⟩, ⟨2147483647, 2147483647⟩⟩ := by unfold IntRect IntPt InInt; decide
  have hI2 : IntRect ⟨⟨2, 1⟩, ⟨2147483647, 2147483647⟩⟩ := by unfold IntRect IntPt InInt; decide
  refine ⟨(drawFilledRectangle_domain c g fb h _ hI).2 ?_, (drawFilledRectangle_domain c g fb h _ hI2).1 ?_,
    (drawRectangle_domain c g fb h _ hI).1 ?_⟩
  · rw [hr]; unfold Overflow fillValues InInt; simp
  · rw [hr]; unfold Overflow fillValues InInt; simp
  · rw [hr]; unfold Overflow outlineValues InInt; simp

/-- A line to the greatest coordinate but one is fine, to the greatest one it is undefined; so is a diagonal up to the
smallest coordinate. -/
example (c : Canvas) (g : Geom) (fb : FB) (h : Ready c g fb) (hr : c.rotate = .r0) :
    (∃ fb', c.drawLine g fb ⟨0, 0⟩ ⟨2147483646, 1⟩ = .ok fb' ∧ Paints c g fb fb' (lineAt c.rotate ⟨0, 0⟩ ⟨2147483646, 1⟩)) ∧
    c.drawLine g fb ⟨0, 0⟩ ⟨2147483647, 1⟩ = .ub ∧
    c.drawLine g fb ⟨0, -2147483647⟩ ⟨1, -2147483648⟩ = .ub := by
  have hI : ∀ x y : Int, (-2147483648 ≤ x ∧ x ≤ 2147483647) ∧ -2147483648 ≤ y ∧ y ≤ 2147483647 → IntPt ⟨x, y⟩ :=
    fun _ _ h => h
  refine ⟨(drawLine_domain c g fb h _ _ (hI _ _ (by decide)) (hI _ _ (by decide))).2 ?_,
    (drawLine_domain c g fb h _ _ (hI _ _ (by decide)) (hI _ _ (by decide))).1 ?_,
    (drawLine_domain c g fb h _ _ (hI _ _ (by decide)) (hI _ _ (by decide))).1 ?_⟩ <;>
    rw [hr]
  · change ¬ LineOverflow ⟨0, 0⟩ ⟨2147483646, 1⟩
    unfold LineOverflow SlopedOverflow AtEdge IntPt InInt
    decide
  · change LineOverflow ⟨0, 0⟩ ⟨2147483647, 1⟩
    unfold LineOverflow SlopedOverflow AtEdge IntPt InInt
    decide
  · change LineOverflow ⟨0, -2147483647⟩ ⟨1, -2147483648⟩
    unfold LineOverflow SlopedOverflow AtEdge IntPt InInt
    decide

/-- Such canvases exist. -/
example : Ready ⟨⟨16, 8⟩, .r0⟩ ⟨4, 8, 4⟩ ⟨List.replicate 64 0, 5⟩ := example_ready .r0

end Verif.Canvas
