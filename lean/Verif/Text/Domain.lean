import Verif.Text.Props
import Verif.Canvas.CircleDomain
/-!
# C143: text over the whole range of `int`

As in `Canvas.Domain` the arguments are any values of type `int`: drawing a character or a string is undefined behaviour
exactly when a lit pixel of it, or a pen position, can not be represented; pixels which are not lit do not matter.
-/
set_option linter.dupNamespace false
namespace Verif.Text
open Verif.Canvas Verif.FrameBuffer Verif.Font

/-! ## Specification -/

/-- A pixel can be turned by the matrix of the rotation: the pixel, the coordinates which change sign, and the result are of
type `int`. -/
def Turns (r : Rotation) (W H : Int) (p : Pt) : Prop :=
  match r with
  | .r0 => IntPt p
  | .r90 => IntPt p ∧ InInt (-p.y) ∧ InInt (W - 1 - p.y)
  | .r180 => IntPt p ∧ (InInt (-p.x) ∧ InInt (-p.y)) ∧ InInt (W - 1 - p.x) ∧ InInt (H - 1 - p.y)
  | .r270 => IntPt p ∧ InInt (-p.x) ∧ InInt (H - 1 - p.x)

/-- The glyph `r` can not be drawn at `pos`. -/
def CharOverflow (rot : Rotation) (W H : Int) (bitmap : List Byte) (r : CharBitmap) (pos : Pt) : Prop :=
  ¬ IntPt ⟨pos.x + r.ox, pos.y + r.oy⟩ ∨ ∃ p, glyphSet bitmap r pos p ∧ ¬ Turns rot W H p

/-- The pen before glyph `n`. -/
def penAt (pos : Pt) (rs : List CharBitmap) (n : Nat) : Pt :=
  ⟨pos.x + (((rs.take n).map CharBitmap.shift).sum : Nat), pos.y⟩

/-- The text can not be drawn at `pos`: one of its glyphs can not, or the pen leaves the range of `int`, at the latest
behind the last glyph. -/
def TextOverflow (rot : Rotation) (W H : Int) (bitmap : List Byte) (rs : List CharBitmap) (pos : Pt) : Prop :=
  ∃ n r, rs[n]? = some r ∧
    (CharOverflow rot W H bitmap r (penAt pos rs n) ∨ ¬ InInt (penAt pos rs (n + 1)).x)

/-! ## Proof -/

/-- The shifts of each rotation. -/
def shiftOf (r : Rotation) (W H : Int) : Sz :=
  match r with
  | .r0 => ⟨0, 0⟩
  | .r90 => ⟨W - 1, 0⟩
  | .r180 => ⟨W - 1, H - 1⟩
  | .r270 => ⟨0, H - 1⟩

theorem shifts_value {c : Canvas} {W H : Int} (hs : c.size = ⟨W, H⟩) (hW : 0 ≤ W ∧ W ≤ 2 ^ 28)
    (hH : 0 ≤ H ∧ H ≤ 2 ^ 28) : c.shifts = .ok (shiftOf c.rotate W H) := by
  have cW : chk (W - 1) = .ok (W - 1) := chk_ok (by constructor <;> omega)
  have cH : chk (H - 1) = .ok (H - 1) := chk_ok (by constructor <;> omega)
  unfold Canvas.shifts
  rw [hs]
  cases c.rotate <;> simp only [shiftOf, cW, cH, Res.bind_ok]

theorem Ends.mul (m : Mat) (p : Pt) : Ends (m.mul p) :=
  (Ends.chk _).bind fun _ => (Ends.chk _).bind fun _ => (Ends.chk _).bind fun _ => (Ends.chk _).bind fun _ =>
    (Ends.chk _).bind fun _ => (Ends.chk _).bind fun _ => Ends.ok _

theorem mul_iff {m : Mat} {p q : Pt} : m.mul p = .ok q ↔
    (InInt (m.a * p.x) ∧ InInt (m.b * p.y) ∧ InInt (m.a * p.x + m.b * p.y) ∧ InInt (m.c * p.x) ∧ InInt (m.d * p.y) ∧
      InInt (m.c * p.x + m.d * p.y)) ∧ q = ⟨m.a * p.x + m.b * p.y, m.c * p.x + m.d * p.y⟩ := by
  unfold Mat.mul
  constructor
  · intro h
    obtain ⟨_, h1, h⟩ := Res.bind_eq_ok.1 h
    obtain ⟨k1, rfl⟩ := chk_eq_ok.1 h1
    obtain ⟨_, h2, h⟩ := Res.bind_eq_ok.1 h
    obtain ⟨k2, rfl⟩ := chk_eq_ok.1 h2
    obtain ⟨_, h3, h⟩ := Res.bind_eq_ok.1 h
    obtain ⟨k3, rfl⟩ := chk_eq_ok.1 h3
    obtain ⟨_, h4, h⟩ := Res.bind_eq_ok.1 h
    obtain ⟨k4, rfl⟩ := chk_eq_ok.1 h4
    obtain ⟨_, h5, h⟩ := Res.bind_eq_ok.1 h
    obtain ⟨k5, rfl⟩ := chk_eq_ok.1 h5
    obtain ⟨_, h6, h⟩ := Res.bind_eq_ok.1 h
    obtain ⟨k6, rfl⟩ := chk_eq_ok.1 h6
    injection h with h
    exact ⟨⟨k1, k2, k3, k4, k5, k6⟩, h.symm⟩
  · rintro ⟨⟨k1, k2, k3, k4, k5, k6⟩, rfl⟩
    rw [chk_ok k1]; simp only [Res.bind_ok]
    rw [chk_ok k2]; simp only [Res.bind_ok]
    rw [chk_ok k3]; simp only [Res.bind_ok]
    rw [chk_ok k4]; simp only [Res.bind_ok]
    rw [chk_ok k5]; simp only [Res.bind_ok]
    rw [chk_ok k6]; rfl

theorem glyphPoint_iff {c : Canvas} {W H : Int} {pos q : Pt} {i j : Nat} :
    glyphPoint c.matrix (shiftOf c.rotate W H) pos i j = .ok q ↔
      Turns c.rotate W H ⟨pos.x + i, pos.y + j⟩ ∧ q = phys c.rotate W H ⟨pos.x + i, pos.y + j⟩ := by
  have hall : glyphPoint c.matrix (shiftOf c.rotate W H) pos i j = .ok q ↔
      ((InInt (pos.x + i) ∧ InInt (pos.y + j)) ∧
        (InInt (c.matrix.a * (pos.x + i)) ∧ InInt (c.matrix.b * (pos.y + j)) ∧
          InInt (c.matrix.a * (pos.x + i) + c.matrix.b * (pos.y + j)) ∧ InInt (c.matrix.c * (pos.x + i)) ∧
          InInt (c.matrix.d * (pos.y + j)) ∧ InInt (c.matrix.c * (pos.x + i) + c.matrix.d * (pos.y + j))) ∧
        InInt (c.matrix.a * (pos.x + i) + c.matrix.b * (pos.y + j) + (shiftOf c.rotate W H).width) ∧
        InInt (c.matrix.c * (pos.x + i) + c.matrix.d * (pos.y + j) + (shiftOf c.rotate W H).height)) ∧
      q = ⟨c.matrix.a * (pos.x + i) + c.matrix.b * (pos.y + j) + (shiftOf c.rotate W H).width,
        c.matrix.c * (pos.x + i) + c.matrix.d * (pos.y + j) + (shiftOf c.rotate W H).height⟩ := by
    unfold glyphPoint
    constructor
    · intro h
      obtain ⟨_, h1, h⟩ := Res.bind_eq_ok.1 h
      obtain ⟨k1, rfl⟩ := add_iff.1 h1
      obtain ⟨_, h2, h⟩ := Res.bind_eq_ok.1 h
      obtain ⟨k2, rfl⟩ := mul_iff.1 h2
      obtain ⟨k3, rfl⟩ := add_iff.1 h
      exact ⟨⟨k1, k2, k3⟩, rfl⟩
    · rintro ⟨⟨k1, k2, k3⟩, rfl⟩
      rw [add_iff.2 ⟨k1, rfl⟩]; simp only [Res.bind_ok]
      rw [mul_iff.2 ⟨k2, rfl⟩]; simp only [Res.bind_ok]
      exact add_iff.2 ⟨k3, rfl⟩
  rw [hall]
  generalize pos.x + (i : Int) = x
  generalize pos.y + (j : Int) = y
  unfold Canvas.matrix
  have e1 : ∀ a b : Int, a = b → (InInt a ↔ InInt b) := fun a b h => by rw [h]
  cases c.rotate <;>
    simp only [shiftOf, Turns, phys, IntPt, one_mul, zero_mul, neg_mul, zero_add, add_zero]
  · constructor
    · rintro ⟨⟨h1, _⟩, h3⟩
      exact ⟨h1, h3⟩
    · rintro ⟨h1, h3⟩
      exact ⟨⟨h1, ⟨h1.1, by decide, h1.1, by decide, h1.2, h1.2⟩, h1⟩, h3⟩
  · rw [show -y + (W - 1) = W - 1 - y by omega]
    constructor
    · rintro ⟨⟨h1, ⟨_, h2, _⟩, h4, _⟩, h3⟩
      exact ⟨⟨h1, h2, h4⟩, h3⟩
    · rintro ⟨⟨h1, h2, h4⟩, h3⟩
      exact ⟨⟨h1, ⟨by decide, h2, h2, h1.1, by decide, h1.1⟩, h4, h1.1⟩, h3⟩
  · rw [show -x + (W - 1) = W - 1 - x by omega, show -y + (H - 1) = H - 1 - y by omega]
    constructor
    · rintro ⟨⟨h1, ⟨h2, _, _, _, h5, _⟩, h4⟩, h3⟩
      exact ⟨⟨h1, ⟨h2, h5⟩, h4⟩, h3⟩
    · rintro ⟨⟨h1, ⟨h2, h5⟩, h4⟩, h3⟩
      exact ⟨⟨h1, ⟨h2, by decide, h2, by decide, h5, h5⟩, h4⟩, h3⟩
  · rw [show -x + (H - 1) = H - 1 - x by omega]
    constructor
    · rintro ⟨⟨h1, ⟨_, _, _, h2, _⟩, _, h4⟩, h3⟩
      exact ⟨⟨h1, h2, h4⟩, h3⟩
    · rintro ⟨⟨h1, h2, h4⟩, h3⟩
      exact ⟨⟨h1, ⟨by decide, h1.2, h1.2, h2, by decide, h2⟩, h1.2, h4⟩, h3⟩

theorem Ends.glyphPoint (m : Mat) (s : Sz) (pos : Pt) (i j : Nat) : Ends (glyphPoint m s pos i j) :=
  (Ends.add _ _).bind fun _ => (Ends.mul _ _).bind fun _ => Ends.add _ _

theorem rowLoop_domain {c : Canvas} {W H : Int} (bm : List Byte) (pos : Pt) (start w j : Nat)
    (hb : ∀ i, i < w → start + (i + j * w) / 8 < bm.length) (n i : Nat) (hin : i + n = w) :
    ((∀ i', i ≤ i' → i' < w → glyphBit bm start w i' j = true → Turns c.rotate W H ⟨pos.x + i', pos.y + j⟩) →
      ∃ ps, rowLoop c.matrix (shiftOf c.rotate W H) bm pos w j i (start + (i + j * w) / 8) n =
          .ok (ps, start + (w + j * w) / 8) ∧
        ∀ q, q ∈ ps ↔ ∃ i', i ≤ i' ∧ i' < w ∧ glyphBit bm start w i' j = true ∧
          q = phys c.rotate W H ⟨pos.x + i', pos.y + j⟩) ∧
    (∀ i', i ≤ i' → i' < w → glyphBit bm start w i' j = true → ¬ Turns c.rotate W H ⟨pos.x + i', pos.y + j⟩ →
      rowLoop c.matrix (shiftOf c.rotate W H) bm pos w j i (start + (i + j * w) / 8) n = .ub) := by
  induction n generalizing i with
  | zero =>
    have : i = w := by omega
    subst this
    refine ⟨fun _ => ⟨[], rfl, ?_⟩, fun i' h1 h2 => by omega⟩
    intro q
    simp only [List.not_mem_nil, false_iff]
    rintro ⟨i', h1, h2, _⟩
    omega
  | succ n ih =>
    obtain ⟨t1, t2⟩ := ih (i + 1) (by omega)
    have hlt := hb i (by omega)
    have hbyte := List.getElem?_eq_getElem hlt
    generalize bm[start + (i + j * w) / 8]'hlt = byte at hbyte
    have hptr : (if (i + j * w) % 8 = 7 then start + (i + j * w) / 8 + 1 else start + (i + j * w) / 8) =
        start + (i + 1 + j * w) / 8 := by
      generalize j * w = t
      split <;> omega
    have hbit : glyphBit bm start w i j = byte.getLsbD (7 - (i + j * w) % 8) := by
      unfold glyphBit; rw [hbyte]
    unfold rowLoop
    rw [hbyte]
    simp only [Res.ofOption_some, Res.bind_ok]
    rw [hptr]
    by_cases hbt : byte &&& (0x80#8 >>> ((i + j * w) % 8)) ≠ 0#8
    · rw [if_pos hbt]
      have hbt' : glyphBit bm start w i j = true := by
        rw [hbit]; exact (bit_test byte _ (Nat.mod_lt _ (by decide))).1 hbt
      by_cases htn : Turns c.rotate W H ⟨pos.x + i, pos.y + j⟩
      · rw [glyphPoint_iff.2 ⟨htn, rfl⟩]
        simp only [Res.bind_ok]
        constructor
        · intro hall
          obtain ⟨ps, p1, p2⟩ := t1 fun i' k1 => hall i' (by omega)
          rw [p1]
          refine ⟨_, rfl, ?_⟩
          intro q
          rw [List.mem_append, List.mem_singleton, p2]
          constructor
          · rintro (hq | ⟨i', k1, k2, k3, k4⟩)
            · exact ⟨i, Nat.le_refl i, by omega, hbt', hq⟩
            · exact ⟨i', by omega, k2, k3, k4⟩
          · rintro ⟨i', k1, k2, k3, k4⟩
            by_cases he : i' = i
            · subst he; exact .inl k4
            · exact .inr ⟨i', by omega, k2, k3, k4⟩
        · intro i' k1 k2 k3 k4
          by_cases he : i' = i
          · subst he; exact absurd htn k4
          · rw [t2 i' (by omega) k2 k3 k4]; rfl
      · rw [(Ends.glyphPoint _ _ _ _ _).ub fun q hq => htn (glyphPoint_iff.1 hq).1]
        exact ⟨fun hall => absurd (hall i (Nat.le_refl i) (by omega) hbt') htn, fun _ _ _ _ _ => rfl⟩
    · rw [if_neg hbt]
      have hbt' : ¬ glyphBit bm start w i j = true := fun hh =>
        hbt ((bit_test byte _ (Nat.mod_lt _ (by decide))).2 (by rw [← hbit]; exact hh))
      simp only [Res.bind_ok]
      constructor
      · intro hall
        obtain ⟨ps, p1, p2⟩ := t1 fun i' k1 => hall i' (by omega)
        rw [p1]
        refine ⟨_, rfl, ?_⟩
        intro q
        rw [List.nil_append, p2]
        constructor
        · rintro ⟨i', k1, k2, k3, k4⟩
          exact ⟨i', by omega, k2, k3, k4⟩
        · rintro ⟨i', k1, k2, k3, k4⟩
          by_cases he : i' = i
          · subst he; exact absurd k3 hbt'
          · exact ⟨i', by omega, k2, k3, k4⟩
      · intro i' k1 k2 k3 k4
        by_cases he : i' = i
        · subst he; exact absurd k3 hbt'
        · rw [t2 i' (by omega) k2 k3 k4]; rfl

theorem glyphLoop_domain {c : Canvas} {W H : Int} (bm : List Byte) (pos : Pt) (start w ht : Nat)
    (hb : ∀ i j, i < w → j < ht → start + (i + j * w) / 8 < bm.length) (n j : Nat) (hjn : j + n = ht) :
    ((∀ i' j' : Nat, j ≤ j' → j' < ht → i' < w → glyphBit bm start w i' j' = true →
        Turns c.rotate W H ⟨pos.x + i', pos.y + j'⟩) →
      ∃ ps, glyphLoop c.matrix (shiftOf c.rotate W H) bm pos w j (start + (j * w) / 8) n = .ok ps ∧
        ∀ q, q ∈ ps ↔ ∃ i' j' : Nat, j ≤ j' ∧ j' < ht ∧ i' < w ∧ glyphBit bm start w i' j' = true ∧
          q = phys c.rotate W H ⟨pos.x + i', pos.y + j'⟩) ∧
    (∀ i' j' : Nat, j ≤ j' → j' < ht → i' < w → glyphBit bm start w i' j' = true →
      ¬ Turns c.rotate W H ⟨pos.x + i', pos.y + j'⟩ →
      glyphLoop c.matrix (shiftOf c.rotate W H) bm pos w j (start + (j * w) / 8) n = .ub) := by
  induction n generalizing j with
  | zero =>
    refine ⟨fun _ => ⟨[], rfl, ?_⟩, fun i' j' h1 h2 => by omega⟩
    intro q
    simp only [List.not_mem_nil, false_iff]
    rintro ⟨i', j', h1, h2, _⟩
    omega
  | succ n ih =>
    obtain ⟨t1, t2⟩ := ih (j + 1) (by omega)
    obtain ⟨r1, r2⟩ := rowLoop_domain (c := c) (W := W) (H := H) bm pos start w j
      (fun i hi => hb i j hi (by omega)) w 0 (by omega)
    rw [Nat.zero_add, show w + j * w = (j + 1) * w by rw [Nat.add_mul, Nat.one_mul, Nat.add_comm]] at r1
    rw [Nat.zero_add] at r2
    unfold glyphLoop
    by_cases hrow : ∀ i', i' < w → glyphBit bm start w i' j = true → Turns c.rotate W H ⟨pos.x + i', pos.y + j⟩
    · obtain ⟨row, q1, q2⟩ := r1 fun i' _ k2 k3 => hrow i' k2 k3
      rw [q1]; simp only [Res.bind_ok]
      constructor
      · intro hall
        obtain ⟨ps, p1, p2⟩ := t1 fun i' j' k1 => hall i' j' (by omega)
        rw [p1]
        refine ⟨_, rfl, ?_⟩
        intro q
        rw [List.mem_append, q2, p2]
        constructor
        · rintro (⟨i', _, k2, k3, k4⟩ | ⟨i', j', k1, k2, k3⟩)
          · exact ⟨i', j, Nat.le_refl j, by omega, k2, k3, k4⟩
          · exact ⟨i', j', by omega, k2, k3⟩
        · rintro ⟨i', j', k1, k2, k3, k4, k5⟩
          by_cases he : j' = j
          · subst he; exact .inl ⟨i', Nat.zero_le _, k3, k4, k5⟩
          · exact .inr ⟨i', j', by omega, k2, k3, k4, k5⟩
      · intro i' j' k1 k2 k3 k4 k5
        by_cases he : j' = j
        · subst he; exact absurd (hrow i' k3 k4) k5
        · rw [t2 i' j' (by omega) k2 k3 k4 k5]; rfl
    · have hex : ∃ i', i' < w ∧ glyphBit bm start w i' j = true ∧ ¬ Turns c.rotate W H ⟨pos.x + i', pos.y + j⟩ := by
        by_contra hno
        refine hrow fun i' k1 k2 => ?_
        by_contra k3
        exact hno ⟨i', k1, k2, k3⟩
      obtain ⟨i', k1, k2, k3⟩ := hex
      rw [r2 i' (Nat.zero_le _) k1 k2 k3]
      exact ⟨fun hall => absurd (hall i' j (Nat.le_refl j) (by omega) k1 k2) k3, fun _ _ _ _ _ _ _ => rfl⟩

/-- **C143**: `drawCharAt`. -/
theorem drawCharAt_domain (c : Canvas) (g : Geom) (fb : FB) (h : Ready c g fb) (signed : Bool) (f : Font)
    (pos : Pt) (b : Byte) (r : CharBitmap) (hr : getBitmap signed f b = .ok r) (hd : Drawable f.bitmap r) :
    (CharOverflow c.rotate g.getWidth g.getHeight f.bitmap r pos → drawCharAt c g fb signed f pos b = .ub) ∧
    (¬ CharOverflow c.rotate g.getWidth g.getHeight f.bitmap r pos →
      ∃ fb', drawCharAt c g fb signed f pos b = .ok (fb', r.shift) ∧ Paints c g fb fb' (glyphSet f.bitmap r pos)) := by
  have hb : ∀ i j, i < r.width → j < r.height → r.start + (i + j * r.width) / 8 < f.bitmap.length := by
    intro i j hi hj
    have h1 : i + j * r.width < r.width * r.height := by
      have : (j + 1) * r.width ≤ r.height * r.width := Nat.mul_le_mul_right _ hj
      rw [Nat.add_mul, Nat.one_mul] at this
      rw [Nat.mul_comm r.width]
      omega
    have := hd.inside
    unfold bitmapBytes at this
    omega
  unfold drawCharAt
  rw [shifts_value h.size ⟨h.wlo, h.whi⟩ ⟨h.hlo, h.hhi⟩]; simp only [Res.bind_ok]
  rw [hr]; simp only [Res.bind_ok]
  by_cases ky : InInt (pos.y + r.oy)
  swap
  · rw [(Ends.chk _).ub fun a ha => ky (chk_eq_ok.1 ha).1]
    exact ⟨fun _ => rfl, fun hn => absurd (.inl fun k => ky k.2) hn⟩
  rw [chk_ok ky]; simp only [Res.bind_ok]
  by_cases kx : InInt (pos.x + r.ox)
  swap
  · rw [(Ends.chk _).ub fun a ha => kx (chk_eq_ok.1 ha).1]
    exact ⟨fun _ => rfl, fun hn => absurd (.inl fun k => kx k.1) hn⟩
  rw [chk_ok kx]; simp only [Res.bind_ok]
  obtain ⟨d1, d2⟩ := glyphLoop_domain (c := c) (W := g.getWidth) (H := g.getHeight) f.bitmap
    ⟨pos.x + r.ox, pos.y + r.oy⟩ r.start r.width r.height hb r.height 0 (by omega)
  have e : r.start + 0 * r.width / 8 = r.start := by omega
  rw [e] at d1 d2
  constructor
  · rintro (hbad | ⟨p, ⟨i, j, k1, k2, k3, rfl⟩, hbad⟩)
    · exact absurd ⟨kx, ky⟩ hbad
    · rw [d2 i j (Nat.zero_le _) k2 k1 k3 hbad]
      rfl
  · intro hok
    obtain ⟨ps, p1, p2⟩ := d1 fun i j _ k2 k1 k3 => by
      by_contra hno
      exact hok (.inr ⟨_, ⟨i, j, k1, k2, k3, rfl⟩, hno⟩)
    obtain ⟨fb', q1, q2⟩ := paint_paints h ps (glyphSet f.bitmap r pos) (by
      intro p _
      rw [p2]
      constructor
      · rintro ⟨i, j, _, k2, k3, k4, k5⟩
        exact ⟨i, j, k3, k2, k4, phys_inj _ _ _ k5⟩
      · rintro ⟨i, j, k1, k2, k3, k4⟩
        exact ⟨i, j, Nat.zero_le _, k2, k1, k3, by rw [k4]⟩)
    refine ⟨fb', ?_, q2⟩
    rw [p1]; simp only [Res.bind_ok]
    rw [q1]
    rfl

theorem penAt_zero (pos : Pt) (rs : List CharBitmap) : penAt pos rs 0 = pos := by
  unfold penAt
  simp

theorem penAt_succ (pos : Pt) (r : CharBitmap) (rs : List CharBitmap) (n : Nat) :
    penAt pos (r :: rs) (n + 1) = penAt ⟨pos.x + r.shift, pos.y⟩ rs n := by
  unfold penAt
  simp only [List.take_succ_cons, List.map_cons, List.sum_cons]
  congr 1
  push_cast
  omega

theorem textOverflow_cons (rot : Rotation) (W H : Int) (bm : List Byte) (r : CharBitmap) (rs : List CharBitmap) (pos : Pt) :
    TextOverflow rot W H bm (r :: rs) pos ↔ (CharOverflow rot W H bm r pos ∨ ¬ InInt (pos.x + r.shift)) ∨
      TextOverflow rot W H bm rs ⟨pos.x + r.shift, pos.y⟩ := by
  have e0 : (penAt pos (r :: rs) 1).x = pos.x + r.shift := by rw [penAt_succ, penAt_zero]
  constructor
  · rintro ⟨n, r', h1, h2⟩
    cases n with
    | zero =>
      simp only [List.getElem?_cons_zero, Option.some.injEq] at h1
      subst h1
      rw [penAt_zero, e0] at h2
      exact .inl h2
    | succ n =>
      rw [List.getElem?_cons_succ] at h1
      rw [penAt_succ, penAt_succ] at h2
      exact .inr ⟨n, r', h1, h2⟩
  · rintro (h | ⟨n, r', h1, h2⟩)
    · exact ⟨0, r, rfl, by rw [penAt_zero, e0]; exact h⟩
    · refine ⟨n + 1, r', h1, ?_⟩
      rw [penAt_succ, penAt_succ]
      exact h2

/-- **C143**: `drawStringAt`. -/
theorem drawStringAt_domain (c : Canvas) (g : Geom) (fb : FB) (h : Ready c g fb) (signed : Bool) (f : Font)
    (pos : Pt) (text : List Byte) (rs : List CharBitmap) (hr : text.map (getBitmap signed f) = rs.map .ok)
    (hd : ∀ r ∈ rs, Drawable f.bitmap r) :
    DrawsUnless c g fb (drawStringAt c g signed f fb pos text)
      (TextOverflow c.rotate g.getWidth g.getHeight f.bitmap rs pos)
      (fun p => ∃ n r, rs[n]? = some r ∧ glyphSet f.bitmap r (penAt pos rs n) p) := by
  induction text generalizing fb pos rs with
  | nil =>
    cases rs with
    | cons r rs => simp at hr
    | nil =>
      constructor
      · rintro ⟨n, r, h1, _⟩
        simp at h1
      · intro _
        refine ⟨fb, rfl, ?_⟩
        have e : (fun p => ∃ n r, ([] : List CharBitmap)[n]? = some r ∧ glyphSet f.bitmap r (penAt pos [] n) p) =
            (fun _ => False) := by
          funext p; apply propext
          simp
        rw [e]
        exact paints_refl c g fb
  | cons b bs ih =>
    cases rs with
    | nil => simp at hr
    | cons r rs =>
      simp only [List.map_cons, List.cons.injEq] at hr
      obtain ⟨hr1, hr2⟩ := hr
      obtain ⟨d1, d2⟩ := drawCharAt_domain c g fb h signed f pos b r hr1 (hd r (List.mem_cons_self ..))
      unfold DrawsUnless
      rw [textOverflow_cons]
      unfold drawStringAt
      by_cases hc : CharOverflow c.rotate g.getWidth g.getHeight f.bitmap r pos
      · rw [d1 hc]
        exact ⟨fun _ => rfl, fun hn => absurd (.inl (.inl hc)) hn⟩
      · obtain ⟨fb1, k1, k2⟩ := d2 hc
        rw [k1]; simp only [Res.bind_ok]
        by_cases hx : InInt (pos.x + r.shift)
        swap
        · rw [(Ends.chk _).ub fun a ha => hx (chk_eq_ok.1 ha).1]
          exact ⟨fun _ => rfl, fun hn => absurd (.inl (.inr hx)) hn⟩
        rw [chk_ok hx]; simp only [Res.bind_ok]
        obtain ⟨t1, t2⟩ := ih fb1 (paints_ready h k2) ⟨pos.x + r.shift, pos.y⟩ rs hr2
          (fun r' hr' => hd r' (List.mem_cons_of_mem _ hr'))
        constructor
        · rintro ((hb | hb) | hb)
          · exact absurd hb hc
          · exact absurd hx hb
          · exact t1 hb
        · intro hok
          obtain ⟨fb2, m1, m2⟩ := t2 fun hb => hok (.inr hb)
          refine ⟨fb2, m1, ?_⟩
          have := paints_trans k2 m2
          have e : (fun p => glyphSet f.bitmap r pos p ∨ ∃ n r', rs[n]? = some r' ∧
              glyphSet f.bitmap r' (penAt ⟨pos.x + r.shift, pos.y⟩ rs n) p) =
              (fun p => ∃ n r', (r :: rs)[n]? = some r' ∧ glyphSet f.bitmap r' (penAt pos (r :: rs) n) p) := by
            funext p; apply propext
            constructor
            · rintro (hq | ⟨n, r', q1, q2⟩)
              · exact ⟨0, r, rfl, by rw [penAt_zero]; exact hq⟩
              · exact ⟨n + 1, r', q1, by rw [penAt_succ]; exact q2⟩
            · rintro ⟨n, r', q1, q2⟩
              cases n with
              | zero =>
                simp only [List.getElem?_cons_zero, Option.some.injEq] at q1
                subst q1
                rw [penAt_zero] at q2
                exact .inl q2
              | succ n =>
                rw [List.getElem?_cons_succ] at q1
                rw [penAt_succ] at q2
                exact .inr ⟨n, r', q1, q2⟩
          rw [← e]
          exact this

/-- Text far off the screen is fine: when the row and all pen positions are between -1800000000 and 1800000000, nothing
overflows. -/
theorem drawStringAt_fine (c : Canvas) (g : Geom) (fb : FB) (h : Ready c g fb) (signed : Bool) (f : Font)
    (pos : Pt) (text : List Byte) (rs : List CharBitmap) (hr : text.map (getBitmap signed f) = rs.map .ok)
    (hd : ∀ r ∈ rs, Drawable f.bitmap r)
    (hx : -1800000000 ≤ pos.x ∧ pos.x + ((rs.map CharBitmap.shift).sum : Nat) ≤ 1800000000)
    (hy : -1800000000 ≤ pos.y ∧ pos.y ≤ 1800000000) :
    ∃ fb', drawStringAt c g signed f fb pos text = .ok fb' ∧
      Paints c g fb fb' (fun p => ∃ n r, rs[n]? = some r ∧ glyphSet f.bitmap r (penAt pos rs n) p) := by
  refine (drawStringAt_domain c g fb h signed f pos text rs hr hd).2 ?_
  have hW : 0 ≤ g.getWidth ∧ g.getWidth ≤ 2 ^ 28 := ⟨h.wlo, h.whi⟩
  have hH : 0 ≤ g.getHeight ∧ g.getHeight ≤ 2 ^ 28 := ⟨h.hlo, h.hhi⟩
  have hpen : ∀ n, -1800000000 ≤ (penAt pos rs n).x ∧ (penAt pos rs n).x ≤ 1800000000 := by
    intro n
    have hs : ((rs.take n).map CharBitmap.shift).sum ≤ (rs.map CharBitmap.shift).sum := by
      conv => rhs; rw [← List.take_append_drop n rs, List.map_append, List.sum_append]
      exact Nat.le_add_right _ _
    unfold penAt
    simp only
    omega
  rintro ⟨n, r, h1, h2⟩
  have hD := hd r (List.mem_of_getElem? h1)
  have o1 := hD.ox
  have o2 := hD.oy
  have o3 := hD.width
  have o4 := hD.height
  have p1 := hpen n
  have p2 := hpen (n + 1)
  have py : (penAt pos rs n).y = pos.y := rfl
  rcases h2 with (h2 | ⟨p, ⟨i, j, k1, k2, _, rfl⟩, h3⟩) | h2
  · exact h2 ⟨⟨by simp only; omega, by simp only; omega⟩, ⟨by simp only; omega, by simp only; omega⟩⟩
  · refine h3 ?_
    rw [py]
    have q1 : InInt ((penAt pos rs n).x + r.ox + i) := ⟨by omega, by omega⟩
    have q2 : InInt (pos.y + r.oy + j) := ⟨by omega, by omega⟩
    unfold Turns IntPt
    cases c.rotate <;> simp only
    · exact ⟨q1, q2⟩
    · exact ⟨⟨q1, q2⟩, ⟨by omega, by omega⟩, ⟨by omega, by omega⟩⟩
    · exact ⟨⟨q1, q2⟩, ⟨⟨by omega, by omega⟩, ⟨by omega, by omega⟩⟩, ⟨by omega, by omega⟩, ⟨by omega, by omega⟩⟩
    · exact ⟨⟨q1, q2⟩, ⟨by omega, by omega⟩, ⟨by omega, by omega⟩⟩
  · exact h2 ⟨by omega, by omega⟩

/-- A glyph of three columns at the end of the row of all `int` points: it can be drawn as a character, but as a string it
is undefined, since the pen is moved behind it. -/
example : (∃ fb', drawCharAt ⟨⟨16, 8⟩, .r0⟩ ⟨4, 8, 4⟩ ⟨List.replicate 64 0, 5⟩ true tiny ⟨2147483644, 5⟩ 0x21 =
      .ok (fb', 4)) ∧
    drawStringAt ⟨⟨16, 8⟩, .r0⟩ ⟨4, 8, 4⟩ true tiny ⟨List.replicate 64 0, 5⟩ ⟨2147483644, 5⟩ [0x21] = .ub ∧
    drawCharAt ⟨⟨16, 8⟩, .r0⟩ ⟨4, 8, 4⟩ ⟨List.replicate 64 0, 5⟩ true tiny ⟨2147483645, 5⟩ 0x21 = .ub := by
  have hd : Drawable tiny.bitmap ⟨1, 3, 3, 3, 1, -3, 4⟩ := by constructor <;> decide
  refine ⟨?_, ?_, ?_⟩
  · obtain ⟨fb', h1, _⟩ := (drawCharAt_domain ⟨⟨16, 8⟩, .r0⟩ _ _ (example_ready .r0) true tiny ⟨2147483644, 5⟩ 0x21
      ⟨1, 3, 3, 3, 1, -3, 4⟩ (by decide) hd).2 (by
        rintro (h | ⟨p, ⟨i, j, k1, k2, _, rfl⟩, h⟩)
        · exact h (by constructor <;> decide)
        · refine h ?_
          simp only [Turns, IntPt] at k1 k2 ⊢
          exact ⟨⟨by omega, by omega⟩, ⟨by omega, by omega⟩⟩)
    exact ⟨fb', h1⟩
  · exact (drawStringAt_domain ⟨⟨16, 8⟩, .r0⟩ _ _ (example_ready .r0) true tiny ⟨2147483644, 5⟩ [0x21]
      [⟨1, 3, 3, 3, 1, -3, 4⟩] (by decide) (by
        intro r hr
        rw [List.mem_singleton.1 hr]
        exact hd)).1 ⟨0, _, rfl, .inr (by decide)⟩
  · exact (drawCharAt_domain ⟨⟨16, 8⟩, .r0⟩ _ _ (example_ready .r0) true tiny ⟨2147483645, 5⟩ 0x21
      ⟨1, 3, 3, 3, 1, -3, 4⟩ (by decide) hd).1 (.inr ⟨⟨2147483648, 2⟩,
        ⟨2, 0, by decide, by decide, by decide, by decide⟩, fun h => absurd h.1.2 (by decide)⟩)

end Verif.Text
