import Verif.Text.Order
/-!
# C109, whole programs: the logical picture does not depend on the rotation; C111: moved drawings
-/
namespace Verif.Text
open Verif.Canvas Verif.FrameBuffer Verif.Font

/-! ## Specification -/

/-- The command draws the same pixels on screens turned by `r` and by `r'`: it is not a line which is somewhere exactly halfway
between two pixels and whose longer coordinate runs in different directions. Turning the screen on the way is excluded. -/
def Cmd.TurnSafe (r r' : Rotation) : Cmd → Prop
  | .rotate _ => False
  | .shape (.line a b) => (if |b.y - a.y| ≤ |b.x - a.x| then backX r = backX r' else backY r = backY r') ∨ a = b ∨
      ¬ 2 * (Int.gcd (b.x - a.x) (b.y - a.y) : Int) ∣ max |b.x - a.x| |b.y - a.y|
  | _ => True

/-- The point moved by `t`. -/
def shiftBy (t p : Pt) : Pt := ⟨p.x + t.x, p.y + t.y⟩

/-- The command with all coordinates moved by `t`. -/
def Cmd.moved (t : Pt) : Cmd → Cmd
  | .shape (.pixel p) => .shape (.pixel (shiftBy t p))
  | .shape (.line a b) => .shape (.line (shiftBy t a) (shiftBy t b))
  | .shape (.rect r) => .shape (.rect ⟨shiftBy t r.topLeft, r.size⟩)
  | .shape (.fillRect r) => .shape (.fillRect ⟨shiftBy t r.topLeft, r.size⟩)
  | .shape (.circle p r filled) => .shape (.circle (shiftBy t p) r filled)
  | .text f pos bytes => .text f (shiftBy t pos) bytes
  | cmd => cmd

/-! ## Proof -/

theorem covered_turned (signed : Bool) (r r' : Rotation) (cmd : Cmd) (h : cmd.TurnSafe r r') :
    covered signed r cmd = covered signed r' cmd := by
  cases cmd with
  | shape s =>
    cases s with
    | line a b => exact funext fun p => propext ((line_turned_iff r r' a b).2 h p)
    | _ => rfl
  | _ => rfl

/-- **C109**: a program of drawings which are not somewhere halfway between two pixels makes the same picture, as the program
sees it, in every rotation and on every screen of the same size, colours and clearing included. -/
theorem turned_program (signed : Bool) (g g' : Geom) (c c' : Canvas) (fb fb' : FB) (h : Ready c g fb) (h' : Ready c' g' fb')
    (hd : g.depth ≠ 32) (hgg : g.depth = g'.depth) (hsz : c.getSize = c'.getSize) (cmds : List Cmd)
    (hv : ∀ cmd ∈ cmds, cmd.Valid signed ∧ cmd.TurnSafe c.rotate c'.rotate)
    (hpen : storedValue g.depth fb.sel = storedValue g'.depth fb'.sel)
    (hpic : ∀ p, OnScreen c p → readPixel c g fb p = readPixel c' g' fb' p) :
    ∃ fb1 fb1', execAll signed g c fb cmds = .ok (c, fb1) ∧ execAll signed g' c' fb' cmds = .ok (c', fb1') ∧
      ∀ p, OnScreen c p → readPixel c g fb1 p = readPixel c' g' fb1' p := by
  have hon : ∀ p, OnScreen c p ↔ OnScreen c' p := by
    intro p
    constructor
    · rintro ⟨a1, a2, a3, a4⟩
      exact ⟨a1, hsz ▸ a2, a3, hsz ▸ a4⟩
    · rintro ⟨a1, a2, a3, a4⟩
      exact ⟨a1, hsz ▸ a2, a3, hsz ▸ a4⟩
  induction cmds generalizing fb fb' with
  | nil => exact ⟨fb, fb', rfl, rfl, hpic⟩
  | cons cmd cmds ih =>
    obtain ⟨v1, v2⟩ := hv cmd (by simp)
    have step : ∃ fb2 fb2', cmd.exec signed g c fb = .ok (c, fb2) ∧ cmd.exec signed g' c' fb' = .ok (c', fb2') ∧
        fb2.img.length = fb.img.length ∧ fb2'.img.length = fb'.img.length ∧
        storedValue g.depth fb2.sel = storedValue g'.depth fb2'.sel ∧
        ∀ p, OnScreen c p → readPixel c g fb2 p = readPixel c' g' fb2' p := by
      by_cases hcol : ∃ x, cmd = .color x
      · obtain ⟨x, rfl⟩ := hcol
        obtain ⟨-, fb2, -, -, -, k1, k2, k3⟩ := setColor_masks g h.compiles hd [] fb x
        obtain ⟨-, fb2', -, -, -, k1', k2', k3'⟩ := setColor_masks g' h'.compiles (hgg ▸ hd) [] fb' x
        refine ⟨fb2, fb2', by simp [Cmd.exec, k1], by simp [Cmd.exec, k1'], by rw [k2], by rw [k2'], ?_, ?_⟩
        · have : fb2.sel = fb2'.sel := by rw [← BitVec.toNat_inj, k3, k3', hgg]
          rw [this, hgg]
        · intro p hp
          have := hpic p hp
          unfold readPixel at this ⊢
          rw [k2, k2']
          exact this
      · by_cases hcl : ∃ x, cmd = .clear x
        · obtain ⟨x, rfl⟩ := hcl
          obtain ⟨fb2, k1, k2, k3, -, k4⟩ := clear_fills g h.compiles h.depth h.hlo fb h.img x
          obtain ⟨fb2', k1', k2', k3', -, k4'⟩ := clear_fills g' h'.compiles h'.depth h'.hlo fb' h'.img x
          refine ⟨fb2, fb2', by simp [Cmd.exec, k1], by simp [Cmd.exec, k1'], k2, k2', by rw [k3, k3', hpen], ?_⟩
          intro p hp
          unfold readPixel
          rw [k4 _ _ (((rotation_bijective c g fb h).1 p).1 hp),
            k4' _ _ (((rotation_bijective c' g' fb' h').1 p).1 ((hon p).1 hp)), hgg]
        · have hro : ∀ x, cmd ≠ .rotate x := by rintro x rfl; exact v2
          obtain ⟨fb2, k1, k2⟩ := draw_covers signed g c fb h cmd v1 (fun x e => hcol ⟨x, e⟩) (fun x e => hcl ⟨x, e⟩) hro
          obtain ⟨fb2', k1', k2'⟩ := draw_covers signed g' c' fb' h' cmd v1 (fun x e => hcol ⟨x, e⟩)
            (fun x e => hcl ⟨x, e⟩) hro
          rw [← covered_turned signed _ _ cmd v2] at k2'
          refine ⟨fb2, fb2', k1, k1', k2.len, k2'.len, by rw [k2.sel, k2'.sel, hpen], ?_⟩
          intro p hp
          by_cases hS : covered signed c.rotate cmd p
          · rw [k2.inside p hp hS, k2'.inside p ((hon p).1 hp) hS, hpen]
          · rw [k2.outside p hp hS, k2'.outside p ((hon p).1 hp) hS, hpic p hp]
    obtain ⟨fb2, fb2', k1, k2, k3, k4, k5, k6⟩ := step
    obtain ⟨fb1, fb1', m1, m2, m3⟩ := ih fb2 fb2' (ready_any (c := c) h c.rotate k3) (ready_any (c := c') h' c'.rotate k4)
      (fun cmd hc => hv cmd (by simp [hc])) k5 k6
    exact ⟨fb1, fb1', by simp [execAll, k1, m1], by simp [execAll, k2, m2], m3⟩

theorem covered_moved (signed : Bool) (r : Rotation) (cmd : Cmd) (t q : Pt) :
    covered signed r (cmd.moved t) (shiftBy t q) ↔ covered signed r cmd q := by
  have hinj : ∀ a b : Pt, shiftBy t a = shiftBy t b ↔ a = b := by
    rintro ⟨a, b⟩ ⟨c, d⟩
    simp only [shiftBy, Pt.mk.injEq]
    omega
  cases cmd with
  | shape s =>
    cases s with
    | pixel p => exact hinj q p
    | line a b => exact lineAt_moved r a b q t
    | rect b =>
      show outline _ _ ↔ outline _ _
      simp only [outline, shiftBy]
      omega
    | fillRect b =>
      show inRect _ _ ↔ inRect _ _
      simp only [inRect, shiftBy]
      omega
    | circle p r filled =>
      simp only [Cmd.moved, covered, hinj]
      simp only [shiftBy, add_sub_add_right_eq_sub]
  | text f pos bytes =>
    simp only [Cmd.moved, covered]
    refine exists_congr fun rs => and_congr_right fun _ => ?_
    unfold textSet
    refine exists_congr fun n => exists_congr fun r => and_congr_right fun _ => ?_
    unfold glyphSet
    refine exists_congr fun i => exists_congr fun j => and_congr_right fun _ => and_congr_right fun _ => and_congr_right fun _ => ?_
    obtain ⟨qx, qy⟩ := q
    simp only [shiftBy, Pt.mk.injEq]
    omega
  | _ => exact Iff.rfl

/-- **C111**: a moved shape or text has exactly the moved pixels, as far as they are on the screen. -/
theorem draw_moved (signed : Bool) (g : Geom) (c : Canvas) (fb : FB) (h : Ready c g fb) (cmd : Cmd) (t : Pt)
    (hv : cmd.Valid signed) (hv' : (cmd.moved t).Valid signed) (hdr : cmd.Drawing) :
    ∃ S fb1 fb2, cmd.exec signed g c fb = .ok (c, fb1) ∧ Paints c g fb fb1 S ∧
      (cmd.moved t).exec signed g c fb = .ok (c, fb2) ∧ Paints c g fb fb2 (fun p => S ⟨p.x - t.x, p.y - t.y⟩) := by
  have hdr' : (cmd.moved t).Drawing := by
    cases cmd with
    | shape s => cases s <;> trivial
    | text => trivial
    | _ => exact absurd hdr id
  obtain ⟨fb1, k1, k2⟩ := draw_covers signed g c fb h cmd hv (by rintro x rfl; exact hdr) (by rintro x rfl; exact hdr)
    (by rintro x rfl; exact hdr)
  obtain ⟨fb2, k3, k4⟩ := draw_covers signed g c fb h (cmd.moved t) hv' (by intro x e; rw [e] at hdr'; exact hdr')
    (by intro x e; rw [e] at hdr'; exact hdr') (by intro x e; rw [e] at hdr'; exact hdr')
  refine ⟨covered signed c.rotate cmd, fb1, fb2, k1, k2, k3, ?_⟩
  rwa [show (fun p : Pt => covered signed c.rotate cmd ⟨p.x - t.x, p.y - t.y⟩) = covered signed c.rotate (cmd.moved t) from ?_]
  funext p
  apply propext
  rw [← covered_moved signed c.rotate cmd t]
  simp only [shiftBy, sub_add_cancel]

/-- **C111**, whole programs with colours and clearing: the picture of the moved program is the moved picture, wherever both
positions are on the screen. -/
theorem program_moved (signed : Bool) (g : Geom) (c : Canvas) (fb fb' : FB) (h : Ready c g fb) (h' : Ready c g fb')
    (hd : g.depth ≠ 32) (t : Pt) (cmds : List Cmd)
    (hv : ∀ cmd ∈ cmds, cmd.Valid signed ∧ (cmd.moved t).Valid signed ∧ ∀ r, cmd ≠ .rotate r)
    (hpen : storedValue g.depth fb.sel = storedValue g.depth fb'.sel)
    (hpic : ∀ p, OnScreen c p → OnScreen c (shiftBy t p) → readPixel c g fb p = readPixel c g fb' (shiftBy t p)) :
    ∃ fb1 fb1', execAll signed g c fb cmds = .ok (c, fb1) ∧ execAll signed g c fb' (cmds.map (Cmd.moved t)) = .ok (c, fb1') ∧
      ∀ p, OnScreen c p → OnScreen c (shiftBy t p) → readPixel c g fb1 p = readPixel c g fb1' (shiftBy t p) := by
  induction cmds generalizing fb fb' with
  | nil => exact ⟨fb, fb', rfl, rfl, hpic⟩
  | cons cmd cmds ih =>
    obtain ⟨v1, v1', v2⟩ := hv cmd (by simp)
    have step : ∃ fb2 fb2', cmd.exec signed g c fb = .ok (c, fb2) ∧ (cmd.moved t).exec signed g c fb' = .ok (c, fb2') ∧
        fb2.img.length = fb.img.length ∧ fb2'.img.length = fb'.img.length ∧
        storedValue g.depth fb2.sel = storedValue g.depth fb2'.sel ∧
        ∀ p, OnScreen c p → OnScreen c (shiftBy t p) → readPixel c g fb2 p = readPixel c g fb2' (shiftBy t p) := by
      by_cases hcol : ∃ x, cmd = .color x
      · obtain ⟨x, rfl⟩ := hcol
        obtain ⟨-, fb2, -, -, -, k1, k2, k3⟩ := setColor_masks g h.compiles hd [] fb x
        obtain ⟨-, fb2', -, -, -, k1', k2', k3'⟩ := setColor_masks g h'.compiles hd [] fb' x
        refine ⟨fb2, fb2', by simp [Cmd.exec, k1], by simp [Cmd.moved, Cmd.exec, k1'], by rw [k2], by rw [k2'], ?_, ?_⟩
        · have : fb2.sel = fb2'.sel := by rw [← BitVec.toNat_inj, k3, k3']
          rw [this]
        · intro p hp hp'
          have := hpic p hp hp'
          unfold readPixel at this ⊢
          rw [k2, k2']
          exact this
      · by_cases hcl : ∃ x, cmd = .clear x
        · obtain ⟨x, rfl⟩ := hcl
          obtain ⟨fb2, k1, k2, k3, -, k4⟩ := clear_fills g h.compiles h.depth h.hlo fb h.img x
          obtain ⟨fb2', k1', k2', k3', -, k4'⟩ := clear_fills g h'.compiles h'.depth h'.hlo fb' h'.img x
          refine ⟨fb2, fb2', by simp [Cmd.exec, k1], by simp [Cmd.moved, Cmd.exec, k1'], k2, k2', by rw [k3, k3', hpen], ?_⟩
          intro p hp hp'
          unfold readPixel
          rw [k4 _ _ (((rotation_bijective c g fb h).1 p).1 hp), k4' _ _ (((rotation_bijective c g fb' h').1 _).1 hp')]
        · have hdr : (∀ x, cmd.moved t ≠ .color x) ∧ (∀ x, cmd.moved t ≠ .clear x) ∧ ∀ x, cmd.moved t ≠ .rotate x := by
            cases cmd with
            | shape s => cases s <;> exact ⟨by simp [Cmd.moved], by simp [Cmd.moved], by simp [Cmd.moved]⟩
            | text => exact ⟨by simp [Cmd.moved], by simp [Cmd.moved], by simp [Cmd.moved]⟩
            | color x => exact absurd ⟨x, rfl⟩ hcol
            | clear x => exact absurd ⟨x, rfl⟩ hcl
            | rotate x => exact absurd rfl (v2 x)
          obtain ⟨fb2, k1, k2⟩ := draw_covers signed g c fb h cmd v1 (fun x e => hcol ⟨x, e⟩) (fun x e => hcl ⟨x, e⟩) v2
          obtain ⟨fb2', k1', k2'⟩ := draw_covers signed g c fb' h' (cmd.moved t) v1' hdr.1 hdr.2.1 hdr.2.2
          refine ⟨fb2, fb2', k1, k1', k2.len, k2'.len, by rw [k2.sel, k2'.sel, hpen], ?_⟩
          intro p hp hp'
          have hc := covered_moved signed c.rotate cmd t p
          by_cases hS : covered signed c.rotate cmd p
          · rw [k2.inside p hp hS, k2'.inside _ hp' (hc.2 hS), hpen]
          · rw [k2.outside p hp hS, k2'.outside _ hp' (fun e => hS (hc.1 e)), hpic p hp hp']
    obtain ⟨fb2, fb2', k1, k2, k3, k4, k5, k6⟩ := step
    obtain ⟨fb1, fb1', m1, m2, m3⟩ := ih fb2 fb2' (ready_any (c := c) h c.rotate k3) (ready_any (c := c) h' c.rotate k4)
      (fun cmd hc => hv cmd (by simp [hc])) k5 k6
    exact ⟨fb1, fb1', by simp [execAll, k1, m1], by simp [execAll, k2, m2], m3⟩

/-- A program which looks the same on all screens: the long line is 5 pixels, the other one leads across the short one. -/
example (r r' : Rotation) : ∀ cmd ∈ [Cmd.clear 0, .color 1, .shape (.line ⟨0, 0⟩ ⟨5, 2⟩), .shape (.line ⟨2, 7⟩ ⟨2, 1⟩),
    .shape (.circle ⟨4, 4⟩ 3 true)], cmd.Valid false ∧ cmd.TurnSafe r r' := by
  intro cmd hc
  simp only [List.mem_cons, List.not_mem_nil, or_false] at hc
  rcases hc with rfl | rfl | rfl | rfl | rfl
  · exact ⟨trivial, trivial⟩
  · exact ⟨trivial, trivial⟩
  · exact ⟨by simp only [Cmd.Valid]; decide, .inr (.inr (by decide))⟩
  · exact ⟨by simp only [Cmd.Valid]; decide, .inr (.inr (by decide))⟩
  · exact ⟨by simp only [Cmd.Valid]; decide, trivial⟩

/-- The same program may be moved by (3, -1). -/
example : ∀ cmd ∈ [Cmd.clear 0, .color 1, .shape (.line ⟨0, 0⟩ ⟨5, 2⟩), .shape (.circle ⟨4, 4⟩ 3 true)],
    cmd.Valid false ∧ (cmd.moved ⟨3, -1⟩).Valid false ∧ ∀ r, cmd ≠ .rotate r := by
  intro cmd hc
  simp only [List.mem_cons, List.not_mem_nil, or_false] at hc
  rcases hc with rfl | rfl | rfl | rfl
  · exact ⟨trivial, trivial, by simp⟩
  · exact ⟨trivial, trivial, by simp⟩
  · exact ⟨by simp only [Cmd.Valid]; decide, by simp only [Cmd.Valid, Cmd.moved, shiftBy]; decide, by simp⟩
  · exact ⟨by simp only [Cmd.Valid]; decide, by simp only [Cmd.Valid, Cmd.moved, shiftBy]; decide, by simp⟩

end Verif.Text
