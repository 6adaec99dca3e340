import Verif.App.Locked
import Verif.Text.DrawTasks
/-!
# C137: a frame buffer used under a lock

The drawing of C134, divided into the same accesses, by tasks which take a lock while they draw.  Now the tasks may choose
colours, and they may draw wherever they like.
-/
namespace Verif.App.LockedDraw
open Verif Verif.App.Lock Verif.Canvas Verif.FrameBuffer Verif.Font Verif.Text
open Verif.Storage (Acc)

/-! ## The program -/

/-- What a task does while it has the lock: the rotation of its canvas, the colour it chooses first, and what it draws. -/
structure Sketch where
  rotation : Rotation
  color : BitVec 32
  jobs : List Job

/-- All of it. -/
def Sketch.all (u : Sketch) : List Job := .color u.color :: u.jobs

/-- The canvas of a task on the frame buffer. -/
def canvas (g : Geom) (r : Rotation) : Canvas := ⟨⟨g.getWidth, g.getHeight⟩, r⟩

/-- The accesses of a sketch; that they are defined is part of the theorem. -/
def code (signed : Bool) (g : Geom) (u : Sketch) : Acc Unit :=
  match jobsA signed g (canvas g u.rotation) u.all with
  | .ok a => a
  | _ => .hang

/-! ## Specification -/

/-- The shared state is the frame buffer, which has the size it should have. -/
def Holds (g : Geom) (s : Storage.Store) (fb : FB) : Prop :=
  s = ⟨fb.img, fb.sel.toNat⟩ ∧ (fb.img.length : Int) = g.bufSize

/-- The effect of a sketch: that of its commands in C83. -/
def effect (signed : Bool) (g : Geom) : Effect Sketch Unit FB := fun u fb _ fb' =>
  ∃ c', execAll signed g (canvas g u.rotation) fb (u.all.map Job.cmd) = .ok (c', fb')

/-- The arguments are of screen scale and the characters are in the fonts (C83). -/
def Sane (signed : Bool) (u : Sketch) : Prop := ∀ j ∈ u.jobs, j.cmd.Valid signed

/-- A frame buffer of screen scale with a depth which works. -/
structure Fine (g : Geom) : Prop where
  compiles : g.Compiles
  depth2 : g.depth ≠ 2
  depth32 : g.depth ≠ 32
  wlo : 0 ≤ g.getWidth
  hlo : 0 ≤ g.getHeight
  whi : g.getWidth ≤ 2 ^ 28
  hhi : g.getHeight ≤ 2 ^ 28

/-- The layers of a sketch. -/
def Sketch.layers (signed : Bool) (g : Geom) (u : Sketch) : List Layer :=
  Text.layers signed g ⟨u.rotation, u.color.toNat % 2 ^ g.depth⟩ (u.jobs.map Job.cmd)

/-! ## Proof -/

theorem Fine.ready {g : Geom} (h : Fine g) {fb : FB} (hl : (fb.img.length : Int) = g.bufSize) (r : Rotation) :
    Ready (canvas g r) g fb := ⟨h.compiles, h.depth2, hl, rfl, h.wlo, h.hlo, h.whi, h.hhi⟩

/-- The accesses of correct drawing, with colours, are defined. -/
theorem jobsA_defined {signed : Bool} {g : Geom} (hd : g.depth < 32) (js : List Job) : ∀ {c : Canvas} {fb : FB}, Ready c g fb →
    (∀ j ∈ js, j.cmd.Valid signed) → ∃ a, jobsA signed g c js = .ok a := by
  induction js with
  | nil => intro c fb _ _; exact ⟨_, rfl⟩
  | cons j js ih =>
    intro c fb hr hv
    simp only [List.mem_cons, forall_eq_or_imp] at hv
    have h1 : (∀ col, j ≠ .color col) → ∃ a, jobsA signed g c [j] = .ok a := fun hc =>
      let ⟨a, h, _⟩ := (alone (F := fun _ => True) [j] hr (by simpa using hv.1) (fun col h => hc col (List.mem_singleton.1 h).symm)
        (fun _ _ _ _ _ => trivial)).code
      ⟨a, h⟩
    cases j with
    | color col =>
      obtain ⟨a, h⟩ := ih hr hv.2
      exact ⟨_, by simp only [jobsA, colorMask, hd, if_true, h, Res.bind_ok]; rfl⟩
    | rotate r => exact ih (c := c.setRotation r) (fb := fb) (ready_any hr r rfl) hv.2
    | shape s =>
      obtain ⟨a, h⟩ := h1 (by simp)
      obtain ⟨rest, h'⟩ := ih hr hv.2
      simp only [jobsA, Res.bind_eq_ok] at h
      obtain ⟨ps, k1, b, k2, -⟩ := h
      exact ⟨_, by simp only [jobsA, k1, k2, h', Res.bind_ok]; rfl⟩
    | text f pos bytes =>
      obtain ⟨a, h⟩ := h1 (by simp)
      obtain ⟨rest, h'⟩ := ih hr hv.2
      simp only [jobsA, Res.bind_eq_ok] at h
      obtain ⟨ps, k1, b, k2, -⟩ := h
      exact ⟨_, by simp only [jobsA, k1, k2, h', Res.bind_ok]; rfl⟩

theorem Fine.depth_lt {g : Geom} (h : Fine g) : g.depth < 32 := by
  have := h.compiles.depth_ok
  have := h.depth32
  omega

theorem all_valid {signed : Bool} {u : Sketch} (h : Sane signed u) : ∀ j ∈ u.all, j.cmd.Valid signed := by
  intro j hj
  simp only [Sketch.all, List.mem_cons] at hj
  rcases hj with rfl | hj
  · trivial
  · exact h j hj

theorem implements (signed : Bool) {g : Geom} (hg : Fine g) :
    Implements (Locked.Store.machine Unit) (code signed g) (Holds g) (effect signed g) (Sane signed) := by
  rintro u s fb hu ⟨rfl, hl⟩
  have hr := hg.ready hl u.rotation
  obtain ⟨a, ha⟩ := jobsA_defined hg.depth_lt u.all hr (all_valid hu)
  obtain ⟨c', fb', h1, h2, -⟩ := picture signed g _ fb hr hg.depth32 (u.all.map Job.cmd) (by
    intro cmd hc
    rw [List.mem_map] at hc
    obtain ⟨j, hj, rfl⟩ := hc
    exact all_valid hu j hj)
  refine ⟨(), fb', ⟨fb'.img, fb'.sel.toNat⟩, ⟨c', h1⟩, ?_, rfl, h2.img⟩
  simp only [code, ha]
  exact Locked.Store.completes (jobsA_exec u.all h1 ha)

theorem seen_append {q : Pt} {bg v w : Option Nat} {ls ms : List Layer} (h1 : Seen q bg ls v) (h2 : Seen q v ms w) :
    Seen q bg (ls ++ ms) w := by
  induction h2 with
  | background => simpa using h1
  | covered ms S n hS => rw [← List.append_assoc]; exact .covered _ S n hS
  | uncovered ms S n r hS _ ih => rw [← List.append_assoc]; exact .uncovered _ S n r hS ih

theorem seen_sketch {signed : Bool} {g : Geom} (hg : Fine g) {u : Sketch} (hu : Sane signed u) {fb fb' : FB}
    (hl : (fb.img.length : Int) = g.bufSize) (he : effect signed g u fb () fb') :
    (fb'.img.length : Int) = g.bufSize ∧ ∀ q, InRange g q.x q.y →
      Seen q (physPixel g fb q) (u.layers signed g) (physPixel g fb' q) := by
  obtain ⟨c1, he⟩ := he
  rw [Sketch.all, List.map_cons, execAll, Res.bind_eq_ok] at he
  obtain ⟨⟨c2, fb1⟩, h1, h2⟩ := he
  simp only [Job.cmd, Cmd.exec, Res.bind_eq_ok] at h1
  obtain ⟨fb2, h1, h3⟩ := h1
  cases h3
  obtain ⟨-, fb3, -, -, -, k1, k2, k3⟩ := setColor_masks g hg.compiles hg.depth32 [] fb u.color
  obtain rfl : fb3 = fb1 := by rw [k1] at h1; exact Res.ok.inj h1
  have hr := hg.ready (fb := fb3) (by rw [k2]; exact hl) u.rotation
  obtain ⟨c', fb4, m1, m2, -, m4⟩ := picture signed g _ fb3 hr hg.depth32 (u.jobs.map Job.cmd) (by
    intro cmd hc
    rw [List.mem_map] at hc
    obtain ⟨j, hj, rfl⟩ := hc
    exact hu j hj)
  simp only [m1, Res.ok.injEq, Prod.mk.injEq] at h2
  obtain ⟨-, rfl⟩ := h2
  refine ⟨m2.img, fun q hq => ?_⟩
  have := m4 q hq
  have hpen : penOf g (canvas g u.rotation) fb3 = ⟨u.rotation, u.color.toNat % 2 ^ g.depth⟩ := by
    simp only [penOf, canvas, Pen.mk.injEq, true_and, storedValue]
    have hz : fb3.sel = 0 ↔ fb3.sel.toNat = 0 := by
      rw [← BitVec.toNat_inj]; rfl
    simp only [hz, k3]
    split
    · rename_i h1
      rw [h1]
      have := Nat.mod_lt u.color.toNat (show 0 < 2 ^ 1 by decide)
      split <;> omega
    · exact Nat.mod_mod _ _
  rw [hpen] at this
  unfold physPixel at this ⊢
  rw [k2] at this
  exact this

/-- The sketches of a task, one after the other. -/
def sketches : List Sketch → Prog Sketch Unit Unit
  | [] => .ret ()
  | u :: us => .use u fun _ => sketches us

theorem sketches_uses {signed : Bool} {us : List Sketch} (h : ∀ u ∈ us, Sane signed u) : Uses (Sane signed) (sketches us) := by
  induction us with
  | nil => trivial
  | cons u us ih => exact ⟨h u (by simp), fun _ => ih fun u hu => h u (by simp [hu])⟩

/-- The sketches drawn by a task. -/
def byTask (i : Nat) (drawn : List (Nat × Sketch)) : List Sketch := (drawn.filter fun t => t.1 = i).map (·.2)

theorem drawn_layers {signed : Bool} {g : Geom} (hg : Fine g) (us : Nat → List Sketch) (hu : ∀ i, ∀ u ∈ us i, Sane signed u)
    {fb : FB} (hl : (fb.img.length : Int) = g.bufSize) {order : List Nat} {ps' : Nat → Prog Sketch Unit Unit} {fb' : FB}
    (h : Serves (effect signed g) (fun i => sketches (us i)) fb order ps' fb') :
    ∃ drawn : List (Nat × Sketch), (fb'.img.length : Int) = g.bufSize ∧
      (∀ q, InRange g q.x q.y →
        Seen q (physPixel g fb q) (drawn.flatMap fun t => t.2.layers signed g) (physPixel g fb' q)) ∧
      ∀ i, ∃ todo, us i = byTask i drawn ++ todo ∧ ps' i = sketches todo := by
  induction h with
  | nil => exact ⟨[], hl, fun q _ => .background, fun i => ⟨us i, rfl, rfl⟩⟩
  | snoc order ps' a1 i u k r a2 _ hi he ih =>
    obtain ⟨drawn, h1, h2, h3⟩ := ih
    obtain ⟨todo, g1, g2⟩ := h3 i
    cases todo with
    | nil => rw [hi] at g2; cases g2
    | cons x xs =>
      rw [hi, sketches] at g2
      injection g2 with m1 m2
      subst m1 m2
      obtain ⟨k1, k2⟩ := seen_sketch hg (hu i u (by rw [g1]; simp)) h1 he
      refine ⟨drawn ++ [(i, u)], k1, fun q hq => ?_, fun j => ?_⟩
      · rw [List.flatMap_append]
        simpa using seen_append (h2 q hq) (k2 q hq)
      · by_cases hj : j = i
        · subst hj
          exact ⟨xs, by rw [g1]; simp [byTask], Lock.put_same _ _ _⟩
        · obtain ⟨todo', l1, l2⟩ := h3 j
          exact ⟨todo', by rw [l1]; simp [byTask, Ne.symm hj], by rw [Lock.put_other _ _ hj]; exact l2⟩

/-! ## Properties -/

/-- **C137** for a frame buffer: any number of tasks which draw sketches, in any colours and anywhere, with a lock around each;
the single accesses to the bytes interleave in any way.  Nothing is undefined, and when the lock is free the picture shows
sketches of the tasks one on top of the other, those of each task in their order; a task at its end has drawn all of its
sketches. -/
theorem draw_serial (signed : Bool) {g : Geom} (hg : Fine g) (fb : FB) (hl : (fb.img.length : Int) = g.bufSize)
    (us : Nat → List Sketch) (hu : ∀ i, ∀ u ∈ us i, Sane signed u) (sched : List Nat) :
    ∃ c, run (Locked.Store.machine Unit) (code signed g) sched (start (fun i => sketches (us i)) ⟨fb.img, fb.sel.toNat⟩) = .ok c ∧
      (c.owner = none → ∃ fb' drawn, c.s = ⟨fb'.img, fb'.sel.toNat⟩ ∧
        (∀ q, InRange g q.x q.y →
          Seen q (physPixel g fb q) (drawn.flatMap fun t => t.2.layers signed g) (physPixel g fb' q)) ∧
        ∀ i, ∃ todo, us i = byTask i drawn ++ todo ∧ (c.tasks i = .out (.ret ()) → todo = [])) := by
  obtain ⟨c, order, ps', fb', h1, h2, h3⟩ := serial (implements signed hg) (fun i => sketches (us i))
    (fun i => sketches_uses (hu i)) _ fb ⟨rfl, hl⟩ sched
  refine ⟨c, h1, fun ho => ?_⟩
  obtain ⟨drawn, -, k2, k3⟩ := drawn_layers hg us hu hl h2
  rw [Agrees, ho] at h3
  refine ⟨fb', drawn, h3.2.1, k2, fun i => ?_⟩
  obtain ⟨todo, l1, l2⟩ := k3 i
  refine ⟨todo, l1, fun hi => ?_⟩
  rw [h3.1 i, l2] at hi
  cases todo with
  | nil => rfl
  | cons u us => cases hi

/-- **C137** for a frame buffer: no deadlock. -/
theorem draw_ends (signed : Bool) {g : Geom} (hg : Fine g) (fb : FB) (hl : (fb.img.length : Int) = g.bufSize)
    (us : Nat → List Sketch) (hu : ∀ i, ∀ u ∈ us i, Sane signed u) (sched : List Nat) (n : Nat) :
    ∃ more c, run (Locked.Store.machine Unit) (code signed g) (sched ++ more)
        (start (fun i => sketches (us i)) ⟨fb.img, fb.sel.toNat⟩) = .ok c ∧
      c.owner = none ∧ ∀ i, i < n → ∃ x, c.tasks i = .out (.ret x) :=
  no_deadlock (implements signed hg) _ (fun i => sketches_uses (hu i)) _ fb ⟨rfl, hl⟩ sched n

/-! ## A concrete case -/

/-- The two tasks of `color_mixed` of C134. -/
def pair (i : Nat) : List Sketch :=
  if i = 0 then [⟨.r0, 1, [.shape (.pixel ⟨0, 0⟩)]⟩] else if i = 1 then [⟨.r0, 0, [.shape (.pixel ⟨0, 1⟩)]⟩] else []

example : Fine ⟨8, 2, 1⟩ := 
  ⟨⟨by decide, by decide, by decide, by decide, by decide, by decide, by decide, by decide, by decide⟩, by decide, by decide, by decide, by decide, by decide, by decide⟩

example : ∀ i, ∀ u ∈ pair i, Sane false u := by
  intro i u hu j hj
  unfold pair at hu
  split at hu
  · simp only [List.mem_singleton] at hu
    subst hu
    simp only [List.mem_singleton] at hj
    subst hj
    simp [Job.cmd, Cmd.Valid, SmallPt, Small]
  · split at hu
    · simp only [List.mem_singleton] at hu
      subst hu
      simp only [List.mem_singleton] at hj
      subst hj
      simp [Job.cmd, Cmd.Valid, SmallPt, Small]
    · cases hu

example : (match run (Locked.Store.machine Unit) (code false ⟨8, 2, 1⟩) (List.replicate 12 [0, 1]).flatten
      (start (fun i => sketches (pair i)) ⟨[0, 0xFF], 1⟩) with
    | .ok c => (c.owner, c.s.mem)
    | _ => (none, [])) = (none, [0x80, 0x7F]) := by decide +kernel

end Verif.App.LockedDraw
