import Verif.App.Lock
import Verif.Spi.Select
/-!
# C138: tasks which share an SPI bus

Several devices on one bus, each used in the scope of a `ChipSelector` of its pin (C91), now by several tasks.  A step is the
constructor of the `ChipSelector`, one call of `SpiDevice`, or the destructor.  Without a lock tasks disturb each other even if
each has a device of its own; with a lock around the scope of the `ChipSelector` every device sees whole frames.
-/
namespace Verif.Spi.Tasks
open Verif Verif.Hal Verif.Spi.Select Verif.App.Lock

/-! ## The program -/

/-- The scope of a `ChipSelector`, step by step. -/
inductive Scope (R : Type) where
  | enter (pin : BitVec 8) (t : Select.Task R)
  | body (pin : BitVec 8) (t : Select.Task R)
  | left (r : R)

/-- One step: GpioDigitalPin.h:38-41, a call of SpiDevice.h:15-20, GpioDigitalPin.h:43-46. -/
def Scope.step {R : Type} (plat : Platform) (net : Net) : Scope R → World → Res (Scope R × World)
  | .enter pin t, w => .ok (.body pin t, w.drive (Gpio.selectorCtor pin))
  | .body pin (.ret r), w => .ok (.left r, w.drive (Gpio.selectorDtor pin))
  | .body pin (.op o k), w => do
    let (x, w) ← plat net o w
    .ok (.body pin (k x), w)
  | .left r, w => .ok (.left r, w)

/-- The result, behind the scope. -/
def Scope.result {R : Type} : Scope R → Option R
  | .left r => some r
  | _ => none

/-- The scopes as programs of steps on the bus. -/
def machine (plat : Platform) (net : Net) (R : Type) : Machine World (Scope R) R := ⟨Scope.step plat net, Scope.result⟩

/-- A use: a pin and the code of its device driver. -/
abbrev Use (R : Type) := BitVec 8 × Select.Task R

/-- The beginning of a use. -/
def code {R : Type} (u : Use R) : Scope R := .enter u.1 u.2

/-- Tasks without a lock. -/
def free {R : Type} (plat : Platform) (net : Net) : List Nat → (Nat → Scope R) → World → Res ((Nat → Scope R) × World)
  | [], ts, w => .ok (ts, w)
  | i :: sched, ts, w => do
    let (t, w) ← (ts i).step plat net w
    free plat net sched (put ts i t) w

/-! ## Specification -/

/-- What each device has seen after a use: one frame more for its device, which talks to the driver as if it were alone. -/
def effect (R : Type) (plan : Plan) (net : Net) : Effect (Use R) R (BitVec 8 → List Seen) := fun u seen r seen' =>
  let f := u.2.ideal plan (net.slave u.1) (seen u.1 ++ [.select])
  r = f.1 ∧ seen' = fun q => if q = u.1 then f.2 ++ [.deselect] else seen q

/-- No device is selected, and they have seen `seen`. -/
def Between (net : Net) (w : World) (seen : BitVec 8 → List Seen) : Prop := Idle net w ∧ ∀ q ∈ net.pins, w.seen q = seen q

/-! ## Proof -/

theorem body_completes {R : Type} {plat : Platform} {net : Net} {pin : BitVec 8} {t : Select.Task R} {w w' : World} {r : R}
    (h : runTask plat net t w = .ok (r, w')) :
    Completes (machine plat net R) (.body pin t) w r (w'.drive (Gpio.selectorDtor pin)) := by
  induction t generalizing w with
  | ret a => cases h; exact .step _ _ _ _ _ _ rfl rfl (.done _ _ _ rfl)
  | op o k ih =>
    rw [runTask, Res.bind_eq_ok] at h
    obtain ⟨⟨x, w1⟩, h1, h2⟩ := h
    exact .step _ (.body pin (k x)) _ w1 _ _ rfl (by simp only [machine, Scope.step, h1, Res.bind_ok]) (ih x h2)

/-- Without anybody else the steps are the scope of C91. -/
theorem scope_completes {R : Type} {plat : Platform} {net : Net} {pin : BitVec 8} {t : Select.Task R} {w w' : World} {r : R}
    (h : session plat net pin t w = .ok (r, w')) : Completes (machine plat net R) (code (pin, t)) w r w' := by
  rw [session, Res.bind_eq_ok] at h
  obtain ⟨⟨x, w1⟩, h1, h2⟩ := h
  cases h2
  exact .step _ _ _ _ _ _ rfl rfl (body_completes h1)

theorem implements {plat : Platform} {plan : Plan} (hp : Exact plat plan) (net : Net) (hn : net.pins.Nodup) (R : Type) :
    Implements (machine plat net R) code (Between net) (effect R plan net) (fun u => u.1 ∈ net.pins) := by
  rintro ⟨p, t⟩ w seen hm ⟨h1, h2⟩
  obtain ⟨w', k1, k2, k3⟩ := session_exact hp net hn p hm t w h1
  rw [h2 p hm] at k1 k3
  exact ⟨_, _, w', ⟨rfl, rfl⟩, scope_completes k1, k2, fun q hq => by
    rw [k3 q hq]
    by_cases h : q = p
    · simp [h]
    · simp [h, h2 q hq]⟩

/-! ## Properties -/

/-- **C138**: tasks on one SPI bus with a lock around the scope of every `ChipSelector`, on every platform, for all devices,
programs and schedules: nothing is undefined, every device sees whole frames, and the results are those of uses one after the
other in some order, each device driver talking to its device as if it were alone. -/
theorem spi_serial {R α : Type} {plat : Platform} {plan : Plan} (hp : Exact plat plan) (net : Net) (hn : net.pins.Nodup)
    (ps : Nat → Prog (Use R) R α) (hu : ∀ i, Uses (fun u => u.1 ∈ net.pins) (ps i)) (w : World) (hw : Idle net w)
    (sched : List Nat) :
    ∃ c order ps' seen, run (machine plat net R) code sched (start ps w) = .ok c ∧
      Serves (effect R plan net) ps w.seen order ps' seen ∧
      Agrees (machine plat net R) code (Between net) (effect R plan net) c ps' seen :=
  serial (implements hp net hn R) ps hu w w.seen ⟨hw, fun _ _ => rfl⟩ sched

/-- **C138**: no deadlock. -/
theorem spi_ends {R α : Type} {plat : Platform} {plan : Plan} (hp : Exact plat plan) (net : Net) (hn : net.pins.Nodup)
    (ps : Nat → Prog (Use R) R α) (hu : ∀ i, Uses (fun u => u.1 ∈ net.pins) (ps i)) (w : World) (hw : Idle net w)
    (sched : List Nat) (n : Nat) :
    ∃ more c, run (machine plat net R) code (sched ++ more) (start ps w) = .ok c ∧ c.owner = none ∧
      ∀ i, i < n → ∃ x, c.tasks i = .out (.ret x) :=
  no_deadlock (implements hp net hn R) ps hu w w.seen ⟨hw, fun _ _ => rfl⟩ sched n

/-- The frames: what devices see after a use, with every device selected alternately with being deselected. -/
inductive Frames : List Seen → Prop where
  | nil : Frames []
  | frame (l : List Seen) (bs : List (Option Byte)) : Frames l → Frames (l ++ [.select] ++ bs.map .byte ++ [.deselect])

theorem ideal_bytes {R : Type} (plan : Plan) (slave : Slave) (t : Select.Task R) (hist : List Seen) :
    ∃ bs : List (Option Byte), (t.ideal plan slave hist).2 = hist ++ bs.map .byte := by
  induction t generalizing hist with
  | ret r => exact ⟨[], by simp [Task.ideal]⟩
  | op o k ih =>
    obtain ⟨bs, h⟩ := ih (o.ideal plan slave hist).1 (o.ideal plan slave hist).2
    have ho : ∃ cs : List (Option Byte), (o.ideal plan slave hist).2 = hist ++ cs.map .byte := by
      unfold Op.ideal
      cases plan o with
      | none => exact ⟨[], by simp⟩
      | some out => exact ⟨out, rfl⟩
    obtain ⟨cs, hc⟩ := ho
    refine ⟨cs ++ bs, ?_⟩
    rw [Task.ideal, h, hc]
    simp

theorem serves_frames {R α : Type} {plan : Plan} {net : Net} {ps ps' : Nat → Prog (Use R) R α} {order : List Nat}
    {seen seen' : BitVec 8 → List Seen} (h : Serves (effect R plan net) ps seen order ps' seen') (hs : ∀ q, Frames (seen q)) :
    ∀ q, Frames (seen' q) := by
  induction h with
  | nil => exact hs
  | snoc order ps' a' i u k r a'' _ _ he ih =>
    obtain ⟨-, rfl⟩ := he
    intro q
    by_cases hq : q = u.1
    · simp only [hq, if_true]
      obtain ⟨bs, hb⟩ := ideal_bytes plan (net.slave u.1) u.2 (a' u.1 ++ [.select])
      rw [hb]
      exact .frame _ bs (ih u.1)
    · simp only [hq, if_false]
      exact ih q

/-- **C138**: with the lock, whenever it is free, every device has seen a sequence of whole frames. -/
theorem whole_frames {R α : Type} {plat : Platform} {plan : Plan} (hp : Exact plat plan) (net : Net) (hn : net.pins.Nodup)
    (ps : Nat → Prog (Use R) R α) (hu : ∀ i, Uses (fun u => u.1 ∈ net.pins) (ps i)) (w : World) (hw : Idle net w)
    (hs : ∀ q, w.seen q = []) (sched : List Nat) :
    ∃ c, run (machine plat net R) code sched (start ps w) = .ok c ∧
      (c.owner = none → ∀ q ∈ net.pins, Frames (c.s.seen q)) := by
  obtain ⟨c, order, ps', seen, h1, h2, h3⟩ := spi_serial hp net hn ps hu w hw sched
  refine ⟨c, h1, fun ho q hq => ?_⟩
  rw [Agrees, ho] at h3
  rw [h3.2.2 q hq]
  exact serves_frames h2 (fun q => by rw [hs q]; exact .nil) q

/-- A task which sends one byte to its device. -/
def sender (pin : BitVec 8) (b : Byte) : Scope Unit := .enter pin (.op (.send [b]) fun _ => .ret ())

/-- Finding for **C138**: without a lock two tasks with a device each: both devices are selected at once, and one gets, within
its frame, the byte which was meant for the other. -/
theorem both_selected {plat : Platform} {plan : Plan} (hp : Exact plat plan) (hplan : ∀ b, plan (.send [b]) = some [some b])
    (net : Net) (p0 p1 : BitVec 8) (h0 : p0 ∈ net.pins) (h1 : p1 ∈ net.pins) (hne : p0 ≠ p1) (b0 b1 : Byte) (w : World)
    (hw : Idle net w) :
    ∃ sched ts w', free plat net sched (fun i => if i = 0 then sender p0 b0 else sender p1 b1) w = .ok (ts, w') ∧
      w'.seen p0 = w.seen p0 ++ [.select, .byte (some b0), .deselect] ∧
      w'.seen p1 = w.seen p1 ++ [.select, .byte (some b0), .byte (some b1), .deselect] := by
  have hsend : ∀ b w, plat net (.send [b]) w = .ok (some [], net.clock w (some b)) := by
    intro b w
    have := hp net (.send [b]) w
    rw [hplan] at this
    exact this
  obtain ⟨ts, h⟩ : ∃ ts, free plat net [0, 1, 0, 0, 1, 1] (fun i => if i = 0 then sender p0 b0 else sender p1 b1) w = .ok (ts,
      (net.clock ((net.clock ((w.drive (Gpio.selectorCtor p0)).drive (Gpio.selectorCtor p1)) (some b0)).drive
        (Gpio.selectorDtor p0)) (some b1)).drive (Gpio.selectorDtor p1)) := by
    simp [free, sender, put, Scope.step, hsend]
  have e0 := hw p0 h0
  have e1 := hw p1 h1
  have hne' := Ne.symm hne
  refine ⟨_, ts, _, h, ?_, ?_⟩
  · simp [World.drive, Net.clock, Net.selected, Gpio.selectorCtor, Gpio.selectorDtor, Gpio.pinReset, Gpio.pinSet, Gpio.St.drive,
      h0, hne, e0]
  · simp [World.drive, Net.clock, Net.selected, Gpio.selectorCtor, Gpio.selectorDtor, Gpio.pinReset, Gpio.pinSet, Gpio.St.drive,
      h1, hne', e1]

/-! ## Concrete cases -/

/-- The hypotheses are met on all platforms. -/
example (b : Esp.Bus) (hb : Device.Esp.Ready b) :
    (Exact arduino planArduino ∧ ∀ x, planArduino (.send [x]) = some [some x]) ∧
    (Exact (esp false b) planFull ∧ ∀ x, planFull (.send [x]) = some [some x]) ∧
    (Exact (esp true b) planHalf ∧ ∀ x, planHalf (.send [x]) = some [some x]) :=
  ⟨⟨arduino_exact, fun _ => rfl⟩, ⟨espFull_exact b hb, fun _ => rfl⟩, ⟨espHalf_exact b hb, fun _ => rfl⟩⟩

end Verif.Spi.Tasks
