import Verif.Hal.GpioProps
/-!
# C88: reading a pin back

Modelled: `GpioDigitalPin::check` on both platforms, on top of `init`, `set` and `reset`.  The vendor's side is a pad per
pin: an output register, whether the output driver and the input buffer are enabled, and the pull resistors.
-/
namespace Verif.Hal.Gpio.Read
open Verif Verif.Hal.Gpio

/-- The state of the pads (vendor hardware). -/
structure Pads where
  reg : BitVec 8 → Bool
  outEn : BitVec 8 → Bool
  inEn : BitVec 8 → Bool
  up : BitVec 8 → Bool
  down : BitVec 8 → Bool

/-- The world outside: what drives a pin, if anything does, and what a floating pin happens to show. -/
structure World where
  driven : BitVec 8 → Option Bool
  noise : BitVec 8 → Bool

/-- The level of an input with the given pull resistors. -/
def outside (w : World) (up down : Bool) (p : BitVec 8) : Bool :=
  match w.driven p with
  | some b => b
  | none => if up && !down then true else if down && !up then false else w.noise p

/-- The level of the pad itself. -/
def Pads.wire (P : Pads) (w : World) (p : BitVec 8) : Bool :=
  if P.outEn p then P.reg p else outside w (P.up p) (P.down p) p

/-- `gpio_get_level` and `digitalRead`: zero unless the input buffer is enabled (documented by the vendor). -/
def Pads.read (P : Pads) (w : World) (p : BitVec 8) : Bool :=
  if P.inEn p then P.wire w p else false

/-- `gpio_set_level`/`digitalWrite`. -/
def Pads.drive (P : Pads) (p : BitVec 8) (b : Bool) : Pads :=
  { P with reg := fun q => if q = p then b else P.reg q }

/-- Puts the pins `sel` into a mode. -/
def Pads.mode (P : Pads) (sel : BitVec 8 → Bool) (inp out up down : Bool) : Pads :=
  { P with
    inEn := fun q => if sel q then inp else P.inEn q
    outEn := fun q => if sel q then out else P.outEn q
    up := fun q => if sel q then up else P.up q
    down := fun q => if sel q then down else P.down q }

/-- What an accepted `gpio_config` does: `GPIO_MODE_OUTPUT` enables the driver and disables the input buffer,
`GPIO_MODE_INPUT` the other way round. -/
def Pads.config (P : Pads) (c : Config) : Pads :=
  P.mode (fun q => c.mask.getLsbD q.toNat) (!c.output) c.output c.pullUp c.pullDown

/-- What `pinMode` of the Arduino core for ESP32 does: the bits of the mode are those of `gpio_mode_t` and of the pull
resistors, so that `OUTPUT` (3) leaves the input buffer on. -/
def Pads.pinMode (P : Pads) (p m : BitVec 8) : Pads :=
  P.mode (fun q => q == p) (m.getLsbD 0) (m.getLsbD 1) (m.getLsbD 2) (m.getLsbD 3)

/-- The calls on `GpioDigitalPin` objects. -/
inductive Op where
  | init (pin : BitVec 8) (type : Direction) (pull : PullMode)
  | set (pin : BitVec 8)
  | reset (pin : BitVec 8)

/-- The calls on ESP32 (esp32-esp-idf/GpioDigitalPin.cpp:15-23,30-45); a rejected configuration changes nothing. -/
def stepEsp (valid : BitVec 8 → Bool) (config : Config → Bool) : Op → Pads → Res Pads
  | .init pin type pull, P =>
    (initEsp valid config pin type pull).bind fun r =>
      match r with
      | (true, some c) => .ok (P.config c)
      | _ => .ok P
  | .set pin, P => .ok (P.drive pin true)
  | .reset pin, P => .ok (P.drive pin false)

def runEsp (valid : BitVec 8 → Bool) (config : Config → Bool) : List Op → Pads → Res Pads
  | [], P => .ok P
  | o :: l, P => (stepEsp valid config o P).bind (runEsp valid config l)

/-- The calls on Arduino (arduino/GpioDigitalPin.cpp:9-17,24-37). -/
def stepArduino : Op → Pads → Pads
  | .init pin type pull, P =>
    match initArduino pin type pull with
    | (_, p, m) => P.pinMode p m
  | .set pin, P => P.drive pin true
  | .reset pin, P => P.drive pin false

def runArduino : List Op → Pads → Pads
  | [], P => P
  | o :: l, P => runArduino l (stepArduino o P)

/-- esp32-esp-idf/GpioDigitalPin.cpp:25-28 and arduino/GpioDigitalPin.cpp:19-22 `check`. -/
def check (pin : BitVec 8) (P : Pads) (w : World) : Bool := P.read w pin

/-! ### Specification -/

/-- The level which the last `set` or `reset` of the pin asked for. -/
def lastLevel (p : BitVec 8) (l : List Op) : Option Bool :=
  l.reverse.findSome? fun
    | .set q => if q = p then some true else none
    | .reset q => if q = p then some false else none
    | .init .. => none

/-- The last initialisation of the pin among those which reported success. -/
def lastInit (success : BitVec 8 → Direction → PullMode → Bool) (p : BitVec 8) (l : List Op) :
    Option (Direction × PullMode) :=
  l.reverse.findSome? fun
    | .init q d pl => if q = p ∧ success q d pl then some (d, pl) else none
    | _ => none

/-- What `init` reported on ESP32. -/
def reported (valid : BitVec 8 → Bool) (config : Config → Bool) (p : BitVec 8) (d : Direction) (pl : PullMode) : Bool :=
  match initEsp valid config p d pl with
  | .ok (b, _) => b
  | _ => false

/-- The level at an input pin: what drives it, else its pull resistor, else anything. -/
def inputLevel (w : World) (pull : PullMode) (p : BitVec 8) : Bool :=
  match w.driven p, pull with
  | some b, _ => b
  | none, .up => true
  | none, .down => false
  | none, .none => w.noise p

/-- `find from the end` peels off the first element last. -/
theorem findSome_reverse_cons {α β : Type} (f : α → Option β) (a : α) (l : List α) :
    (a :: l).reverse.findSome? f = ((l.reverse.findSome? f).or (f a)) := by
  rw [List.reverse_cons, List.findSome?_append]
  cases h : f a <;> simp [List.findSome?, h]

/-- What is known of a pin's pad: register, and mode after an initialisation. -/
structure Knows (inpOfOut : Bool) (P P0 : Pads) (p : BitVec 8) (lv : Option Bool)
    (m : Option (Direction × PullMode)) : Prop where
  reg : P.reg p = lv.getD (P0.reg p)
  same : m = none → P.outEn p = P0.outEn p ∧ P.inEn p = P0.inEn p ∧ P.up p = P0.up p ∧ P.down p = P0.down p
  mode : ∀ d pl, m = some (d, pl) →
    P.outEn p = decide (d = .output) ∧ P.inEn p = (decide (d = .input) || inpOfOut) ∧ P.up p = decide (pl = .up) ∧
      P.down p = decide (pl = .down)

theorem Knows.refl (i : Bool) (P : Pads) (p : BitVec 8) : Knows i P P p none none :=
  ⟨rfl, fun _ => ⟨rfl, rfl, rfl, rfl⟩, fun _ _ h => by simp at h⟩

theorem Knows.trans {i : Bool} {P Q R : Pads} {p : BitVec 8} {l1 l2 : Option Bool} {m1 m2}
    (h1 : Knows i Q P p l1 m1) (h2 : Knows i R Q p l2 m2) : Knows i R P p (l2.or l1) (m2.or m1) := by
  refine ⟨?_, ?_, ?_⟩
  · rw [h2.reg, h1.reg]; cases l2 <;> rfl
  · intro h
    cases m2 with
    | some x => simp at h
    | none =>
      obtain ⟨a, b, c, d⟩ := h2.same rfl
      obtain ⟨a', b', c', d'⟩ := h1.same (by simpa using h)
      exact ⟨a.trans a', b.trans b', c.trans c', d.trans d'⟩
  · intro d pl h
    cases m2 with
    | some x => exact h2.mode d pl (by simpa using h)
    | none =>
      obtain ⟨a, b, c, e⟩ := h2.same rfl
      obtain ⟨a', b', c', e'⟩ := h1.mode d pl (by simpa using h)
      exact ⟨a.trans a', b.trans b', c.trans c', e.trans e'⟩

theorem knows_drive (i : Bool) (P : Pads) (p q : BitVec 8) (b : Bool) :
    Knows i (P.drive q b) P p (if q = p then some b else none) none := by
  refine ⟨?_, fun _ => ⟨rfl, rfl, rfl, rfl⟩, fun _ _ h => by simp at h⟩
  by_cases h : q = p
  · simp [Pads.drive, h]
  · simp [Pads.drive, h, Ne.symm h]

theorem knows_arduino (l : List Op) (P : Pads) (p : BitVec 8) :
    Knows true (runArduino l P) P p (lastLevel p l) (lastInit (fun _ _ _ => true) p l) := by
  induction l generalizing P with
  | nil => exact Knows.refl ..
  | cons o l ih =>
    rw [lastLevel, lastInit, findSome_reverse_cons, findSome_reverse_cons]
    refine Knows.trans (Q := stepArduino o P) ?_ (ih _)
    cases o with
    | set q => exact knows_drive _ _ _ _ _
    | reset q => exact knows_drive _ _ _ _ _
    | init q d pl =>
      refine ⟨rfl, ?_, ?_⟩
      · intro h
        have hq : p ≠ q := by rintro rfl; simp at h
        simp [stepArduino, initArduino, Pads.pinMode, Pads.mode, hq]
      · intro d' pl' h
        by_cases hq : q = p
        · simp only [hq, and_self, if_true, Option.some.injEq, Prod.mk.injEq] at h
          obtain ⟨rfl, rfl⟩ := h
          subst hq
          cases d <;> cases pl <;> simp [stepArduino, initArduino, Pads.pinMode, Pads.mode, INPUT, OUTPUT, PULLUP, PULLDOWN]
        · simp [hq] at h

theorem knows_config (valid : BitVec 8 → Bool) (config : Config → Bool) (hv : ∀ p, valid p = true → p.toNat < 64)
    (q : BitVec 8) (d : Direction) (pl : PullMode) (P : Pads) :
    ∃ Q, stepEsp valid config (.init q d pl) P = .ok Q ∧ ∀ p, Knows false Q P p none
      (if q = p ∧ reported valid config q d pl then some (d, pl) else none) := by
  cases hvq : valid q with
  | false => exact ⟨P, by simp [stepEsp, initEsp, hvq, Res.bind], fun p => by
      simpa [reported, initEsp, hvq] using Knows.refl false P p⟩
  | true =>
    obtain ⟨c, hc, hm, ho, hu, hd, -⟩ := (initEsp_exact valid config hv q d pl).2 hvq
    have hrep : reported valid config q d pl = config c := by simp [reported, hc]
    cases hcc : config c with
    | false => exact ⟨P, by simp [stepEsp, hc, hcc, Res.bind], fun p => by simpa [hrep, hcc] using Knows.refl false P p⟩
    | true =>
      refine ⟨P.config c, by simp [stepEsp, hc, hcc, Res.bind], fun p => ⟨rfl, ?_, ?_⟩⟩
      · intro h
        have hq : p ≠ q := by rintro rfl; simp [hrep, hcc] at h
        have : ¬ p.toNat = q.toNat := fun e => hq (BitVec.eq_of_toNat_eq e)
        simp [Pads.config, Pads.mode, hm, this]
      · intro d' pl' h
        by_cases hq : q = p
        · simp only [hq, true_and] at h
          subst hq
          simp only [hrep, hcc, if_true, Option.some.injEq, Prod.mk.injEq] at h
          obtain ⟨rfl, rfl⟩ := h
          have e1 : c.output = decide (d = .output) := by
            cases h1 : c.output <;> simp_all
          have e2 : c.pullUp = decide (pl = .up) := by
            cases h1 : c.pullUp <;> simp_all
          have e3 : c.pullDown = decide (pl = .down) := by
            cases h1 : c.pullDown <;> simp_all
          simp only [Pads.config, Pads.mode, hm, decide_true, if_true, e1, e2, e3, Bool.or_false]
          cases d <;> simp
        · simp [hq] at h

theorem knows_esp (valid : BitVec 8 → Bool) (config : Config → Bool) (hv : ∀ p, valid p = true → p.toNat < 64)
    (l : List Op) (P : Pads) :
    ∃ Q, runEsp valid config l P = .ok Q ∧
      ∀ p, Knows false Q P p (lastLevel p l) (lastInit (reported valid config) p l) := by
  induction l generalizing P with
  | nil => exact ⟨P, rfl, fun p => Knows.refl ..⟩
  | cons o l ih =>
    have step : ∃ Q, stepEsp valid config o P = .ok Q ∧ ∀ p, Knows false Q P p
        (match o with
          | .set q => if q = p then some true else none
          | .reset q => if q = p then some false else none
          | .init .. => none)
        (match o with
          | .init q d pl => if q = p ∧ reported valid config q d pl then some (d, pl) else none
          | _ => none) := by
      cases o with
      | set q => exact ⟨_, rfl, fun p => knows_drive _ _ _ _ _⟩
      | reset q => exact ⟨_, rfl, fun p => knows_drive _ _ _ _ _⟩
      | init q d pl => exact knows_config valid config hv q d pl P
    obtain ⟨Q, hQ, kQ⟩ := step
    obtain ⟨R, hR, kR⟩ := ih Q
    refine ⟨R, by simp [runEsp, hQ, hR, Res.bind], fun p => ?_⟩
    rw [lastLevel, lastInit, findSome_reverse_cons, findSome_reverse_cons]
    exact (kQ p).trans (kR p)

theorem outside_pull (w : World) (pl : PullMode) (p : BitVec 8) :
    outside w (decide (pl = .up)) (decide (pl = .down)) p = inputLevel w pl p := by
  unfold outside inputLevel
  cases w.driven p <;> cases pl <;> simp

/-- C88 on Arduino: after any calls on any pins, a pin initialised last as an output reads the level of its last `set` or
`reset`, and a pin initialised last as an input reads what is outside. -/
theorem check_arduino (l : List Op) (P : Pads) (w : World) (p : BitVec 8) (d : Direction) (pl : PullMode)
    (h : lastInit (fun _ _ _ => true) p l = some (d, pl)) :
    check p (runArduino l P) w =
      match d with
      | .output => (lastLevel p l).getD (P.reg p)
      | .input => inputLevel w pl p := by
  have k := knows_arduino l P p
  obtain ⟨ho, hi, hu, hd⟩ := k.mode d pl h
  unfold check Pads.read Pads.wire
  rw [ho, hi, hu, hd, k.reg]
  cases d
  · simp [outside_pull]
  · simp

/-- C88 on ESP32, inputs: a pin whose last successful initialisation was as an input reads what is outside. -/
theorem check_esp_input_partial (valid : BitVec 8 → Bool) (config : Config → Bool) (hv : ∀ p, valid p = true → p.toNat < 64)
    (l : List Op) (P : Pads) (w : World) (p : BitVec 8) (pl : PullMode)
    (h : lastInit (reported valid config) p l = some (.input, pl)) :
    ∃ Q, runEsp valid config l P = .ok Q ∧ check p Q w = inputLevel w pl p := by
  obtain ⟨Q, hQ, k⟩ := knows_esp valid config hv l P
  obtain ⟨ho, hi, hu, hd⟩ := (k p).mode .input pl h
  refine ⟨Q, hQ, ?_⟩
  unfold check Pads.read Pads.wire
  rw [ho, hi, hu, hd]
  simp [outside_pull]

/-- C88 on ESP32, outputs: the pad has the level of the last `set` or `reset`, but `check` always reads low, because
`GPIO_MODE_OUTPUT` switches the input buffer off. -/
theorem check_esp_output_low (valid : BitVec 8 → Bool) (config : Config → Bool)
    (hv : ∀ p, valid p = true → p.toNat < 64) (l : List Op) (P : Pads) (w : World) (p : BitVec 8) (pl : PullMode)
    (h : lastInit (reported valid config) p l = some (.output, pl)) :
    ∃ Q, runEsp valid config l P = .ok Q ∧ Q.wire w p = (lastLevel p l).getD (P.reg p) ∧ check p Q w = false := by
  obtain ⟨Q, hQ, k⟩ := knows_esp valid config hv l P
  obtain ⟨ho, hi, hu, hd⟩ := (k p).mode .output pl h
  refine ⟨Q, hQ, ?_, ?_⟩
  · unfold Pads.wire; rw [ho, (k p).reg]; simp
  · unfold check Pads.read; rw [hi]; simp

/-- A pin not initialised successfully keeps its mode. -/
theorem uninitialised_esp (valid : BitVec 8 → Bool) (config : Config → Bool) (hv : ∀ p, valid p = true → p.toNat < 64)
    (l : List Op) (P : Pads) (p : BitVec 8) (h : lastInit (reported valid config) p l = none) :
    ∃ Q, runEsp valid config l P = .ok Q ∧ Q.outEn p = P.outEn p ∧ Q.inEn p = P.inEn p ∧ Q.up p = P.up p ∧
      Q.down p = P.down p := by
  obtain ⟨Q, hQ, k⟩ := knows_esp valid config hv l P
  exact ⟨Q, hQ, (k p).same h⟩

/-- C88 is false on ESP32: an output which was set is high, and `check` says low. -/
theorem esp_readback_false : ∃ (l : List Op) (P : Pads) (w : World) (p : BitVec 8) (Q : Pads),
    runEsp (fun p => p.toNat < 40) (fun _ => true) l P = .ok Q ∧
    lastLevel p l = some true ∧ Q.wire w p = true ∧ check p Q w = false := by
  let P : Pads := ⟨fun _ => false, fun _ => false, fun _ => false, fun _ => false, fun _ => false⟩
  let w : World := ⟨fun _ => none, fun _ => false⟩
  obtain ⟨Q, h, hw, hc⟩ := check_esp_output_low (fun p => p.toNat < 40) (fun _ => true)
    (by intro p hp; simp at hp; omega) [.init 21 .output .none, .set 21] P w 21 .none (by decide)
  exact ⟨_, P, w, 21, Q, h, by decide, hw, hc⟩

/-- Two pins, one initialised twice: hypotheses met, and the levels expected. -/
example :
    let l : List Op := [.init 21 .input .down, .set 21, .init 5 .input .up, .init 21 .output .none, .reset 5]
    let P : Pads := ⟨fun _ => false, fun _ => false, fun _ => false, fun _ => false, fun _ => false⟩
    let w : World := ⟨fun _ => none, fun _ => false⟩
    lastInit (fun _ _ _ => true) 21 l = some (.output, .none) ∧ lastInit (fun _ _ _ => true) 5 l = some (.input, .up) ∧
    check 21 (runArduino l P) w = true ∧ check 5 (runArduino l P) w = true := by decide

example :
    let l : List Op := [.set 21, .init 21 .output .none, .init 5 .input .up, .init 60 .output .up]
    lastInit (reported (fun p => p.toNat < 40) (fun _ => true)) 21 l = some (.output, .none) ∧
    lastInit (reported (fun p => p.toNat < 40) (fun _ => true)) 5 l = some (.input, .up) ∧
    lastInit (reported (fun p => p.toNat < 40) (fun _ => true)) 60 l = none := by decide

end Verif.Hal.Gpio.Read
