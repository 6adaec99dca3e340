import Verif.Hal.I2cPortable
/-!
# C128: devices sharing an I2C bus behave as if alone

Drivers for devices at different addresses use one bus in turns.  A driver is an arbitrary program whose calls of its
`I2CDevice` (I2CDevice.h:10-33) depend on all results so far, failures included; the devices are those of
`Hal/I2cPortable.lean`: what a device acknowledges and answers may depend on all messages it has seen.
-/
namespace Verif.Hal.I2c.Shared
open Verif Verif.Hal.I2c Verif.Hal.I2c.Portable

/-! ### The program -/

/-- The code of a driver: calls to its own device. -/
inductive Task (α : Type) where
  | ret (x : α)
  | op (o : Op) (k : Option (List Byte) → Task α)

/-- The calls of a platform, given the devices. -/
abbrev Platform := Net → BitVec 16 → Op → World → Res (Option (List Byte) × World)

/-- The code of the driver for address `a`. -/
def Task.run {α : Type} (plat : Platform) (net : Net) (a : BitVec 16) : Task α → World → Res (α × World)
  | .ret x, w => .ok (x, w)
  | .op o k, w => do
    let (r, w) ← plat net a o w
    (k r).run plat net a w

/-- The drivers take turns; `st` is what they remember between their turns. -/
def run {σ : Type} (plat : Platform) (net : Net) (code : BitVec 16 → σ → Task σ) :
    List (BitVec 16) → (BitVec 16 → σ) → World → Res ((BitVec 16 → σ) × World)
  | [], st, w => .ok (st, w)
  | a :: rest, st, w => do
    let (s, w) ← (code a (st a)).run plat net a w
    run plat net code rest (fun b => if b = a then s else st b) w

/-! ### Specification -/

/-- A call to a device which has seen some messages: the result and the messages sent. -/
abbrev Alone := Dev → Op → List Msg → Option (List Byte) × List Msg

/-- Writing over a bus carrying at most `cap` bytes in a message. -/
def writes (cap : Nat) (tx : List Byte) : List Byte := tx.take (min (tx.length % 65536) cap)

/-- Arduino. -/
def aloneArduino (cap : Nat) : Alone := fun d o l =>
  let sent (tx : List Byte) : Bool := decide (tx.length % 65536 ≤ cap) && d.ack l (writes cap tx)
  let got (l : List Msg) (n : Nat) : Option (List Byte) :=
    if n ≤ cap ∧ d.reads l then some ((List.range n).map (d.answer l)) else if n = 0 then some [] else none
  match o with
  | .send tx => (if sent tx then some [] else none, [.write (writes cap tx)])
  | .receive n => (got l n.toNat, [.read (min n.toNat cap)])
  | .sendThenReceive tx n =>
    if sent tx then (got (l ++ [.write (writes cap tx)]) n.toNat, [.write (writes cap tx), .read (min n.toNat cap)])
    else (none, [.write (writes cap tx)])

/-- ESP32. -/
def aloneEsp : Alone := fun d o l =>
  let data (tx : List Byte) := tx.take (tx.length % 65536)
  let got (l : List Msg) (n : Nat) : Option (List Byte) :=
    if d.reads l then some ((List.range n).map (d.answer l)) else none
  match o with
  | .send tx => (if d.ack l (data tx) then some [] else none, [.write (data tx)])
  | .receive n => (got l n.toNat, [.read n.toNat])
  | .sendThenReceive tx n =>
    if d.ack l (data tx) then (got (l ++ [.write (data tx)]) n.toNat, [.write (data tx), .read n.toNat])
    else (none, [.write (data tx)])

/-- The code of a driver with its device alone: the result and what the device has seen. -/
def Task.alone {α : Type} (f : Alone) (d : Dev) : Task α → List Msg → α × List Msg
  | .ret x, l => (x, l)
  | .op o k, l => (k (f d o l).1).alone f d (l ++ (f d o l).2)

/-- Turns of a driver with its device alone. -/
def turns {σ : Type} (f : Alone) (d : Dev) (code : σ → Task σ) : Nat → σ → List Msg → σ × List Msg
  | 0, s, l => (s, l)
  | n + 1, s, l => turns f d code n ((code s).alone f d l).1 ((code s).alone f d l).2

/-! ### Proofs -/

/-- Every call is determined by the device and by what it has seen, and sends messages only to it. -/
def Exact (plat : Platform) (f : Alone) : Prop :=
  ∀ net a o w, plat net a o w = .ok ((f (net a) o (view a w)).1, w ++ (f (net a) o (view a w)).2.map (a, ·))

theorem view_append (a : BitVec 16) (w v : World) : view a (w ++ v) = view a w ++ view a v := by simp [view]

theorem view_own (a : BitVec 16) (ms : List Msg) : view a (ms.map (a, ·)) = ms := by
  unfold view
  rw [List.filter_eq_self.2 (by simp)]
  simp [Function.comp_def]

theorem view_other (a b : BitVec 16) (h : b ≠ a) (ms : List Msg) : view b (ms.map (a, ·)) = [] := by
  unfold view
  rw [List.filter_eq_nil_iff.2 (by simp [Ne.symm h])]
  rfl

/-- **C128**, Arduino: what a call does. -/
theorem arduino_exact (cap : Nat) : Exact (fun net => Portable.Arduino.call net cap) (aloneArduino cap) := by
  intro net a o w
  have own : ∀ m, view a [(a, m)] = [m] := fun m => view_own a [m]
  simp only [Arduino.call_exact]
  cases o with
  | send tx => rfl
  | receive n => rfl
  | sendThenReceive tx n =>
    have hs : sendIdeal net cap a tx w = (decide (tx.length % 65536 ≤ cap) && (net a).ack (view a w) (writes cap tx),
        w ++ [(a, .write (writes cap tx))]) := rfl
    simp only [ideal, hs, receiveIdeal, aloneArduino, view_append, own]
    split
    · simp
    · simp

/-- **C128**, ESP32: what a call does. -/
theorem esp_exact (period : Nat) (timeout : BitVec 32) :
    Exact (fun net => Portable.Esp.call net period timeout) aloneEsp := by
  intro net a o w
  have own : ∀ m, view a [(a, m)] = [m] := fun m => view_own a [m]
  simp only [Portable.Esp.call]
  cases o with
  | send tx =>
    have hle := count_le tx
    simp only [Esp.sendSync]
    rw [if_neg (by omega), Res.bind_ok]
    simp [aloneEsp, Portable.Esp.drv, Portable.Esp.messages, count_eq, Op.receives]
  | receive n =>
    simp only [Esp.receiveSync, Portable.Esp.drv, Portable.Esp.messages, List.append_nil, aloneEsp, Op.receives]
    by_cases hr : (net a).reads (view a w) = true
    · simp [hr, Portable.Esp.messages]
    · simp [hr, Portable.Esp.messages]
  | sendThenReceive tx n =>
    have hle := count_le tx
    simp only [I2c.sendThenReceive, Esp.sendSync]
    rw [if_neg (by omega), Res.bind_ok]
    simp only [Portable.Esp.drv, Portable.Esp.messages, List.append_nil, aloneEsp, count_eq]
    cases hw : (net a).ack (view a w) (tx.take (tx.length % 65536)) with
    | false => simp [Portable.Esp.messages]
    | true =>
      simp only [if_true, Esp.receiveSync, List.nil_append, Portable.Esp.messages, Op.receives, view_append, own]
      by_cases hr : (net a).reads (view a w ++ [.write (tx.take (tx.length % 65536))]) = true
      · simp [hr, Portable.Esp.messages]
      · simp [hr, Portable.Esp.messages]

theorem Task.run_exact {α : Type} {plat : Platform} {f : Alone} (hp : Exact plat f) (net : Net) (a : BitVec 16) (t : Task α)
    (w : World) :
    ∃ w', t.run plat net a w = .ok ((t.alone f (net a) (view a w)).1, w') ∧
      ∀ b, view b w' = if b = a then (t.alone f (net a) (view a w)).2 else view b w := by
  induction t generalizing w with
  | ret x => exact ⟨w, rfl, fun b => by simp only [Task.alone]; split <;> simp_all⟩
  | op o k ih =>
    obtain ⟨w', h1, h2⟩ := ih (f (net a) o (view a w)).1 (w ++ (f (net a) o (view a w)).2.map (a, ·))
    rw [view_append, view_own] at h1 h2
    refine ⟨w', ?_, fun b => ?_⟩
    · rw [Task.run, hp, Res.bind_ok]
      exact h1
    · rw [h2 b, Task.alone]
      by_cases hb : b = a
      · simp [hb]
      · rw [if_neg hb, if_neg hb, view_append, view_other a b hb, List.append_nil]

/-- **C128**, exactly: after any program every driver remembers and every device has seen what they would after the driver's
turns alone. -/
theorem run_exact {σ : Type} {plat : Platform} {f : Alone} (hp : Exact plat f) (net : Net) (code : BitVec 16 → σ → Task σ)
    (sched : List (BitVec 16)) (st : BitVec 16 → σ) (w : World) :
    ∃ st' w', run plat net code sched st w = .ok (st', w') ∧
      ∀ a, (st' a, view a w') = turns f (net a) (code a) (sched.count a) (st a) (view a w) := by
  induction sched generalizing st w with
  | nil => exact ⟨st, w, rfl, fun a => by simp [turns]⟩
  | cons b rest ih =>
    obtain ⟨w1, h1, h2⟩ := Task.run_exact hp net b (code b (st b)) w
    obtain ⟨st', w', k1, k2⟩ := ih (fun c => if c = b then ((code b (st b)).alone f (net b) (view b w)).1 else st c) w1
    refine ⟨st', w', by rw [run, h1, Res.bind_ok]; exact k1, fun a => ?_⟩
    rw [k2 a, h2 a, List.count_cons]
    by_cases h : a = b
    · subst h; simp [turns]
    · simp [h, Ne.symm h]

/-- **C128**: on either platform a driver remembers the same and its device has seen the same messages as when only this
driver has its turns, on a bus whose other devices are any others, or are not there, and have been sent anything before. -/
theorem isolation {σ : Type} {plat : Platform}
    (hp : (∃ cap, plat = fun net => Portable.Arduino.call net cap) ∨
      ∃ period timeout, plat = fun net => Portable.Esp.call net period timeout)
    (net : Net) (code : BitVec 16 → σ → Task σ) (sched : List (BitVec 16)) (st : BitVec 16 → σ) (w : World) :
    ∃ st' w', run plat net code sched st w = .ok (st', w') ∧
      ∀ a net' st0 w0, net' a = net a → st0 a = st a → view a w0 = view a w → ∃ st1 w1,
        run plat net' code (sched.filter (· == a)) st0 w0 = .ok (st1, w1) ∧ st1 a = st' a ∧ view a w1 = view a w' := by
  obtain ⟨f, hf⟩ : ∃ f, Exact plat f := by
    rcases hp with ⟨cap, rfl⟩ | ⟨period, timeout, rfl⟩
    · exact ⟨_, arduino_exact cap⟩
    · exact ⟨_, esp_exact period timeout⟩
  obtain ⟨st', w', h1, h2⟩ := run_exact hf net code sched st w
  refine ⟨st', w', h1, fun a net' st0 w0 hn hs hw => ?_⟩
  obtain ⟨st1, w1, k1, k2⟩ := run_exact hf net' code (sched.filter (· == a)) st0 w0
  refine ⟨st1, w1, k1, ?_⟩
  have e := k2 a
  rw [List.count_filter (by simp), hn, hs, hw, ← h2 a, Prod.mk.injEq] at e
  exact e

/-- **C128 (the same address twice)**: two drivers for one address do disturb each other: a device which counts the messages
it is sent answers a driver differently when another driver has written to it in between. -/
theorem same_address (cap : Nat) (hc : 1 ≤ cap) :
    let d : Dev := ⟨fun _ _ => true, fun _ => true, fun l _ => BitVec.ofNat 8 l.length⟩
    let read : Task (Option (List Byte)) := .op (.receive 1) .ret
    ∃ w1 w2 w3, read.run (fun net => Portable.Arduino.call net cap) (fun _ => d) 0x20 [] = .ok (some [0], w1) ∧
      (Task.op (.send [7]) (fun _ => Task.ret ())).run (fun net => Portable.Arduino.call net cap) (fun _ => d) 0x20 [] =
        .ok ((), w2) ∧
      read.run (fun net => Portable.Arduino.call net cap) (fun _ => d) 0x20 w2 = .ok (some [1], w3) := by
  intro d read
  obtain ⟨w1, h1, -⟩ := Task.run_exact (arduino_exact cap) (fun _ => d) 0x20 read []
  obtain ⟨w2, h2, h2'⟩ := Task.run_exact (arduino_exact cap) (fun _ => d) 0x20
    (Task.op (.send [7]) (fun _ => Task.ret ())) []
  obtain ⟨w3, h3, -⟩ := Task.run_exact (arduino_exact cap) (fun _ => d) 0x20 read w2
  have hv : view 0x20 w2 = [.write (writes cap [7])] := by rw [h2' 0x20]; rfl
  refine ⟨w1, w2, w3, ?_, h2, ?_⟩
  · rw [h1]
    simp [read, Task.alone, aloneArduino, d, hc, view]
  · rw [h3, hv]
    simp [read, Task.alone, aloneArduino, d, hc]

/-! ### An example -/

/-- The drivers read one byte from their devices at each turn and remember them. -/
def exampleCode (_ : BitVec 16) (s : List (Option (List Byte))) : Task (List (Option (List Byte))) :=
  .op (.sendThenReceive [BitVec.ofNat 8 s.length] 1) fun r => .ret (s ++ [r])

/-- Devices at 0x76 and at 0x77, where the latter does not answer. -/
example : ∃ st w, run (fun net => Portable.Arduino.call net 32) Portable.exampleNet exampleCode [0x76, 0x77, 0x76] (fun _ => []) []
      = .ok (st, w) ∧ st 0x76 = [some [0], some [1]] ∧ st 0x77 = [none] ∧ view 0x77 w = [.write [0]] ∧
    turns (aloneArduino 32) (Portable.exampleNet 0x76) (exampleCode 0x76) 2 [] [] =
      ([some [0], some [1]], [.write [0], .read 1, .write [1], .read 1]) :=
  ⟨_, _, rfl, by decide, by decide, by decide, by decide⟩

end Verif.Hal.I2c.Shared
