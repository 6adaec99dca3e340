import Verif.Hal.I2cShared
/-!
# C136: tasks which use one I2C bus

`I2CDevice` has no lock.  Tasks are programs of calls of their `I2CDevice`s; a schedule says which task makes the next call of
the driver below.  On ESP32 a message is one call, `i2c_master_write_to_device` or `i2c_master_read_from_device`
(esp32-esp-idf/I2CDevice.cpp:7-15), and the driver serialises these (it takes its semaphore during a call).  On Arduino a
message is several calls of `TwoWire` (arduino/I2CDevice.cpp:4-22), which has one buffer for sending and one for receiving;
here it is one without a lock of its own.
-/
namespace Verif.Hal.I2c.Tasks
open Verif Verif.Hal.I2c Verif.Hal.I2c.Portable Verif.Hal.I2c.Shared

/-! ## ESP32: the code, call by call -/

/-- Programs of calls of the driver. -/
inductive Io (α : Type) where
  | ret (x : α)
  /-- `i2c_master_write_to_device`: success or not -/
  | write (a : BitVec 16) (data : List Byte) (k : Bool → Io α)
  /-- `i2c_master_read_from_device`: an error, or the bytes -/
  | read (a : BitVec 16) (n : Nat) (k : Option (Nat → Byte) → Io α)

namespace Io
variable {α β : Type}

/-- Sequencing. -/
def bind : Io α → (α → Io β) → Io β
  | .ret x, f => f x
  | .write a d k, f => .write a d fun ok => (k ok).bind f
  | .read a n k, f => .read a n fun r => (k r).bind f

/-- One call of the driver. -/
def step (net : Net) : Io α → World → Io α × World
  | .ret x, w => (.ret x, w)
  | .write a d k, w => (k ((net a).ack (view a w) d), w ++ [(a, .write d)])
  | .read a n k, w =>
    (k (if (net a).reads (view a w) then some ((net a).answer (view a w)) else none), w ++ [(a, .read n)])

/-- `n` calls of the driver, without anybody else. -/
def steps (net : Net) : Nat → Io α → World → Io α × World
  | 0, t, w => (t, w)
  | n + 1, t, w => steps net n (t.step net w).1 (t.step net w).2

/-- The whole program, without anybody else. -/
def exec (net : Net) : Io α → World → α × World
  | .ret x, w => (x, w)
  | .write a d k, w => (k ((net a).ack (view a w) d)).exec net (w ++ [(a, .write d)])
  | .read a n k, w =>
    (k (if (net a).reads (view a w) then some ((net a).answer (view a w)) else none)).exec net (w ++ [(a, .read n)])

/-- All addresses used are among `A`. -/
def Uses (A : BitVec 16 → Prop) : Io α → Prop
  | .ret _ => True
  | .write a _ k => A a ∧ ∀ b, (k b).Uses A
  | .read a _ k => A a ∧ ∀ r, (k r).Uses A

end Io

/-- esp32-esp-idf/I2CDevice.cpp:7-10 `sendSync`. -/
def sendIo (a : BitVec 16) (tx : List Byte) : Io Bool := .write a (tx.take (count tx)) .ret

/-- esp32-esp-idf/I2CDevice.cpp:12-15 `receiveSync`: the bytes received, or false. -/
def receiveIo (a : BitVec 16) (n : Nat) : Io (Option (List Byte)) :=
  .read a n fun r => .ret (r.map fun f => (List.range n).map f)

/-- A call of `I2CDevice`; `sendThenReceive` is I2CDevice.h:19-22. -/
def opIo (a : BitVec 16) : Op → Io (Option (List Byte))
  | .send tx => (sendIo a tx).bind fun ok => .ret (if ok then some [] else none)
  | .receive n => receiveIo a n.toNat
  | .sendThenReceive tx n => (sendIo a tx).bind fun
    | true => receiveIo a n.toNat
    | false => .ret none

/-- A program, call by call. -/
def progIo {α : Type} : Prog α → Io α
  | .ret x => .ret x
  | .call a o k => (opIo a o).bind fun r => progIo (k r)

/-- The tasks take turns. -/
def interleave {α : Type} (net : Net) : List Nat → (Nat → Io α) → World → (Nat → Io α) × World
  | [], ts, w => (ts, w)
  | i :: sched, ts, w =>
    interleave net sched (fun j => if j = i then ((ts i).step net w).1 else ts j) ((ts i).step net w).2

/-! ## Specification -/

/-- All addresses used by a program are among `A`. -/
def Within {α : Type} (A : BitVec 16 → Prop) : Prog α → Prop
  | .ret _ => True
  | .call a _ k => A a ∧ ∀ r, Within A (k r)

/-- No two tasks use a device in common. -/
def Apart (A : Nat → BitVec 16 → Prop) : Prop := ∀ i j a, A i a → A j a → i = j

/-! ## Proof -/

namespace Io
variable {α β : Type}

theorem exec_bind (net : Net) (t : Io α) (f : α → Io β) (w : World) :
    (t.bind f).exec net w = (f (t.exec net w).1).exec net (t.exec net w).2 := by
  induction t generalizing w with
  | ret x => rfl
  | write a d k ih => simp only [bind, exec, ih]
  | read a n k ih => simp only [bind, exec, ih]

theorem Uses.bind {A : BitVec 16 → Prop} {t : Io α} {f : α → Io β} (h : t.Uses A) (hf : ∀ x, (f x).Uses A) :
    (t.bind f).Uses A := by
  induction t with
  | ret x => exact hf x
  | write a d k ih => exact ⟨h.1, fun b => ih b (h.2 b)⟩
  | read a n k ih => exact ⟨h.1, fun r => ih r (h.2 r)⟩

theorem Uses.step {A : BitVec 16 → Prop} {t : Io α} (h : t.Uses A) (net : Net) (w : World) : (t.step net w).1.Uses A := by
  cases t with
  | ret x => trivial
  | write a d k => exact h.2 _
  | read a n k => exact h.2 _

/-- A call depends on and changes what its device has seen, and nothing else. -/
theorem step_local {A : BitVec 16 → Prop} {t : Io α} (h : t.Uses A) (net : Net) {w v : World}
    (hw : ∀ a, A a → view a w = view a v) :
    (t.step net w).1 = (t.step net v).1 ∧ (∀ a, A a → view a (t.step net w).2 = view a (t.step net v).2) ∧
      ∀ a, ¬ A a → view a (t.step net w).2 = view a w := by
  have other : ∀ (a b : BitVec 16) (m : Msg), b ≠ a → view b [(a, m)] = [] := fun a b m hb => view_other a b hb [m]
  cases t with
  | ret x => exact ⟨rfl, hw, fun a _ => rfl⟩
  | write a d k =>
    refine ⟨by simp only [step, hw a h.1], fun b hb => by simp only [step, view_append, hw b hb], fun b hb => ?_⟩
    have : b ≠ a := by rintro rfl; exact hb h.1
    simp only [step, view_append, other a b _ this, List.append_nil]
  | read a n k =>
    refine ⟨by simp only [step, hw a h.1], fun b hb => by simp only [step, view_append, hw b hb], fun b hb => ?_⟩
    have : b ≠ a := by rintro rfl; exact hb h.1
    simp only [step, view_append, other a b _ this, List.append_nil]

theorem steps_local {A : BitVec 16 → Prop} (n : Nat) {t : Io α} (h : t.Uses A) (net : Net) {w v : World}
    (hw : ∀ a, A a → view a w = view a v) :
    (steps net n t w).1 = (steps net n t v).1 ∧ ∀ a, A a → view a (steps net n t w).2 = view a (steps net n t v).2 := by
  induction n generalizing t w v with
  | zero => exact ⟨rfl, hw⟩
  | succ n ih =>
    obtain ⟨h1, h2, -⟩ := step_local h net hw
    simp only [steps, h1]
    exact ih (h.step net v) h2

theorem steps_ret (net : Net) (n : Nat) (x : α) (w : World) : steps net n (.ret x) w = (.ret x, w) := by
  induction n with
  | zero => rfl
  | succ n ih => exact ih

/-- Every program comes to its end. -/
theorem ends (net : Net) (t : Io α) (w : World) :
    ∃ n, ∀ m, n ≤ m → steps net m t w = (.ret (t.exec net w).1, (t.exec net w).2) := by
  induction t generalizing w with
  | ret x => exact ⟨0, fun m _ => steps_ret net m x w⟩
  | write a d k ih =>
    obtain ⟨n, h⟩ := ih ((net a).ack (view a w) d) (w ++ [(a, .write d)])
    refine ⟨n + 1, fun m hm => ?_⟩
    obtain ⟨m, rfl⟩ : ∃ k, m = k + 1 := ⟨m - 1, by omega⟩
    exact h m (by omega)
  | read a n k ih =>
    obtain ⟨n', h⟩ := ih (if (net a).reads (view a w) then some ((net a).answer (view a w)) else none) (w ++ [(a, .read n)])
    refine ⟨n' + 1, fun m hm => ?_⟩
    obtain ⟨m, rfl⟩ : ∃ k, m = k + 1 := ⟨m - 1, by omega⟩
    exact h m (by omega)

end Io

theorem interleave_alone {α : Type} (net : Net) (A : Nat → BitVec 16 → Prop) (hA : Apart A) (sched : List Nat)
    (ts : Nat → Io α) (hu : ∀ i, (ts i).Uses (A i)) (w : World) :
    (∀ i, (interleave net sched ts w).1 i = (Io.steps net (sched.count i) (ts i) w).1 ∧
      ∀ a, A i a → view a (interleave net sched ts w).2 = view a (Io.steps net (sched.count i) (ts i) w).2) ∧
    ∀ a, (∀ i, ¬ A i a) → view a (interleave net sched ts w).2 = view a w := by
  induction sched generalizing ts w with
  | nil => exact ⟨fun i => ⟨rfl, fun a _ => rfl⟩, fun a _ => rfl⟩
  | cons j sched ih =>
    obtain ⟨h1, h2⟩ := ih (fun i => if i = j then ((ts j).step net w).1 else ts i) (by
      intro i
      by_cases h : i = j
      · subst h; simp only [if_true]; exact (hu i).step net w
      · simp only [if_neg h]; exact hu i) ((ts j).step net w).2
    rw [interleave]
    refine ⟨fun i => ?_, fun a ha => ?_⟩
    · obtain ⟨k1, k2⟩ := h1 i
      by_cases h : i = j
      · subst h
        rw [List.count_cons_self, Io.steps]
        simp only [if_true] at k1 k2
        exact ⟨k1, k2⟩
      · rw [List.count_cons_of_ne (Ne.symm h)]
        simp only [if_neg h] at k1 k2
        obtain ⟨g1, g2⟩ := Io.steps_local (A := A i) (sched.count i) (hu i) net (w := ((ts j).step net w).2) (v := w) (by
          intro a ha
          exact (Io.step_local (hu j) net fun _ _ => rfl).2.2 a fun hj => h (hA i j a ha hj))
        exact ⟨k1.trans g1, fun a ha => (k2 a ha).trans (g2 a ha)⟩
    · rw [h2 a ha]
      exact (Io.step_local (hu j) net fun _ _ => rfl).2.2 a (ha j)

theorem opIo_uses {A : BitVec 16 → Prop} (a : BitVec 16) (ha : A a) (o : Op) : (opIo a o).Uses A := by
  cases o with
  | send tx => exact Io.Uses.bind ⟨ha, fun _ => trivial⟩ fun _ => trivial
  | receive n => exact ⟨ha, fun _ => trivial⟩
  | sendThenReceive tx n =>
    refine Io.Uses.bind ⟨ha, fun _ => trivial⟩ fun ok => ?_
    cases ok with
    | true => exact ⟨ha, fun _ => trivial⟩
    | false => trivial

theorem progIo_uses {α : Type} {A : BitVec 16 → Prop} {p : Prog α} (h : Within A p) : (progIo p).Uses A := by
  induction p with
  | ret x => trivial
  | call a o k ih => exact Io.Uses.bind (opIo_uses a h.1 o) fun r => ih r (h.2 r)

/-- Without anybody else a call is that of C92. -/
theorem opIo_exec (net : Net) (period : Nat) (timeout : BitVec 32) (a : BitVec 16) (o : Op) (w : World) :
    Portable.Esp.call net period timeout a o w = .ok ((opIo a o).exec net w) := by
  have own : ∀ m, view a [(a, m)] = [m] := fun m => view_own a [m]
  refine (esp_exact period timeout net a o w).trans ?_
  congr 1
  cases o with
  | send tx => simp [aloneEsp, opIo, sendIo, Io.bind, Io.exec, count_eq]
  | receive n =>
    by_cases hr : (net a).reads (view a w) = true <;> simp [aloneEsp, opIo, receiveIo, Io.exec, hr]
  | sendThenReceive tx n =>
    cases hw : (net a).ack (view a w) (tx.take (tx.length % 65536)) with
    | false => simp [aloneEsp, opIo, sendIo, Io.bind, Io.exec, count_eq, hw]
    | true =>
      by_cases hr : (net a).reads (view a w ++ [.write (tx.take (tx.length % 65536))]) = true <;>
        simp [aloneEsp, opIo, sendIo, receiveIo, Io.bind, Io.exec, count_eq, hw, hr, view_append, own]

/-! ## Properties -/

/-- Without anybody else a program is that of C92. -/
theorem progIo_exec {α : Type} (net : Net) (period : Nat) (timeout : BitVec 32) (p : Prog α) (w : World) :
    p.run (Portable.Esp.call net period timeout) w = .ok ((progIo p).exec net w) := by
  induction p generalizing w with
  | ret x => rfl
  | call a o k ih =>
    rw [Prog.run, opIo_exec, Res.bind_ok, progIo, Io.exec_bind]
    exact ih _ _

/-- **C136**, ESP32: tasks which use no device in common, in any interleaving of their calls of the driver, for all devices.
Every task comes to its end — after a number of turns which depends on nothing but itself and its devices —, with the result
it has alone, and its devices have seen what they see from it alone; devices nobody uses have seen nothing. -/
theorem esp_alone {α : Type} (net : Net) (period : Nat) (timeout : BitVec 32) (ps : Nat → Prog α) (A : Nat → BitVec 16 → Prop)
    (hA : Apart A) (hp : ∀ i, Within (A i) (ps i)) (w : World) :
    (∀ i, ∃ x v n, (ps i).run (Portable.Esp.call net period timeout) w = .ok (x, v) ∧
      ∀ sched : List Nat, n ≤ sched.count i →
        (interleave net sched (fun j => progIo (ps j)) w).1 i = .ret x ∧
        ∀ a, A i a → view a (interleave net sched (fun j => progIo (ps j)) w).2 = view a v) ∧
    ∀ (sched : List Nat) a, (∀ i, ¬ A i a) → view a (interleave net sched (fun j => progIo (ps j)) w).2 = view a w := by
  refine ⟨fun i => ?_, fun sched a ha => (interleave_alone net A hA sched _ (fun j => progIo_uses (hp j)) w).2 a ha⟩
  obtain ⟨n, hn⟩ := (progIo (ps i)).ends net w
  refine ⟨_, _, n, progIo_exec net period timeout (ps i) w, fun sched hs => ?_⟩
  obtain ⟨h1, h2⟩ := (interleave_alone net A hA sched _ (fun j => progIo_uses (hp j)) w).1 i
  rw [hn _ hs] at h1 h2
  exact ⟨h1, h2⟩

/-- A device with registers: the first byte of a message selects the one to be read. -/
def registers (value : Byte → Byte) : Dev :=
  ⟨fun _ _ => true, fun _ => true, fun seen _ =>
    match seen.reverse.findSome? (fun | .write (r :: _) => some r | _ => none) with
    | some r => value r
    | none => 0⟩

/-- Finding for **C136**: why no device may be used by two tasks: `sendThenReceive` is two calls.  Of two tasks which read
different registers of one device one may get the value of the other's register. -/
theorem register_mixed (a : BitVec 16) (value : Byte → Byte) (r0 r1 : Byte) :
    ∃ sched : List Nat, (interleave (fun _ => registers value) sched
        (fun i => progIo (.call a (.sendThenReceive [if i = 0 then r0 else r1] 1) .ret)) []).1 0 = .ret (some [value r1]) ∧
      (Prog.call a (.sendThenReceive [r0] 1) .ret).run (Portable.Esp.call (fun _ => registers value) 1 0) [] =
        .ok (some [value r0], [(a, .write [r0]), (a, .read 1)]) := by
  have own : ∀ m, view a [(a, m)] = [m] := fun m => view_own a [m]
  have own2 : ∀ m m', view a [(a, m), (a, m')] = [m, m'] := fun m m' => view_own a [m, m']
  have hc : ∀ r : Byte, count [r] = 1 := fun r => rfl
  refine ⟨[0, 1, 0], ?_, ?_⟩
  · simp [interleave, progIo, opIo, sendIo, receiveIo, Io.bind, Io.step, registers, own2, hc]
  · rw [progIo_exec]
    simp [progIo, opIo, sendIo, receiveIo, Io.bind, Io.exec, registers, own, hc]

/-! ## Arduino: the code, call by call -/

/-- What a `TwoWire` object has in its members: the address and the bytes to be sent, and the bytes received and not read. -/
structure Wire where
  address : BitVec 16
  tx : List Byte
  rx : List Byte

/-- Programs of calls of `TwoWire`. -/
inductive Tw (α : Type) where
  | ret (x : α)
  | beginTransmission (a : BitVec 16) (k : Tw α)
  /-- the number of bytes accepted -/
  | write (data : List Byte) (k : Nat → Tw α)
  /-- success or not -/
  | endTransmission (k : Bool → Tw α)
  /-- the number of bytes received -/
  | requestFrom (a : BitVec 16) (n : Nat) (k : Nat → Tw α)
  /-- the next byte received, if there is one -/
  | read (k : Option Byte → Tw α)

namespace Tw
variable {α β : Type}

/-- Sequencing. -/
def bind : Tw α → (α → Tw β) → Tw β
  | .ret x, f => f x
  | .beginTransmission a k, f => .beginTransmission a (k.bind f)
  | .write d k, f => .write d fun n => (k n).bind f
  | .endTransmission k, f => .endTransmission fun ok => (k ok).bind f
  | .requestFrom a n k, f => .requestFrom a n fun r => (k r).bind f
  | .read k, f => .read fun b => (k b).bind f

/-- One call; a message holds at most `cap` bytes. -/
def step (net : Net) (cap : Nat) : Tw α → Wire × World → Tw α × Wire × World
  | .ret x, s => (.ret x, s)
  | .beginTransmission a k, (s, w) => (k, { s with address := a, tx := [] }, w)
  | .write d k, (s, w) => (k (min d.length (cap - s.tx.length)), { s with tx := s.tx ++ d.take (cap - s.tx.length) }, w)
  | .endTransmission k, (s, w) =>
    (k ((net s.address).ack (view s.address w) s.tx), { s with tx := [] }, w ++ [(s.address, .write s.tx)])
  | .requestFrom a n k, (s, w) =>
    let got := if (net a).reads (view a w) then (List.range (min n cap)).map ((net a).answer (view a w)) else []
    (k got.length, { s with rx := got }, w ++ [(a, .read (min n cap))])
  | .read k, (s, w) => (k s.rx.head?, { s with rx := s.rx.tail }, w)

/-- The whole program, without anybody else. -/
def exec (net : Net) (cap : Nat) : Tw α → Wire × World → α × Wire × World
  | .ret x, s => (x, s)
  | .beginTransmission a k, (s, w) => k.exec net cap ({ s with address := a, tx := [] }, w)
  | .write d k, (s, w) =>
    (k (min d.length (cap - s.tx.length))).exec net cap ({ s with tx := s.tx ++ d.take (cap - s.tx.length) }, w)
  | .endTransmission k, (s, w) =>
    (k ((net s.address).ack (view s.address w) s.tx)).exec net cap ({ s with tx := [] }, w ++ [(s.address, .write s.tx)])
  | .requestFrom a n k, (s, w) =>
    let got := if (net a).reads (view a w) then (List.range (min n cap)).map ((net a).answer (view a w)) else []
    (k got.length).exec net cap ({ s with rx := got }, w ++ [(a, .read (min n cap))])
  | .read k, (s, w) => (k s.rx.head?).exec net cap ({ s with rx := s.rx.tail }, w)

theorem exec_bind (net : Net) (cap : Nat) (t : Tw α) (f : α → Tw β) (s : Wire × World) :
    (t.bind f).exec net cap s = (f (t.exec net cap s).1).exec net cap (t.exec net cap s).2 := by
  induction t generalizing s with
  | ret x => rfl
  | beginTransmission a k ih => simp only [bind, exec, ih]
  | write d k ih => simp only [bind, exec, ih]
  | endTransmission k ih => simp only [bind, exec, ih]
  | requestFrom a n k ih => simp only [bind, exec, ih]
  | read k ih => simp only [bind, exec, ih]

end Tw

/-- arduino/I2CDevice.cpp:4-9 `sendSync`. -/
def sendTw (a : BitVec 16) (tx : List Byte) : Tw Bool :=
  .beginTransmission a (.write (tx.take (count tx)) fun result => .endTransmission fun ok => .ret (ok && result == count tx))

/-- arduino/I2CDevice.cpp:18-20: `data[i] = read()`, −1 converted to `uint8_t` when there is nothing. -/
def readTw : Nat → Tw (List Byte)
  | 0 => .ret []
  | n + 1 => .read fun b => (readTw n).bind fun bs => .ret (b.getD 0xFF :: bs)

/-- arduino/I2CDevice.cpp:11-22 `receiveSync`. -/
def receiveTw (a : BitVec 16) (n : Nat) : Tw (Option (List Byte)) :=
  .requestFrom a n fun recv => if recv ≠ n then .ret none else (readTw n).bind fun bs => .ret (some bs)

/-- A call of `I2CDevice`; `sendThenReceive` is I2CDevice.h:19-22. -/
def opTw (a : BitVec 16) : Op → Tw (Option (List Byte))
  | .send tx => (sendTw a tx).bind fun ok => .ret (if ok then some [] else none)
  | .receive n => receiveTw a n.toNat
  | .sendThenReceive tx n => (sendTw a tx).bind fun
    | true => receiveTw a n.toNat
    | false => .ret none

/-- The tasks take turns. -/
def interleaveTw {α : Type} (net : Net) (cap : Nat) : List Nat → (Nat → Tw α) → Wire × World → (Nat → Tw α) × Wire × World
  | [], ts, s => (ts, s)
  | i :: sched, ts, s =>
    interleaveTw net cap sched (fun j => if j = i then ((ts i).step net cap s).1 else ts j) ((ts i).step net cap s).2

theorem readTw_exec (net : Net) (cap : Nat) (bs : List Byte) (s : Wire) (hs : s.rx = bs) (w : World) :
    ∃ s', (readTw bs.length).exec net cap (s, w) = (bs, s', w) := by
  induction bs generalizing s with
  | nil => exact ⟨s, rfl⟩
  | cons b bs ih =>
    obtain ⟨s', h⟩ := ih { s with rx := s.rx.tail } (by simp [hs])
    refine ⟨s', ?_⟩
    rw [List.length_cons, readTw, Tw.exec, Tw.exec_bind, h]
    simp [Tw.exec, hs]

theorem receiveTw_exec (net : Net) (cap : Nat) (a : BitVec 16) (n : Nat) (s : Wire) (w : World) :
    ∃ s', (receiveTw a n).exec net cap (s, w) = ((receiveIdeal net cap a n w).1, s', (receiveIdeal net cap a n w).2) := by
  rw [receiveTw, Tw.exec]
  by_cases hr : (net a).reads (view a w) = true
  · by_cases hn : n ≤ cap
    · obtain ⟨s', h⟩ := readTw_exec net cap ((List.range n).map ((net a).answer (view a w)))
        { s with rx := (List.range n).map ((net a).answer (view a w)) } rfl (w ++ [(a, .read n)])
      rw [List.length_map, List.length_range] at h
      refine ⟨s', ?_⟩
      simp only [hr, if_true, Nat.min_eq_left hn, List.length_map, List.length_range, ne_eq, not_true_eq_false, if_false,
        Tw.exec_bind, h, Tw.exec, receiveIdeal, hn, and_self]
    · have h1 : n ≠ 0 := by omega
      have h2 : min n cap ≠ n := by omega
      simp [hr, h2, Tw.exec, receiveIdeal, hn, h1]
  · by_cases hn : n = 0
    · subst hn
      simp [hr, readTw, Tw.bind, Tw.exec, receiveIdeal]
    · have : ¬ (0 = n) := Ne.symm hn
      simp [hr, this, Tw.exec, receiveIdeal, hn]

theorem sendTw_exec (net : Net) (cap : Nat) (a : BitVec 16) (tx : List Byte) (s : Wire) (w : World) :
    ∃ s', (sendTw a tx).exec net cap (s, w) = ((sendIdeal net cap a tx w).1, s', (sendIdeal net cap a tx w).2) := by
  have h1 : (tx.take (count tx)).take cap = tx.take (min (tx.length % 65536) cap) := by
    rw [List.take_take, count_eq, Nat.min_comm]
  have h2 : min (tx.take (count tx)).length cap = min (tx.length % 65536) cap := by
    have := Nat.mod_le tx.length 65536
    rw [List.length_take, count_eq]
    omega
  refine ⟨⟨a, [], s.rx⟩, ?_⟩
  simp only [sendTw, Tw.exec, List.length_nil, Nat.sub_zero, List.nil_append, h1, h2, sendIdeal, Prod.mk.injEq, and_true]
  rw [Bool.and_comm]
  congr 1
  rw [count_eq, Bool.eq_iff_iff]
  simp only [beq_iff_eq, decide_eq_true_eq]
  omega

/-- Without anybody else a call is that of C92, whatever an earlier call has left in the `TwoWire` object. -/
theorem opTw_exec (net : Net) (cap : Nat) (a : BitVec 16) (o : Op) (s : Wire) (w : World) :
    Portable.Arduino.call net cap a o w = .ok (((opTw a o).exec net cap (s, w)).1, ((opTw a o).exec net cap (s, w)).2.2) := by
  rw [Portable.Arduino.call_exact]
  congr 1
  cases o with
  | send tx =>
    obtain ⟨s', h⟩ := sendTw_exec net cap a tx s w
    simp only [opTw, Tw.exec_bind, h, Tw.exec, ideal]
  | receive n =>
    obtain ⟨s', h⟩ := receiveTw_exec net cap a n.toNat s w
    simp only [opTw, h, ideal]
  | sendThenReceive tx n =>
    obtain ⟨s', h⟩ := sendTw_exec net cap a tx s w
    simp only [opTw, Tw.exec_bind, h, ideal]
    cases (sendIdeal net cap a tx w).1 with
    | false => simp [Tw.exec]
    | true =>
      obtain ⟨s'', k⟩ := receiveTw_exec net cap a n.toNat s' (sendIdeal net cap a tx w).2
      simp [k]

/-- Finding for **C136**, Arduino: tasks disturb each other also with different devices.  Of two tasks which send a byte each,
one may have its byte sent to the device of the other; both calls report success. -/
theorem sent_astray (net : Net) (cap : Nat) (hc : 1 ≤ cap) (a0 a1 : BitVec 16) (b0 b1 : Byte) (hn : ∀ a l d, (net a).ack l d = true)
    (s : Wire) :
    ∃ sched : List Nat,
      let r := interleaveTw net cap sched (fun i => if i = 0 then sendTw a0 [b0] else sendTw a1 [b1]) (s, [])
      r.2.2 = [(a1, .write [b0]), (a1, .write [b1])] ∧ r.1 0 = .ret true ∧ r.1 1 = .ret true := by
  have h1 : min 1 cap = 1 := by omega
  have h2 : ∀ b : Byte, List.take cap [b] = [b] := fun b => List.take_of_length_le hc
  have h3 : ∀ b : Byte, count [b] = 1 := fun b => rfl
  refine ⟨[0, 1, 0, 0, 1, 1], ?_, ?_, ?_⟩
  · simp [interleaveTw, sendTw, Tw.step, hn, h1, h2, h3]
  · simp [interleaveTw, sendTw, Tw.step, hn, h1, h2, h3]
  · simp [interleaveTw, sendTw, Tw.step, hn, h1, h2, h3]

/-- Finding for **C136**, Arduino: of two tasks which read a byte each from different devices, one may get the byte of the
other's device, and the other one 0xFF; both calls report success. -/
theorem read_astray (net : Net) (cap : Nat) (hc : 1 ≤ cap) (a0 a1 : BitVec 16) (ha : a0 ≠ a1) (hn : ∀ a l, (net a).reads l = true)
    (s : Wire) :
    ∃ sched : List Nat,
      let r := interleaveTw net cap sched (fun i => if i = 0 then receiveTw a0 1 else receiveTw a1 1) (s, [])
      r.2.2 = [(a0, .read 1), (a1, .read 1)] ∧ r.1 0 = .ret (some [(net a1).answer [] 0]) ∧ r.1 1 = .ret (some [0xFF]) := by
  have h1 : min 1 cap = 1 := by omega
  have h2 : view a1 [(a0, Msg.read 1)] = [] := view_other a0 a1 (Ne.symm ha) [.read 1]
  refine ⟨[0, 1, 0, 1], ?_, ?_, ?_⟩
  · simp [interleaveTw, receiveTw, readTw, Tw.bind, Tw.step, hn, h1, h2]
  · simp [interleaveTw, receiveTw, readTw, Tw.bind, Tw.step, hn, h1, h2]
  · simp [interleaveTw, receiveTw, readTw, Tw.bind, Tw.step, hn, h1, h2]

/-! ## A concrete case -/

/-- Two tasks, which read two registers of a device each. -/
def readers (i : Nat) : Prog (List (Option (List Byte))) :=
  if i ≤ 1 then
    .call (BitVec.ofNat 16 (0x76 + i)) (.sendThenReceive [1] 1) fun r =>
      .call (BitVec.ofNat 16 (0x76 + i)) (.sendThenReceive [2] 1) fun r' => .ret [r, r']
  else .ret []

/-- The device of each task. -/
def owned (i : Nat) (a : BitVec 16) : Prop := i ≤ 1 ∧ a = BitVec.ofNat 16 (0x76 + i)

example : Apart owned := by
  rintro i j a ⟨h1, h2⟩ ⟨h3, h4⟩
  rw [h2] at h4
  have := congrArg BitVec.toNat h4
  simp only [BitVec.toNat_ofNat] at this
  omega

example (i : Nat) : Within (owned i) (readers i) := by
  unfold readers
  split
  · rename_i h
    exact ⟨⟨h, rfl⟩, fun _ => ⟨⟨h, rfl⟩, fun _ => trivial⟩⟩
  · trivial

/-- The registers hold different values; the messages of the tasks alternate. -/
example : (match (interleave (fun a => registers fun r => r + BitVec.ofNat 8 a.toNat) [0, 1, 0, 1, 1, 0, 1, 0]
    (fun i => progIo (readers i)) []).1 0 with
    | .ret x => x
    | _ => []) = [some [0x77], some [0x78]] := by decide +kernel

end Verif.Hal.I2c.Tasks
