import Verif.Uart.ArduinoStream
/-!
# Packet reception in time

The models of Esp.lean, Arduino.lean and ArduinoStream.lean leave every clock reading and the outcome of every read to an
environment.  Here both come from one wire: bytes become available at given times, every operation takes some time, and
the clock shows the time.  The functions are those of the untimed models, operation by operation; every run is shown to be
a run of the untimed model whose environment answers as the wire has answered (TimedUntimed.lean).

Times are in microseconds.
-/
namespace Verif.Uart.Timed
open Verif
open Verif.Uart.Esp (Env St)

/-! ## The world -/

/-- The wire and the machine. -/
structure Wire where
  /-- the bytes on the wire, each with the time from which it can be read; `none` after the last one -/
  arrival : Nat → Option (Nat × Byte)
  /-- the time taken by the `k`-th operation (a clock reading, a read or a delay) besides waiting -/
  lag : Nat → Nat
  /-- how long the `k`-th operation waits in vain if it is given `d` milliseconds -/
  wait : Nat → Nat → Nat

/-- What is assumed of the wire and the machine: bytes arrive in order, every operation takes some time, at most `L`
besides waiting, and no operation waits longer than it is told. -/
structure Wire.Ok (w : Wire) (L : Nat) : Prop where
  lag_pos : ∀ k, 1 ≤ w.lag k
  lag_le : ∀ k, w.lag k ≤ L
  wait_le : ∀ k d, w.wait k d ≤ 1000 * d
  ordered : ∀ k t b t' b', w.arrival k = some (t, b) → w.arrival (k + 1) = some (t', b') → t ≤ t'

/-- The receiving side: the caller's memory, the time, the number of operations so far, the number of bytes taken from the
wire, and what the clock and the reads have answered. -/
structure TSt where
  mem : List Byte
  now : Nat
  ops : Nat
  taken : Nat
  clocks : List (BitVec 32)
  log : List (BitVec 32 × Option Byte)
deriving DecidableEq

/-- What the untimed model knows of the state. -/
def TSt.untimed (s : TSt) : St := ⟨s.mem, s.clocks.length, s.log⟩

/-- esp32-esp-idf/Delays.cpp:13-16 `getMillisecondTicks()` and Arduino's `millis()`: the time since the start in
milliseconds, in 32 bits. -/
def tickT (w : Wire) (s : TSt) : BitVec 32 × TSt :=
  (BitVec.ofNat 32 (s.now / 1000),
    { s with now := s.now + w.lag s.ops, ops := s.ops + 1, clocks := s.clocks ++ [BitVec.ofNat 32 (s.now / 1000)] })

/-- A read of one byte waiting for at most `d` milliseconds; `noted` is the time-out the untimed model notes. -/
def nextT (w : Wire) (s : TSt) (d : Nat) (noted : BitVec 32) : Option Byte × TSt :=
  match w.arrival s.taken with
  | some (t, b) =>
    if t ≤ s.now + w.wait s.ops d then
      (some b, { s with
        now := max s.now t + w.lag s.ops, ops := s.ops + 1, taken := s.taken + 1, log := s.log ++ [(noted, some b)] })
    else
      (none, { s with
        now := s.now + w.wait s.ops d + w.lag s.ops, ops := s.ops + 1, log := s.log ++ [(noted, none)] })
  | none =>
    (none, { s with
      now := s.now + w.wait s.ops d + w.lag s.ops, ops := s.ops + 1, log := s.log ++ [(noted, none)] })

/-- esp32-esp-idf/SimpleUartDevice.cpp:73-77 `receiveBlocking(buffer + pos, 1, d) == 1`. -/
def readByteT (w : Wire) (s : TSt) (pos : Nat) (d : BitVec 32) : Res (Bool × TSt) :=
  match nextT w s d.toNat d with
  | (some b, s) => if pos < s.mem.length then .ok (true, { s with mem := s.mem.set pos b }) else .ub
  | (none, s) => .ok (false, s)

/-! ## ESP32 -/

/-- esp32-esp-idf/PacketUart.cpp:25-35: the loop of `ReceiveUntil`. -/
def untilLoopT (w : Wire) (bufferSize : Nat) (endByte : Byte) (timeout : Nat) (maxTime : BitVec 32) :
    Nat → Nat → BitVec 32 → TSt → Res (Nat × TSt)
  | 0, _, _, _ => .hang
  | fuel + 1, pos, start, s =>
    if pos < bufferSize then
      let (start, s) := if timeout = 0 then (start, s) else tickT w s
      if timeout = 0 ∨ start < maxTime then do
        let (got, s) ← readByteT w s pos (maxTime - start)
        if got then
          match s.mem[pos]? with
          | none => .ub
          | some b =>
            if b = endByte then .ok (pos + 1, s)
            else untilLoopT w bufferSize endByte timeout maxTime fuel (pos + 1) start s
        else untilLoopT w bufferSize endByte timeout maxTime fuel pos start s
      else .ok (pos, s)
    else .ok (pos, s)

/-- A call begins: at time `now`, `ops` operations and `taken` bytes after the start. -/
def begin (mem : List Byte) (now ops taken : Nat) : TSt := ⟨mem, now, ops, taken, [], []⟩

/-- esp32-esp-idf/PacketUart.cpp:20-38 `ReceiveUntil`. -/
def receiveUntilT (w : Wire) (fuel : Nat) (s : TSt) (bufferSize : Nat) (endByte : Byte) (timeout : Nat) :
    Res (Nat × TSt) :=
  let (start, s) := tickT w s
  untilLoopT w bufferSize endByte timeout (start + BitVec.ofNat 32 timeout) fuel 0 start s

/-- esp32-esp-idf/PacketUart.cpp:51-62: waiting for the start byte. -/
def startLoopT (w : Wire) (startByte : Byte) (start maxTime : BitVec 32) : Nat → TSt → Res (Bool × TSt)
  | 0, _ => .hang
  | fuel + 1, s =>
    if start ≤ maxTime then do
      let (got, s) ← readByteT w s 0 (maxTime - start)
      if got then
        match s.mem[0]? with
        | none => .ub
        | some b => if b = startByte then .ok (true, s) else startLoopT w startByte start maxTime fuel s
      else .ok (false, s)
    else .ok (true, s)

/-- esp32-esp-idf/PacketUart.cpp:64-73: the rest of the packet. -/
def restLoopT (w : Wire) (bufferSize : Nat) (endByte : Byte) (maxTime : BitVec 32) : Nat → Nat → TSt → Res (Nat × TSt)
  | 0, _, _ => .hang
  | fuel + 1, pos, s =>
    let (start, s) := tickT w s
    if start ≤ maxTime then
      if pos = bufferSize then .ok (pos, s)
      else do
        let (got, s) ← readByteT w s pos (maxTime - start)
        if got then
          match s.mem[pos]? with
          | none => .ub
          | some b =>
            if b = endByte then .ok (pos + 1, s)
            else restLoopT w bufferSize endByte maxTime fuel (pos + 1) s
        else restLoopT w bufferSize endByte maxTime fuel pos s
    else .ok (pos, s)

/-- esp32-esp-idf/PacketUart.cpp:40-76 `ReceiveBetween`. -/
def receiveBetweenT (w : Wire) (fuel : Nat) (s : TSt) (bufferSize : Nat) (startByte endByte : Byte) (timeout : Nat) :
    Res (Nat × TSt) :=
  if bufferSize < 2 then .ok (0, s)
  else
    let (start, s) := tickT w s
    let maxTime := start + BitVec.ofNat 32 timeout
    do
      let (found, s) ← startLoopT w startByte start maxTime fuel s
      if found then restLoopT w bufferSize endByte maxTime fuel 1 s
      else .ok (0, s)

/-! ## Arduino -/

/-- arduino/PacketUart.cpp:25 `delay(1)`. -/
def delayT (w : Wire) (s : TSt) : TSt := { s with now := s.now + w.wait s.ops 1 + w.lag s.ops, ops := s.ops + 1 }

/-- arduino/PacketUart.cpp:16-27: the loop of `Receive`; `read()` does not wait. -/
def receiveLoopT (w : Wire) (bufferSize : Nat) (maxTime : BitVec 32) : Nat → Nat → TSt → Res (Nat × TSt)
  | 0, _, _ => .hang
  | fuel + 1, pos, s =>
    let (now, s) := tickT w s
    if now < maxTime ∧ pos < bufferSize then do
      let (got, s) ← readByteT w s pos 0
      if got then receiveLoopT w bufferSize maxTime fuel (pos + 1) s
      else receiveLoopT w bufferSize maxTime fuel pos (delayT w s)
    else .ok (pos, s)

/-- arduino/PacketUart.cpp:11-29 `Receive`. -/
def receiveT (w : Wire) (fuel : Nat) (s : TSt) (bufferSize timeout : Nat) : Res (Nat × TSt) :=
  let (start, s) := tickT w s
  receiveLoopT w bufferSize (start + BitVec.ofNat 32 timeout) fuel 0 s

/-- Arduino `Stream::readBytesUntil`: each `timedRead()` waits for at most the time-out set on the stream. -/
def readUntilT (w : Wire) (d : Nat) (e : Byte) (base : Nat) : Nat → Nat → TSt → Res (Nat × TSt)
  | 0, i, s => .ok (i, s)
  | n + 1, i, s =>
    match nextT w s d 0 with
    | (none, s) => .ok (i, s)
    | (some c, s) =>
      if c = e then .ok (i, s)
      else if base + i < s.mem.length then readUntilT w d e base n (i + 1) { s with mem := s.mem.set (base + i) c }
      else .ub

/-- The time-out in force: the device's own one if none is given (arduino/PacketUart.cpp:47-51, 65-69). -/
def inForce (old timeout : Nat) : Nat := if timeout > 0 then timeout else old

/-- arduino/PacketUart.cpp:44-56 `ReceiveUntil`; `old` is the time-out set on the device. -/
def receiveUntilAT (w : Wire) (old : Nat) (s : TSt) (bufferSize : Nat) (e : Byte) (timeout : Nat) : Res (Nat × TSt) := do
  let (n, s) ← readUntilT w (inForce old timeout) e 0 (Arduino.toSize ((bufferSize : Int) - 1)) 0 s
  let pos := n % 65536
  let m ← Arduino.store s.mem pos [e]
  .ok ((pos + 1) % 65536, { s with mem := m })

/-- arduino/PacketUart.cpp:72-82: waiting for the start byte. -/
def startAT (w : Wire) (sb : Byte) (timeout : Nat) (maxTime : BitVec 32) : Nat → TSt → Res (Bool × TSt)
  | 0, _ => .hang
  | fuel + 1, s =>
    let (inTime, s) := if timeout = 0 then (true, s) else (decide ((tickT w s).1 < maxTime), (tickT w s).2)
    if inTime then
      if (nextT w s 0 0).1 = some sb then .ok (true, (nextT w s 0 0).2)
      else startAT w sb timeout maxTime fuel (nextT w s 0 0).2
    else .ok (false, s)

/-- arduino/PacketUart.cpp:58-85 `ReceiveBetween`. -/
def receiveBetweenAT (w : Wire) (old fuel : Nat) (s : TSt) (bufferSize : Nat) (sb e : Byte) (timeout : Nat) :
    Res (Nat × TSt) := do
  let (start, s) := tickT w s
  let (found, s) ← startAT w sb timeout (start + BitVec.ofNat 32 timeout) fuel s
  if found then do
    let m1 ← Arduino.store s.mem 0 [sb]
    let (n, s) ← readUntilT w (inForce old timeout) e 1 (Arduino.toSize ((bufferSize : Int) - 1 - 1)) 0 { s with mem := m1 }
    let pos := (1 + n) % 65536
    let m3 ← Arduino.store s.mem pos [e]
    .ok ((pos + 1) % 65536, { s with mem := m3 })
  else .ok (0, s)

/-- What a read does to the noted state. -/
theorem next_log (w : Wire) (s : TSt) (d : Nat) (x : BitVec 32) :
    (nextT w s d x).2.log = s.log ++ [(x, (nextT w s d x).1)] ∧ (nextT w s d x).2.mem = s.mem ∧
      (nextT w s d x).2.clocks = s.clocks := by
  unfold nextT
  split
  · split <;> simp
  · simp

end Verif.Uart.Timed
