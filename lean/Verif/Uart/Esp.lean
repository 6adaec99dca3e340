import Verif.Basic
/-!
# Model of `esp32-esp-idf/PacketUart.cpp` and `SimpleUartDevice.cpp` lines 63-77

The environment decides the value of every clock reading and the outcome of every driver call, by its number.
A single-byte read either stores one byte and returns 1 or stores nothing and returns something else.
The clock is the 32-bit millisecond counter (Delays.cpp:13-16).  The loops carry fuel; running out of it is
`hang`.
-/
namespace Verif.Uart.Esp
open Verif

/-- The behaviour of the outside world. -/
structure Env where
  /-- the value of the `k`-th clock reading -/
  clock : Nat → BitVec 32
  /-- the outcome of the `k`-th single-byte read -/
  rx : Nat → Option Byte

/-- The receiving side: the caller's memory from `buffer` on, the number of clock readings so far, and the reads so
far, each with the time-out it was given. -/
structure St where
  mem : List Byte
  clocks : Nat
  log : List (BitVec 32 × Option Byte)
deriving DecidableEq

/-- SimpleUartDevice.cpp:73-77 `receiveBlocking(buffer + pos, 1, timeout) == 1`.  The conversion of the time-out to
ticks is left to the environment. -/
def readByte (env : Env) (s : St) (pos : Nat) (timeout : BitVec 32) : Res (Bool × St) :=
  match env.rx s.log.length with
  | some b =>
    if pos < s.mem.length then .ok (true, { s with mem := s.mem.set pos b, log := s.log ++ [(timeout, some b)] })
    else .ub
  | none => .ok (false, { s with log := s.log ++ [(timeout, none)] })

/-- Delays.cpp:13-16 `getMillisecondTicks()`. -/
def tick (env : Env) (s : St) : BitVec 32 × St := (env.clock s.clocks, { s with clocks := s.clocks + 1 })

/-- PacketUart.cpp:25-35: the loop of `ReceiveUntil`. -/
def untilLoop (env : Env) (bufferSize : Nat) (endByte : Byte) (timeout : Nat) (maxTime : BitVec 32) :
    Nat → Nat → BitVec 32 → St → Res (Nat × St)
  | 0, _, _, _ => .hang
  | fuel + 1, pos, start, s =>
    if pos < bufferSize then
      -- line 26: the clock is only read if there is a time-out
      let (start, s) := if timeout = 0 then (start, s) else tick env s
      if timeout = 0 ∨ start < maxTime then do
        let (got, s) ← readByte env s pos (maxTime - start)
        if got then
          -- line 30: `buffer[currentPos++] == endByte`
          match s.mem[pos]? with
          | none => .ub
          | some b =>
            if b = endByte then .ok (pos + 1, s)
            else untilLoop env bufferSize endByte timeout maxTime fuel (pos + 1) start s
        else untilLoop env bufferSize endByte timeout maxTime fuel pos start s
      else .ok (pos, s)
    else .ok (pos, s)

/-- PacketUart.cpp:20-38 `ReceiveUntil`; `bufferSize` and `timeout` are 16-bit. -/
def receiveUntil (env : Env) (fuel : Nat) (mem : List Byte) (bufferSize : Nat) (endByte : Byte) (timeout : Nat) :
    Res (Nat × St) :=
  let (start, s) := tick env ⟨mem, 0, []⟩
  untilLoop env bufferSize endByte timeout (start + BitVec.ofNat 32 timeout) fuel 0 start s

/-- PacketUart.cpp:51-62: waiting for the start byte; `false` is the `return 0` of line 60. -/
def startLoop (env : Env) (startByte : Byte) (start maxTime : BitVec 32) : Nat → St → Res (Bool × St)
  | 0, _ => .hang
  | fuel + 1, s =>
    if start ≤ maxTime then do
      let (got, s) ← readByte env s 0 (maxTime - start)
      if got then
        match s.mem[0]? with
        | none => .ub
        | some b => if b = startByte then .ok (true, s) else startLoop env startByte start maxTime fuel s
      else .ok (false, s)
    else .ok (true, s)

/-- PacketUart.cpp:64-73: the rest of the packet. -/
def restLoop (env : Env) (bufferSize : Nat) (endByte : Byte) (maxTime : BitVec 32) : Nat → Nat → St → Res (Nat × St)
  | 0, _, _ => .hang
  | fuel + 1, pos, s =>
    let (start, s) := tick env s
    if start ≤ maxTime then
      if pos = bufferSize then .ok (pos, s)
      else do
        let (got, s) ← readByte env s pos (maxTime - start)
        if got then
          match s.mem[pos]? with
          | none => .ub
          | some b =>
            if b = endByte then .ok (pos + 1, s)
            else restLoop env bufferSize endByte maxTime fuel (pos + 1) s
        else restLoop env bufferSize endByte maxTime fuel pos s
    else .ok (pos, s)

/-- PacketUart.cpp:40-76 `ReceiveBetween`. -/
def receiveBetween (env : Env) (fuel : Nat) (mem : List Byte) (bufferSize : Nat) (startByte endByte : Byte)
    (timeout : Nat) : Res (Nat × St) :=
  if bufferSize < 2 then .ok (0, ⟨mem, 0, []⟩)
  else
    let (start, s) := tick env ⟨mem, 0, []⟩
    let maxTime := start + BitVec.ofNat 32 timeout
    do
      let (found, s) ← startLoop env startByte start maxTime fuel s
      if found then restLoop env bufferSize endByte maxTime fuel 1 s
      else .ok (0, s)

/-- The result of a driver call returning an `int`, converted to the `uint16_t` result of `Receive` and `Send`
(PacketUart.cpp:10-18); the driver reports errors as -1. -/
def countResult (driver : Int) : Nat := (BitVec.ofInt 16 driver).toNat

end Verif.Uart.Esp
