import Verif.Uart.Esp
/-!
# Model of `arduino/PacketUart.cpp`

As on ESP32 the environment decides every clock reading (`millis()`) and the outcome of every `read()` (a byte or
-1).  `readBytesUntil` (Arduino `Stream`) stores the bytes arriving before its time-out up to the terminator, which is
consumed but not stored, and at most `length` of them; the environment decides which bytes arrive.
-/
namespace Verif.Uart.Arduino
open Verif Verif.Uart.Esp

/-- `bufferSize - k` converted to the 32-bit `size_t` parameter of `readBytesUntil`. -/
def toSize (n : Int) : Nat := (n % 4294967296).toNat

/-- Storing consecutive bytes. -/
def store (mem : List Byte) (pos : Nat) (bs : List Byte) : Res (List Byte) :=
  if bs = [] then .ok mem
  else if pos + bs.length ≤ mem.length then .ok (mem.take pos ++ bs ++ mem.drop (pos + bs.length))
  else .ub

/-- `Stream::readBytesUntil(terminator, buffer + pos, length)` when the bytes `arriving` arrive in time: the bytes
stored. -/
def untilBytes (arriving : List Byte) (terminator : Byte) (length : Nat) : List Byte :=
  (arriving.takeWhile (· ≠ terminator)).take length

/-- What is left of the arriving bytes after `readBytesUntil`: it stops reading when `length` bytes are stored, and
otherwise consumes the terminator. -/
def untilRest (arriving : List Byte) (terminator : Byte) (length : Nat) : List Byte :=
  if (arriving.takeWhile (· ≠ terminator)).length < length then (arriving.dropWhile (· ≠ terminator)).drop 1
  else arriving.drop length

/-- PacketUart.cpp:16-27: the loop of `Receive`. -/
def receiveLoop (env : Env) (bufferSize : Nat) (maxTime : BitVec 32) : Nat → Nat → St → Res (Nat × St)
  | 0, _, _ => .hang
  | fuel + 1, pos, s =>
    let (now, s) := tick env s
    if now < maxTime ∧ pos < bufferSize then do
      let (got, s) ← readByte env s pos 0
      if got then receiveLoop env bufferSize maxTime fuel (pos + 1) s
      else receiveLoop env bufferSize maxTime fuel pos s
    else .ok (pos, s)

/-- PacketUart.cpp:11-29 `Receive`. -/
def receive (env : Env) (fuel : Nat) (mem : List Byte) (bufferSize timeout : Nat) : Res (Nat × St) :=
  let (start, s) := tick env ⟨mem, 0, []⟩
  receiveLoop env bufferSize (start + BitVec.ofNat 32 timeout) fuel 0 s

/-- The device's time-out setting, the time-out in force during the blocking call, and the memory. -/
structure Dev where
  timeout : Nat
  used : Option Nat
  mem : List Byte
deriving DecidableEq

/-- PacketUart.cpp:33-37, 47-51 and 65-69: a positive time-out is set on the device. -/
def Dev.enter (d : Dev) (timeoutMilliseconds : Nat) : Dev :=
  if timeoutMilliseconds > 0 then { d with timeout := timeoutMilliseconds } else d

/-- PacketUart.cpp:44-56 `ReceiveUntil`. -/
def receiveUntil (arriving : List Byte) (d : Dev) (bufferSize : Nat) (endByte : Byte) (timeout : Nat) :
    Res (Nat × Dev) := do
  let old := d.timeout
  let d1 := d.enter timeout
  let bs := untilBytes arriving endByte (toSize ((bufferSize : Int) - 1))
  let m1 ← store d1.mem 0 bs
  let pos := bs.length % 65536
  let m2 ← store m1 pos [endByte]
  .ok ((pos + 1) % 65536, ⟨old, some d1.timeout, m2⟩)

/-- PacketUart.cpp:72-82: waiting for the start byte; the number of clock readings and reads made is kept.  `false`:
the deadline has passed. -/
def startLoop (env : Env) (startByte : Byte) (timeout : Nat) (maxTime : BitVec 32) :
    Nat → Nat → Nat → Res (Bool × Nat)
  | 0, _, _ => .hang
  | fuel + 1, clocks, reads =>
    if timeout = 0 ∨ env.clock clocks < maxTime then
      if env.rx reads = some startByte then .ok (true, reads + 1)
      else startLoop env startByte timeout maxTime fuel (clocks + 1) (reads + 1)
    else .ok (false, reads)

/-- PacketUart.cpp:58-85 `ReceiveBetween`; `arriving` arrives after the start byte. -/
def receiveBetween (env : Env) (fuel : Nat) (arriving : List Byte) (d : Dev) (bufferSize : Nat)
    (startByte endByte : Byte) (timeout : Nat) : Res (Nat × Dev) := do
  let old := d.timeout
  let d1 := d.enter timeout
  let maxTime := env.clock 0 + BitVec.ofNat 32 timeout
  let (found, _) ← startLoop env startByte timeout maxTime fuel 1 0
  if found then do
    let m1 ← store d1.mem 0 [startByte]
    let bs := untilBytes arriving endByte (toSize ((bufferSize : Int) - 1 - 1))
    let m2 ← store m1 1 bs
    let pos := (1 + bs.length) % 65536
    let m3 ← store m2 pos [endByte]
    .ok ((pos + 1) % 65536, ⟨old, some d1.timeout, m3⟩)
  else .ok (0, ⟨old, none, d1.mem⟩)

/-- PacketUart.cpp:31-42 `Send`: `written` is the driver's answer. -/
def send (d : Dev) (written timeout : Nat) : Nat × Dev :=
  (written % 65536, ⟨d.timeout, some (d.enter timeout).timeout, d.mem⟩)

end Verif.Uart.Arduino
