import Verif.Basic
/-!
# Model of `I2CDevice.h`, `arduino/I2CDevice.cpp` and `esp32-esp-idf/I2CDevice.cpp`

The bus is arbitrary: what its functions answer is given by functions of the operations performed before.
-/
namespace Verif.Hal.I2c
open Verif

/-- `I2CDevice::sendThenReceive` (I2CDevice.h:19-22): `&&` evaluates its right operand only if the left one is true. -/
def sendThenReceive {σ : Type} (sendSync receiveSync : σ → Res (Bool × σ)) (s : σ) : Res (Bool × σ) := do
  let (ok, s) ← sendSync s
  if ok then receiveSync s else .ok (false, s)

namespace Arduino

/-- Calls of the `TwoWire` object. -/
inductive Ev where
  | beginTransmission (address : BitVec 16)
  | write (data : List Byte)
  | endTransmission (stop : Bool)
  | requestFrom (address : Int) (count : Int)
  | read
deriving DecidableEq

/-- The answers of the bus, depending on the calls made before. -/
structure Bus where
  /-- number of bytes `write` accepted -/
  written : List Ev → Nat
  /-- result of `endTransmission`, 0 is success -/
  ended : List Ev → BitVec 8
  /-- number of bytes received by `requestFrom` -/
  received : List Ev → Nat
  /-- result of `read`, −1 when there is nothing -/
  byte : List Ev → Int

/-- The calls so far and the caller's receive buffer. -/
structure St where
  calls : List Ev
  rx : List Byte
deriving DecidableEq

/-- arduino/I2CDevice.cpp:4-9 `sendSync`; `data` is the memory from the pointer on. -/
def sendSync (bus : Bus) (address : BitVec 16) (data : List Byte) (count : Nat) (s : St) : Res (Bool × St) :=
  if count > data.length then .ub
  else
    let c1 := s.calls ++ [.beginTransmission address]
    let result := bus.written c1
    let c2 := c1 ++ [.write (data.take count)]
    let code := bus.ended c2
    .ok (code == 0 && result == count, { s with calls := c2 ++ [.endTransmission true] })

/-- arduino/I2CDevice.cpp:18-20: `data[i] = read()` for `i`, …; the result is converted to `uint8_t`. -/
def readLoop (bus : Bus) : Nat → Nat → St → Res St
  | 0, _, s => .ok s
  | n + 1, i, s =>
    if i < s.rx.length then
      readLoop bus n (i + 1)
        { calls := s.calls ++ [.read], rx := s.rx.set i (BitVec.ofInt 8 (bus.byte s.calls)) }
    else .ub

/-- arduino/I2CDevice.cpp:11-22 `receiveSync`. -/
def receiveSync (bus : Bus) (address : BitVec 16) (count : Nat) (s : St) : Res (Bool × St) :=
  let recv := bus.received s.calls
  let s := { s with calls := s.calls ++ [.requestFrom address.toNat count] }
  if recv ≠ count then .ok (false, s)
  else do
    let s ← readLoop bus count 0 s
    .ok (true, s)

end Arduino

namespace Esp

/-- Calls of the driver: data, or number of bytes requested; time-out in ticks. -/
inductive Ev where
  | write (address : BitVec 16) (data : List Byte) (ticks : Nat)
  | read (address : BitVec 16) (count : Nat) (ticks : Nat)
deriving DecidableEq

/-- The driver: success of a write; a read gives an error, or the bytes. -/
structure Bus where
  write : List Ev → Bool
  read : List Ev → Option (Nat → Byte)

structure St where
  calls : List Ev
  rx : List Byte
deriving DecidableEq

/-- esp32-esp-idf/I2CDevice.cpp:7-10 `sendSync`. -/
def sendSync (bus : Bus) (period : Nat) (address : BitVec 16) (timeout : BitVec 32) (data : List Byte) (count : Nat)
    (s : St) : Res (Bool × St) :=
  if count > data.length then .ub
  else .ok (bus.write s.calls,
    { s with calls := s.calls ++ [.write address (data.take count) (timeout.toNat / period)] })

/-- esp32-esp-idf/I2CDevice.cpp:12-15 `receiveSync`; the driver stores all bytes when it succeeds and, as assumed here,
none when it fails. -/
def receiveSync (bus : Bus) (period : Nat) (address : BitVec 16) (timeout : BitVec 32) (count : Nat) (s : St) :
    Res (Bool × St) :=
  let calls := s.calls ++ [.read address count (timeout.toNat / period)]
  match bus.read s.calls with
  | none => .ok (false, { s with calls := calls })
  | some f =>
    if count ≤ s.rx.length then .ok (true, ⟨calls, (List.range count).map f ++ s.rx.drop count⟩) else .ub

/-- esp32-esp-idf/I2CBus.cpp:14: the address byte of `testAddress`, `(address << 1) | I2C_MASTER_WRITE` converted to
`uint8_t` (`I2C_MASTER_WRITE` is 0). -/
def addressByte (address : BitVec 8) : BitVec 8 :=
  ((address.setWidth 32 <<< 1) ||| 0#32).setWidth 8

end Esp

end Verif.Hal.I2c
