import Verif.Spi.Arduino
import Verif.Spi.Esp
/-!
# Model of `SpiDevice.h`, `arduino/SpiDevice.cpp`, `esp32-esp-idf/SpiDevice.cpp`

Lengths are 16-bit; the time-outs are not used.  Also the transfers of the Arduino platform with one buffer for both
directions.
-/
namespace Verif.Spi.Device
open Verif

namespace Arduino
open Verif.Spi.Arduino

/-- arduino/SpiDevice.cpp:7-10 `sendSync`. -/
def sendSync (peer : Peer) (data : List Byte) (length : BitVec 16) (bus : List Ev) : Res (Bool × List Ev) := do
  let (ok, _, bus) ← transfer peer (some data) none length.toNat bus
  .ok (ok, bus)

/-- arduino/SpiDevice.cpp:12-15 `receiveSync`; the result includes the memory of the caller. -/
def receiveSync (peer : Peer) (data : List Byte) (length : BitVec 16) (bus : List Ev) :
    Res (Bool × Option (List Byte) × List Ev) :=
  transfer peer none (some data) length.toNat bus

/-- arduino/SpiDevice.cpp:17-20 `sendAndReceive` with two buffers. -/
def sendAndReceive (peer : Peer) (txData rxData : List Byte) (size : BitVec 16) (bus : List Ev) :
    Res (Bool × Option (List Byte) × List Ev) :=
  transfer peer (some txData) (some rxData) size.toNat bus

/-- `n` single-byte transfers from index `i` on, in place: arduino/SpiBus.cpp:64-74 with `in == out`, and `transferBytes`, which
fetches a byte before it stores one at the same place. -/
def bytesInPlace (peer : Peer) : Nat → Nat → List Byte → List Ev → Res (List Byte × List Ev)
  | 0, _, m, bus => .ok (m, bus)
  | n + 1, i, m, bus =>
    match m[i]? with
    | none => .ub
    | some b =>
      let (got, bus) := exchange peer bus b
      bytesInPlace peer n (i + 1) (m.set i got) bus

/-- arduino/SpiBus.cpp:60-107 `transfer(data, data, length)`. -/
def sendAndReceiveInPlace (peer : Peer) (data : List Byte) (size : BitVec 16) (bus : List Ev) :
    Res (Bool × List Byte × List Ev) := do
  let bus := bus ++ [.beginTransaction]
  let n := size.toNat
  let (m, bus) ← (if n ≤ 3 then bytesInPlace peer n 0 data bus
    else do
      let (m, bus) ← bytesInPlace peer (n / 4 * 4) 0 data bus
      if n % 4 ≠ 0 then bytesInPlace peer (n % 4) (n / 4 * 4) m bus else .ok (m, bus))
  .ok (true, m, bus ++ [.endTransaction])

end Arduino

namespace Esp
open Verif.Spi.Esp

/-- esp32-esp-idf/SpiDevice.cpp:7-10 `sendSync`. -/
def sendSync (drv : Driver) (b : Bus) (data : List Byte) (length : BitVec 16) (log : List Submission) :
    Res (Bool × List Submission) := do
  let (ok, s) ← b.transfer drv data true false (length.setWidth 32) ⟨[], log⟩
  .ok (ok, s.log)

/-- esp32-esp-idf/SpiDevice.cpp:12-15 `receiveSync`. -/
def receiveSync (drv : Driver) (b : Bus) (data : List Byte) (length : BitVec 16) (log : List Submission) :
    Res (Bool × St) :=
  b.transfer drv [] false true (length.setWidth 32) ⟨data, log⟩

/-- esp32-esp-idf/SpiDevice.cpp:17-20 `sendAndReceive`. -/
def sendAndReceive (drv : Driver) (b : Bus) (txData rxData : List Byte) (size : BitVec 16) (log : List Submission) :
    Res (Bool × St) :=
  b.transfer drv txData true true (size.setWidth 32) ⟨rxData, log⟩

end Esp

end Verif.Spi.Device
