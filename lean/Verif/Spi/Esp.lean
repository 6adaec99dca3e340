import Verif.Basic
/-!
# Model of `esp32-esp-idf/SpiBus.cpp`

`spi_device_polling_transmit` is an arbitrary driver: the `k`-th submission is rejected or accepted with given answer
bytes.  An accepted submission puts `length / 8` bytes from `tx_buffer` on the wire and stores `rxlength / 8` bytes at
`rx_buffer`; a rejected one does neither.  The memory behind the two pointers is given from the pointer on; pointers
into it are offsets.
-/
namespace Verif.Spi.Esp
open Verif

/-- The fields of `spi_transaction_t` which are used; `{}` initialises them to null and zero (SpiBus.cpp:11). -/
structure Trans where
  txBuffer : Option Nat := none
  length : BitVec 32 := 0
  rxBuffer : Option Nat := none
  rxlength : BitVec 32 := 0
deriving DecidableEq

/-- The answers of the driver: `none` is an error, `some f` success with answer bytes `f 0, f 1, …`. -/
abbrev Driver := Nat → Option (Nat → Byte)

/-- A transaction handed to the driver and the bytes it has put on the wire. -/
structure Submission where
  trans : Trans
  sent : List Byte
  accepted : Bool
deriving DecidableEq

/-- What the caller's receive buffer holds and what has been submitted. -/
structure St where
  rx : List Byte
  log : List Submission
deriving DecidableEq

/-- Memory `[off, off + n)`, undefined behaviour when it is outside. -/
def slice (m : List Byte) (off n : Nat) : Res (List Byte) :=
  if off + n ≤ m.length then .ok ((m.drop off).take n) else .ub

/-- Overwriting memory from `off` on. -/
def overwrite (m : List Byte) (off : Nat) (d : List Byte) : Res (List Byte) :=
  if off + d.length ≤ m.length then .ok (m.take off ++ d ++ m.drop (off + d.length)) else .ub

/-- The bytes the driver fetches from `tx_buffer`. -/
def fetch (tx : List Byte) (buffer : Option Nat) (bits : BitVec 32) : Res (List Byte) :=
  match buffer with
  | none => .ok []
  | some off => slice tx off (bits.toNat / 8)

/-- The bytes the driver stores at `rx_buffer`. -/
def deliver (rx : List Byte) (buffer : Option Nat) (bits : BitVec 32) (f : Nat → Byte) : Res (List Byte) :=
  match buffer with
  | none => .ok rx
  | some off => overwrite rx off ((List.range (bits.toNat / 8)).map f)

/-- `spi_device_polling_transmit` (SpiBus.cpp:26). -/
def transmit (drv : Driver) (tx : List Byte) (t : Trans) (s : St) : Res (Bool × St) :=
  match drv s.log.length with
  | none => .ok (false, { s with log := s.log ++ [⟨t, [], false⟩] })
  | some f => do
    let sent ← fetch tx t.txBuffer t.length
    let rx ← deliver s.rx t.rxBuffer t.rxlength f
    .ok (true, { rx := rx, log := s.log ++ [⟨t, sent, true⟩] })

/-- SpiBus.cpp:15-25: the transaction is updated for the next chunk of `eff` bytes. -/
def prepare (t : Trans) (send recv : Option Nat) (eff : BitVec 32) : Trans :=
  let t := match send with
    | none => t
    | some p => { t with txBuffer := some p, length := 8 * eff }
  match recv with
  | none => t
  | some p => { t with rxBuffer := some p, rxlength := 8 * eff }

/-- SpiBus.cpp:13-41, the loop; the fuel is the number of iterations. -/
def loop (drv : Driver) (tx : List Byte) (maxSize : BitVec 32) : Nat → Trans → Option Nat → Option Nat → BitVec 32 →
    St → Res (Bool × St)
  | 0, _, _, _, _, _ => .hang
  | fuel + 1, t, send, recv, length, s =>
    if length = 0 then .ok (true, s)
    else do
      let eff := if maxSize.toNat < length.toNat then maxSize else length
      let t := prepare t send recv eff
      let (ok, s) ← transmit drv tx t s
      if !ok then .ok (false, s)
      else
        loop drv tx maxSize fuel t (send.map (· + eff.toNat)) (recv.map (· + eff.toNat)) (length - eff) s

/-- SpiBus.cpp:9-42 `transfer`; `send`, `recv` tell whether the pointers are not null.  The fuel suffices unless the
loop makes no progress (`Life.never_hangs`, `transfer_exact`). -/
def transfer (drv : Driver) (maxSize : BitVec 32) (tx : List Byte) (send recv : Bool) (length : BitVec 32) (s : St)
    (fuel : Nat := length.toNat + 1) : Res (Bool × St) :=
  loop drv tx maxSize fuel {} (if send then some 0 else none) (if recv then some 0 else none) length s

/-- The state of the vendor driver concerning one bus. -/
structure Hw where
  /-- the bus is initialised -/
  bus : Bool
  /-- a device is attached, its handle is valid -/
  device : Bool
deriving DecidableEq

/-- The object: `spiDevice != nullptr`, `maxTransferSize` (SpiBus.h:29-30), and the driver. -/
structure Bus where
  handle : Bool
  maxSize : BitVec 32
  hw : Hw
deriving DecidableEq

/-- The constructor (SpiBus.h:20). -/
def Bus.new (hw : Hw) : Bus := ⟨false, 0, hw⟩

/-- `LLDESC_MAX_NUM_PER_DESC` (vendor constant: 4096-4). -/
def lldescMax : BitVec 32 := 4092

/-- SpiBus.cpp:44-76 `init`.  `spi_bus_initialize` fails on a bus already initialised, and both calls may fail for
other reasons (`ok1`, `ok2`). -/
def Bus.init (ok1 ok2 : Bool) (b : Bus) : Bool × Bus :=
  let b := { b with maxSize := lldescMax }
  if !ok1 || b.hw.bus then (false, b)
  else
    let b := { b with hw := { b.hw with bus := true } }
    if !ok2 then (false, b)
    else (true, { b with handle := true, hw := { b.hw with device := true } })

/-- What `spi_device_polling_transmit` answers to the object: as the vendor documents, a null handle is an invalid argument,
which is refused. -/
def Bus.answers (b : Bus) (drv : Driver) : Driver := if b.handle then drv else fun _ => none

/-- SpiBus.cpp:9-42 `transfer` of an object.  The handle is used as soon as there is something to transfer; using a
deallocated one is undefined behaviour. -/
def Bus.transfer (drv : Driver) (b : Bus) (tx : List Byte) (send recv : Bool) (length : BitVec 32) (s : St) :
    Res (Bool × St) :=
  if b.handle ∧ ¬ b.hw.device ∧ length ≠ 0 then .ub
  else Esp.transfer (b.answers drv) b.maxSize tx send recv length s

/-- `spi_bus_remove_device`: 0 (`ESP_OK`) on success, after which the handle is deallocated; using a deallocated handle
is undefined behaviour. -/
def removeDevice (err : Nat) (hw : Hw) : Res (Nat × Hw) :=
  if !hw.device then .ub
  else if err = 0 then .ok (0, { hw with device := false }) else .ok (err, hw)

/-- `spi_bus_free`: fails while a device is attached or when the bus is not initialised. -/
def busFree (err : Nat) (hw : Hw) : Nat × Hw :=
  if err = 0 ∧ hw.bus ∧ ¬ hw.device then (0, { hw with bus := false }) else (if err = 0 then 0x103 else err, hw)

/-- SpiBus.cpp:78-90 `release`: the condition is true when `spi_bus_remove_device` returns an error. -/
def Bus.release (err1 err2 : Nat) (b : Bus) : Res (Bool × Bus) :=
  if b.handle then do
    let (r, hw) ← removeDevice err1 b.hw
    if r ≠ 0 then
      let (r2, hw) := busFree err2 hw
      .ok (r2 = 0, { b with handle := false, hw := hw })
    else .ok (false, { b with hw := hw })
  else .ok (true, b)

/-- SpiBus.cpp:92-95: the destructor. -/
def Bus.destroy (err1 err2 : Nat) (b : Bus) : Res Hw := do
  let (_, b) ← b.release err1 err2
  .ok b.hw

end Verif.Spi.Esp
