import Verif.Basic
/-!
# Model of `esp32-esp-idf/AnalogPin.cpp`

The vendor's channel map is an arbitrary table; the driver owns each converter unit at most once, as documented for
`adc_oneshot_new_unit`, and may also fail at any call.
-/
namespace Verif.Hal.Adc
open Verif

/-- `adc_channel_io_map`: for each unit the pins of its channels (−1: not connected). -/
abbrev Map := List (List Int)

/-- AnalogPin.cpp:19-25: the channels `j`, … of a unit. -/
def findChannel (pin : BitVec 8) : List Int → Nat → Option Nat
  | [], _ => none
  | p :: ps, j => if p = pin.toNat then some j else findChannel pin ps (j + 1)

/-- AnalogPin.cpp:17-26: the units `i`, …. -/
def findUnit (pin : BitVec 8) : Map → Nat → Option (Nat × Nat)
  | [], _ => none
  | u :: us, i =>
    match findChannel pin u 0 with
    | some j => some (i, j)
    | none => findUnit pin us (i + 1)

/-- AnalogPin.cpp:13-29 `digitalPinToAnalogChannel`. -/
def lookup (map : Map) (pinCount : Nat) (pin : BitVec 8) : Option (Nat × Nat) :=
  if pin.toNat < pinCount then findUnit pin map 0 else none

/-- Calls of the driver. -/
inductive Ev where
  | newUnit (unit : Nat)
  | config (unit channel : Nat)
  | read (unit channel : Nat)
deriving DecidableEq

/-- The driver: further failures of the calls, and the values converted, depending on the calls before. -/
structure Driver where
  newUnit : List Ev → Bool
  config : List Ev → Bool
  read : List Ev → Option Nat

/-- The calls so far and the units in use. -/
structure St where
  calls : List Ev
  inUse : List Nat
deriving DecidableEq

/-- AnalogPin.cpp:31-57 `singleReadADC`; the unit is never deleted. -/
def singleReadADC (drv : Driver) (unit channel : Nat) (s : St) : Int × St :=
  if drv.newUnit s.calls && !s.inUse.contains unit then
    let s : St := ⟨s.calls ++ [.newUnit unit], unit :: s.inUse⟩
    let ok := drv.config s.calls
    let c2 := s.calls ++ [.config unit channel]
    if ok then
      match drv.read c2 with
      | some v => (v, { s with calls := c2 ++ [.read unit channel] })
      | none => (-1, { s with calls := c2 ++ [.read unit channel] })
    else (-1, { s with calls := c2 })
  else (-1, { s with calls := s.calls ++ [.newUnit unit] })

/-- AnalogPin.cpp:61-88 `singleRead`; `ADC_UNIT_1` is 0, `ADC_UNIT_2` is 1. -/
def singleRead (map : Map) (pinCount : Nat) (drv : Driver) (pin : BitVec 8) (s : St) : Int × St :=
  match lookup map pinCount pin with
  | none => (-1, s)
  | some (adc, channel) =>
    if adc = 0 then singleReadADC drv 0 channel s
    else if adc = 1 then singleReadADC drv 1 channel s
    else (-1, s)

end Verif.Hal.Adc
