import Verif.Hal.I2c
/-!
# Model of `esp32-esp-idf/I2CBus.cpp` and `arduino/I2CBus.cpp`

The vendor driver is arbitrary.  Command links are resources: `i2c_cmd_link_create` may fail (null); the functions
adding commands then report an error which the code ignores, and `i2c_master_cmd_begin` fails.
-/
namespace Verif.Hal.I2cBus
open Verif

/-- A command in a link. -/
inductive Cmd where
  | start
  | writeByte (b : Byte) (checkAck : Bool)
  | stop
deriving DecidableEq, Repr

/-- `i2c_config_t` (I2CBus.cpp:23-31); mode and clock flags are constant. -/
structure BusConfig where
  sda : Int
  scl : Int
  sdaPullup : Bool
  sclPullup : Bool
  clkSpeed : BitVec 32
deriving DecidableEq, Repr

/-- Calls of the driver. -/
inductive Ev where
  | paramConfig (port : Int) (c : BusConfig)
  | install (port : Int)
  | createLink
  | begin_ (port : Int) (cmds : List Cmd) (ticks : Nat)
  | deleteLink
  | write (port : Int) (address : BitVec 16) (data : List Byte) (ticks : Nat)
deriving DecidableEq, Repr

/-- The answers of the driver: success of a call, after the calls made so far including it; for `createLink` whether
there was memory; for adding a command whether there was room. -/
structure Driver where
  ok : List Ev → Bool
  room : List Ev → Cmd → Bool

/-- I2CBus.cpp:21-35 `init`: `&&` evaluates its right operand only if the left one is true. -/
def init (drv : Driver) (port sda scl : Int) (frequency : BitVec 32) (pullupSda pullupScl : Bool) (calls : List Ev) :
    Bool × List Ev :=
  let c1 := calls ++ [.paramConfig port ⟨sda, scl, pullupSda, pullupScl, frequency⟩]
  if drv.ok c1 then
    let c2 := c1 ++ [.install port]
    (drv.ok c2, c2)
  else (false, c1)

/-- I2CBus.cpp:4-8 `resetBus`; the time-out of 200 is in ticks, the result is ignored. -/
def resetBus (port : Int) (calls : List Ev) : List Ev := calls ++ [.write port 0 [0x06] 200]

/-- Adding a command to a link; the result of the vendor's function is ignored (I2CBus.cpp:13-15). -/
def addCmd (drv : Driver) (calls : List Ev) (link : Option (List Cmd)) (c : Cmd) : Option (List Cmd) :=
  link.map (fun l => if drv.room calls c then l ++ [c] else l)

/-- I2CBus.cpp:10-19 `testAddress`. -/
def testAddress (drv : Driver) (period : Nat) (port : Int) (address : BitVec 8) (calls : List Ev) : Bool × List Ev :=
  let c1 := calls ++ [.createLink]
  let link : Option (List Cmd) := if drv.ok c1 then some [] else none
  let link := addCmd drv c1 link .start
  let link := addCmd drv c1 link (.writeByte (I2c.Esp.addressByte address) true)
  let link := addCmd drv c1 link .stop
  match link with
  | none => (false, c1) -- null handle: an error; deleting null is ignored
  | some cmds =>
    let c2 := c1 ++ [.begin_ port cmds (10 / period)]
    (drv.ok c2, c2 ++ [.deleteLink])

/-- arduino/I2CBus.cpp:3-9 `resetBus`. -/
def resetBusArduino (calls : List I2c.Arduino.Ev) : List I2c.Arduino.Ev :=
  calls ++ [.beginTransmission 0] ++ [.write [0x06]] ++ [.endTransmission true]

end Verif.Hal.I2cBus
