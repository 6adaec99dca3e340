import Verif.Basic
/-!
# Model of `GpioDigitalPin.h` and the two `GpioDigitalPin.cpp`

Programs using pins and chip selectors are given by a small language: the scope of a `ChipSelector` is `select`, leaving
the enclosing function early is `leave`.  A C++ destructor runs whenever its scope is left.
-/
namespace Verif.Hal.Gpio
open Verif

/-- A program driving pins; `access` stands for anything else, for instance a bus transfer. -/
inductive Prog where
  | skip
  | access (tag : Nat)
  | set (pin : BitVec 8)
  | reset (pin : BitVec 8)
  | setLevel (pin : BitVec 8) (level : Bool)
  | leave
  | seq (a b : Prog)
  | select (pin : BitVec 8) (body : Prog)

/-- Output levels, and what each access saw. -/
structure St where
  level : BitVec 8 → Bool
  log : List (Nat × (BitVec 8 → Bool))

/-- `gpio_set_level`/`digitalWrite`. -/
def St.drive (s : St) (pin : BitVec 8) (b : Bool) : St :=
  { s with level := fun q => if q = pin then b else s.level q }

/-- `GpioDigitalPin::set` (arduino/GpioDigitalPin.cpp:9-12, esp32-esp-idf/GpioDigitalPin.cpp:15-18). -/
def pinSet (pin : BitVec 8) (s : St) : St := s.drive pin true

/-- `GpioDigitalPin::reset` (arduino/GpioDigitalPin.cpp:14-17, esp32-esp-idf/GpioDigitalPin.cpp:20-23). -/
def pinReset (pin : BitVec 8) (s : St) : St := s.drive pin false

/-- `GpioDigitalPin::set(bool)` (GpioDigitalPin.h:22-28). -/
def pinSetLevel (pin : BitVec 8) (level : Bool) (s : St) : St :=
  if level then pinSet pin s else pinReset pin s

/-- `ChipSelector::ChipSelector` (GpioDigitalPin.h:38-41). -/
def selectorCtor (pin : BitVec 8) (s : St) : St := pinReset pin s

/-- `ChipSelector::~ChipSelector` (GpioDigitalPin.h:43-46). -/
def selectorDtor (pin : BitVec 8) (s : St) : St := pinSet pin s

/-- Execution; the flag tells that the function was left. -/
def exec : Prog → St → Bool × St
  | .skip, s => (false, s)
  | .access tag, s => (false, { s with log := s.log ++ [(tag, s.level)] })
  | .set p, s => (false, pinSet p s)
  | .reset p, s => (false, pinReset p s)
  | .setLevel p b, s => (false, pinSetLevel p b s)
  | .leave, s => (true, s)
  | .seq a b, s =>
    match exec a s with
    | (true, s) => (true, s)
    | (false, s) => exec b s
  | .select p body, s =>
    match exec body (selectorCtor p s) with
    | (left, s) => (left, selectorDtor p s)

/-! ### Initialisation -/

inductive Direction where | input | output
deriving DecidableEq

inductive PullMode where | up | down | none
deriving DecidableEq

/-- The fields of `gpio_config_t`. -/
structure Config where
  mask : BitVec 64
  /-- `GPIO_MODE_OUTPUT` rather than `GPIO_MODE_INPUT` -/
  output : Bool
  pullUp : Bool
  pullDown : Bool
  interrupt : Bool
deriving DecidableEq

/-- esp32-esp-idf/GpioDigitalPin.cpp:30-45 `init`.  `valid` is the vendor's `GPIO_IS_VALID_GPIO`, `config` the answer of
`gpio_config`; the second component is the configuration passed to it, if any.  A shift by 64 or more is undefined. -/
def initEsp (valid : BitVec 8 → Bool) (config : Config → Bool) (pin : BitVec 8) (type : Direction) (pull : PullMode) :
    Res (Bool × Option Config) :=
  if !valid pin then .ok (false, none)
  else if pin.toNat ≥ 64 then .ub
  else
    let conf : Config := { mask := 1#64 <<< pin.toNat, output := !(type == .input), pullUp := pull == .up,
                           pullDown := pull == .down, interrupt := false }
    .ok (config conf, some conf)

/-- Mode bits of the Arduino core for ESP32 (vendor constants). -/
def INPUT : BitVec 8 := 0x01
def OUTPUT : BitVec 8 := 0x03
def PULLUP : BitVec 8 := 0x04
def PULLDOWN : BitVec 8 := 0x08

/-- arduino/GpioDigitalPin.cpp:24-37 `init`: the call `pinMode(pin, mode)`, and the result. -/
def initArduino (pin : BitVec 8) (type : Direction) (pull : PullMode) : Bool × BitVec 8 × BitVec 8 :=
  let pinType := if type = .input then INPUT else OUTPUT
  let pinType := if pull = .up then pinType ||| PULLUP else if pull = .down then pinType ||| PULLDOWN else pinType
  (true, pin, pinType)

end Verif.Hal.Gpio
