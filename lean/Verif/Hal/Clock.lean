import Verif.Hal.Time
/-!
# Model of the clock functions: `esp32-esp-idf/Delays.cpp` 13-16, 31-34 and `arduino/Delays.cpp` 10-13, 20-23

The time since the start in microseconds is a natural number.  `esp_timer_get_time` shows it as `int64_t`, `micros()`
and `millis()` as 32-bit numbers.
-/
namespace Verif.Hal.Clock
open Verif

/-- esp32-esp-idf/Delays.cpp:31-34 `getMicrosecondTicks`. -/
def microsecondsEsp (t : Nat) : BitVec 64 := BitVec.ofNat 64 t

/-- arduino/Delays.cpp:20-23 `getMicrosecondTicks`: the 32-bit `micros()` converted to `uint64_t`. -/
def microsecondsArduino (t : Nat) : BitVec 64 := (BitVec.ofNat 32 t).setWidth 64

/-- esp32-esp-idf/Delays.cpp:13-16 `getMillisecondTicks`. -/
def millisecondsEsp (t : Nat) : BitVec 32 := Time.millisecondTicks (BitVec.ofNat 64 t)

/-- arduino/Delays.cpp:10-13 `getMillisecondTicks`: `millis()`. -/
def millisecondsArduino (t : Nat) : BitVec 32 := BitVec.ofNat 32 (t / 1000)

end Verif.Hal.Clock
