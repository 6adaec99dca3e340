import Verif.Basic
/-!
# Model of `esp32-esp-idf/Delays.cpp` and `esp32-esp-idf/SleepFunctions.h`

Clock readings are numbered; `clock k` is the result of the `k`-th reading.
-/
namespace Verif.Hal.Time
open Verif

/-- `while (cond(esp_timer_get_time()));` starting with reading `k`; the result is the number of the next reading.
The fuel bounds the number of readings. -/
def spin (clock : Nat → BitVec 64) (cond : BitVec 64 → Bool) : Nat → Nat → Res Nat
  | 0, _ => .hang
  | fuel + 1, k => if cond (clock k) then spin clock cond fuel (k + 1) else .ok (k + 1)

/-- Delays.cpp:18-29 `delayMicroseconds`, with clock readings from number `k` on. -/
def delayMicroseconds (clock : Nat → BitVec 64) (fuel : Nat) (microseconds : BitVec 32) (k : Nat) : Res Nat :=
  if microseconds ≠ 0 then do
    let current := clock k
    let expected := current + microseconds.setWidth 64
    let k ← (if expected < current then spin clock (fun t => t > expected) fuel (k + 1) else .ok (k + 1))
    spin clock (fun t => t < expected) fuel k
  else .ok k

/-- Delays.cpp:8-11 `delay`: the argument of `vTaskDelay`; `period` is `portTICK_PERIOD_MS`. -/
def delayTicks (period : BitVec 32) (milliseconds : BitVec 32) : BitVec 32 := milliseconds / period

/-- FreeRTOS `vTaskDelay(n)` called at `start` (microseconds), with tick interrupts at the multiples of `tick`
microseconds: the task continues at the `n`-th tick interrupt after the call, and immediately for `n = 0`. -/
def vTaskDelay (tick start n : Nat) : Nat := if n = 0 then start else (start / tick + n) * tick

/-- Delays.cpp:8-11 `delay`: when it returns. -/
def delay (period : BitVec 32) (start : Nat) (milliseconds : BitVec 32) : Nat :=
  vTaskDelay (1000 * period.toNat) start (delayTicks period milliseconds).toNat

/-- Delays.cpp:13-16 `getMillisecondTicks`: `int64_t` divided by 1000, converted to `uint32_t`. -/
def millisecondTicks (time : BitVec 64) : BitVec 32 := (time.sdiv 1000).setWidth 32

/-! ### Light sleep -/

/-- What `ligntSleep` asks for. -/
inductive Ev where
  /-- `esp_sleep_enable_timer_wakeup(us)` and `esp_light_sleep_start()`, issued after reading `at` -/
  | sleep (reading : Nat) (us : BitVec 64)
  /-- `delay(ms)` -/
  | wait (reading : Nat) (ms : BitVec 32)
deriving DecidableEq

/-- SleepFunctions.h:14-25.  `slept` tells whether the `n`-th `esp_light_sleep_start` succeeds.  The product is computed in
`uint32_t` and converted to `uint64_t`. -/
def sleepLoop (ticks : Nat → BitVec 32) (slept : Nat → Bool) (wait : BitVec 32) : Nat → Nat → List Ev →
    Res (Nat × List Ev)
  | 0, _, _ => .hang
  | fuel + 1, k, log =>
    if ticks k < wait then
      let us := ((wait - ticks (k + 1)) * 1000).setWidth 64
      let log' := log ++ [.sleep (k + 1) us]
      if !slept log.length then
        let current := ticks (k + 2)
        if wait > current then sleepLoop ticks slept wait fuel (k + 3) (log' ++ [.wait (k + 2) (wait - current)])
        else sleepLoop ticks slept wait fuel (k + 3) log'
      else sleepLoop ticks slept wait fuel (k + 2) log'
    else .ok (k + 1, log)

/-- SleepFunctions.h:9-26 `ligntSleep`; the result is the number of clock readings and what was asked for. -/
def lightSleep (ticks : Nat → BitVec 32) (slept : Nat → Bool) (fuel : Nat) (milliseconds : BitVec 32) :
    Res (Nat × List Ev) :=
  let tickstart := ticks 0
  let wait := tickstart + milliseconds
  sleepLoop ticks slept wait fuel 1 []

/-- SleepFunctions.h:29-33 `deepSleep`: the wake-up time requested, `uint32_t * unsigned long long`. -/
def deepSleepUs (milliseconds : BitVec 32) : BitVec 64 := milliseconds.setWidth 64 * 1000

end Verif.Hal.Time
