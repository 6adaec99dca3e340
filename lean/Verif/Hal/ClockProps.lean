import Verif.Hal.Clock
import Verif.Hal.TimeProps
/-!
# C77: elapsed times
-/
namespace Verif.Hal.Clock
open Verif

/-- **C77**: the millisecond counters of the two platforms show the same. -/
theorem milliseconds_agree (t : Nat) (h : t < 2 ^ 63) : millisecondsEsp t = millisecondsArduino t :=
  Time.millisecondTicks_exact t h

/-- **C77** (ESP32): the difference of two microsecond readings is the time elapsed, and later readings are not
smaller. -/
theorem elapsed_esp (t1 t2 : Nat) (h : t1 ≤ t2) (ht : t2 < 2 ^ 63) :
    (microsecondsEsp t2 - microsecondsEsp t1).toNat = t2 - t1 ∧ microsecondsEsp t1 ≤ microsecondsEsp t2 := by
  unfold microsecondsEsp
  refine ⟨?_, ?_⟩
  · rw [BitVec.toNat_sub, BitVec.toNat_ofNat, BitVec.toNat_ofNat]; omega
  · rw [BitVec.le_def, BitVec.toNat_ofNat, BitVec.toNat_ofNat]; omega

theorem arduino_toNat (t : Nat) : (microsecondsArduino t).toNat = t % 2 ^ 32 := by
  unfold microsecondsArduino
  rw [BitVec.toNat_setWidth, BitVec.toNat_ofNat]; omega

/-- **C77** (Arduino), the whole truth: the difference of two microsecond readings is the time elapsed iff the 32-bit
counter did not wrap in between (every 71.6 minutes). -/
theorem elapsed_arduino_iff (t1 t2 : Nat) (h : t1 ≤ t2) (ht : t2 < 2 ^ 63) :
    (microsecondsArduino t2 - microsecondsArduino t1).toNat = t2 - t1 ↔ t1 / 2 ^ 32 = t2 / 2 ^ 32 := by
  rw [BitVec.toNat_sub, arduino_toNat, arduino_toNat]
  omega

/-- **C77** (Arduino), what holds: the elapsed time is right after conversion of the difference to 32 bits, for anything
shorter than 2^32 µs. -/
theorem elapsed_arduino_partial (t1 t2 : Nat) (h : t1 ≤ t2) (hd : t2 - t1 < 2 ^ 32) :
    ((microsecondsArduino t2 - microsecondsArduino t1).setWidth 32).toNat = t2 - t1 := by
  rw [BitVec.toNat_setWidth, BitVec.toNat_sub, arduino_toNat, arduino_toNat]
  omega

/-- Finding for **C77**: at every wrap the clock of the Arduino platform runs backwards, by more than 71 minutes, and the
elapsed time computed in `uint64_t` is more than 500000 years. -/
theorem arduino_runs_backwards (n : Nat) (hn : 0 < n) :
    let t := n * 2 ^ 32
    microsecondsArduino t < microsecondsArduino (t - 1) ∧
      (microsecondsArduino t - microsecondsArduino (t - 1)).toNat = 2 ^ 64 - 2 ^ 32 + 1 := by
  simp only
  refine ⟨?_, ?_⟩
  · rw [BitVec.lt_def, arduino_toNat, arduino_toNat]; omega
  · rw [BitVec.toNat_sub, arduino_toNat, arduino_toNat]; omega

/-- Two readings 10 ms apart, with the wrap in between. -/
example : (microsecondsEsp 4294972296 - microsecondsEsp 4294962296).toNat = 10000 ∧
    (microsecondsArduino 4294972296 - microsecondsArduino 4294962296).toNat = 18446744069414594320 := by decide

example : (microsecondsArduino 2000000 - microsecondsArduino 1000000).toNat = 1000000 := by decide

end Verif.Hal.Clock
