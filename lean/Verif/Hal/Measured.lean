import Verif.Hal.ClockProps
/-!
# C104 (and C62): delays, measured with the clock of the library
-/
namespace Verif.Hal.Time
open Verif

/-- `delayMicroseconds(n)` for each element of the list, one after the other (esp32-esp-idf/Delays.cpp:18-29). -/
def delays (clock : Nat → BitVec 64) (fuel : Nat) : List (BitVec 32) → Nat → Res Nat
  | [], k => .ok k
  | n :: ns, k => (delayMicroseconds clock fuel n k).bind (delays clock fuel ns)

/-- What a program measures which reads `getMicrosecondTicks()` (Delays.cpp:31-34), runs the delays and reads again; the
difference is computed in `uint64_t`. -/
def measure (clock : Nat → BitVec 64) (fuel : Nat) (ns : List (BitVec 32)) (k : Nat) : Res (BitVec 64) :=
  (delays clock fuel ns (k + 1)).bind fun r => .ok (clock r - clock k)

/-- The same with `getMillisecondTicks()` (Delays.cpp:13-16) and a difference computed in `uint32_t`. -/
def measureMs (clock : Nat → BitVec 64) (fuel : Nat) (ns : List (BitVec 32)) (k : Nat) : Res (BitVec 32) :=
  (delays clock fuel ns (k + 1)).bind fun r => .ok (millisecondTicks (clock r) - millisecondTicks (clock k))

/-- The time asked for. -/
def total (ns : List (BitVec 32)) : Nat := (ns.map BitVec.toNat).sum

private theorem mono_of_shows {clock : Nat → BitVec 64} {T : Nat → Nat} (hT : Shows clock T) {i j : Nat} (h : i ≤ j) :
    T i ≤ T j := by
  exact hT.1 i j h

theorem delays_wait (clock : Nat → BitVec 64) (T : Nat → Nat) (hT : Shows clock T) (fuel : Nat) (ns : List (BitVec 32))
    (k r : Nat) (h : delays clock fuel ns k = .ok r) : k ≤ r ∧ T k + total ns ≤ T r := by
  induction ns generalizing k with
  | nil =>
    injection h with h
    subst h
    exact ⟨Nat.le_refl _, Nat.le_refl _⟩
  | cons n ns ih =>
    rw [delays] at h
    have hsum : total (n :: ns) = n.toNat + total ns := by simp [total]
    by_cases hn : n = 0
    · subst hn
      rw [delayMicroseconds_zero] at h
      rw [hsum]
      simpa using ih k h
    · cases hd : delayMicroseconds clock fuel n k with
      | ub => rw [hd] at h; cases h
      | hang => rw [hd] at h; cases h
      | ok q =>
        rw [hd] at h
        obtain ⟨h1, h2⟩ := delayMicroseconds_waits clock T hT fuel k q n hn hd
        obtain ⟨h3, h4⟩ := ih q h
        have := mono_of_shows hT (show q - 1 ≤ q by omega)
        omega

/-- **C104**: any sequence of delays, measured with `getMicrosecondTicks`, takes at least the sum of the times asked for,
however the clock behaves. -/
theorem measured_at_least (clock : Nat → BitVec 64) (T : Nat → Nat) (hT : Shows clock T) (hr : ∀ i, T i < 2 ^ 63)
    (fuel : Nat) (ns : List (BitVec 32)) (k : Nat) (d : BitVec 64) (h : measure clock fuel ns k = .ok d) :
    total ns ≤ d.toNat := by
  unfold measure at h
  cases hd : delays clock fuel ns (k + 1) with
  | ub => rw [hd] at h; cases h
  | hang => rw [hd] at h; cases h
  | ok r =>
    rw [hd] at h
    obtain ⟨h1, h2⟩ := delays_wait clock T hT fuel ns (k + 1) r hd
    have h3 := mono_of_shows hT (show k ≤ k + 1 by omega)
    have hval := hT.2
    have he := (Clock.elapsed_esp (T k) (T r) (by omega) (hr r)).1
    have : clock r - clock k = d := by
      simpa [Res.bind] using h
    rw [← this, hval, hval]
    unfold Clock.microsecondsEsp at he
    omega

/-- **C104**: measured with `getMillisecondTicks`, it takes at least the whole milliseconds asked for, as long as less than
49 days pass. -/
theorem measuredMs_at_least (clock : Nat → BitVec 64) (T : Nat → Nat) (hT : Shows clock T) (hr : ∀ i, T i < 2 ^ 63)
    (fuel : Nat) (ns : List (BitVec 32)) (k : Nat) (d : BitVec 32) (hlong : ∀ i, T i - T k ≤ 1000 * (2 ^ 32 - 2))
    (h : measureMs clock fuel ns k = .ok d) : total ns / 1000 ≤ d.toNat := by
  unfold measureMs at h
  cases hd : delays clock fuel ns (k + 1) with
  | ub => rw [hd] at h; cases h
  | hang => rw [hd] at h; cases h
  | ok r =>
    rw [hd] at h
    obtain ⟨h1, h2⟩ := delays_wait clock T hT fuel ns (k + 1) r hd
    have h3 := mono_of_shows hT (show k ≤ k + 1 by omega)
    have hval := hT.2
    have he := (ticks_difference (T k) (T r) (by omega) (hr r) (hlong r)).1
    have : millisecondTicks (clock r) - millisecondTicks (clock k) = d := by
      simpa [Res.bind] using h
    rw [← this, hval, hval]
    omega

/-- When the clock is read at least every `L` microseconds and goes on for long enough, the delays end, each of them at
most `2 * L` late. -/
theorem delays_end (clock : Nat → BitVec 64) (T : Nat → Nat) (hT : Shows clock T) (hr : ∀ i, T i < 2 ^ 63) (L : Nat)
    (hL : ∀ i, T (i + 1) ≤ T i + L) (ns : List (BitVec 32)) (k J : Nat)
    (hJ : T k + total ns + 2 * L * ns.length ≤ T J) (fuel : Nat) (hf : max J k + 3 * ns.length ≤ fuel) :
    ∃ r, delays clock fuel ns k = .ok r ∧ T r ≤ T k + total ns + 2 * L * ns.length := by
  induction ns generalizing k with
  | nil => exact ⟨k, rfl, by simp⟩
  | cons n ns ih =>
    have hsum : total (n :: ns) = n.toNat + total ns := by simp [total]
    have hlen : 2 * L * (n :: ns).length = 2 * L * ns.length + 2 * L := by rw [List.length_cons, Nat.mul_add]; omega
    rw [hsum, hlen] at hJ ⊢
    rw [List.length_cons] at hf
    by_cases hn : n = 0
    · subst hn
      obtain ⟨r, h1, h2⟩ := ih k (by omega) (by omega)
      refine ⟨r, ?_, by omega⟩
      simp only [delays, delayMicroseconds_zero, Res.bind]
      exact h1
    · have hj1 := mono_of_shows hT (show J ≤ max J (k + 1) by omega)
      obtain ⟨q, h1, h2, h3⟩ := delayMicroseconds_stops clock T hT hr k (max J (k + 1)) n hn (by omega) (by omega) fuel
        (by omega)
      obtain ⟨h4, h5⟩ := delayMicroseconds_waits clock T hT fuel k q n hn h1
      have hq : T q ≤ T k + n.toNat + 2 * L := by
        have ha := hL (q - 1)
        rw [show q - 1 + 1 = q by omega] at ha
        by_cases hc : q - 1 ≤ k + 1
        · have hb := hL k
          have hc' := mono_of_shows hT hc
          omega
        · have hb := hL (q - 2)
          rw [show q - 2 + 1 = q - 1 by omega] at hb
          have := h3 (q - 2) (by omega) (by omega)
          omega
      obtain ⟨r, h6, h7⟩ := ih q (by omega) (by omega)
      refine ⟨r, ?_, by omega⟩
      simp only [delays, h1, Res.bind]
      exact h6

/-- **C104**: measured with `getMicrosecondTicks`, any sequence of delays takes the sum of the times asked for, and not more
than twice the time between two readings of the clock per delay, plus once. -/
theorem measured_exact (clock : Nat → BitVec 64) (T : Nat → Nat) (hT : Shows clock T) (hr : ∀ i, T i < 2 ^ 63) (L : Nat)
    (hL : ∀ i, T (i + 1) ≤ T i + L) (ns : List (BitVec 32)) (k J : Nat)
    (hJ : T k + total ns + (2 * ns.length + 1) * L ≤ T J) :
    ∃ F, ∀ fuel, F ≤ fuel → ∃ d, measure clock fuel ns k = .ok d ∧ total ns ≤ d.toNat ∧
      d.toNat ≤ total ns + (2 * ns.length + 1) * L := by
  have hk := hL k
  have he : (2 * ns.length + 1) * L = 2 * L * ns.length + L := by
    rw [Nat.add_mul, Nat.one_mul, Nat.mul_assoc, Nat.mul_comm ns.length, ← Nat.mul_assoc]
  refine ⟨max J (k + 1) + 3 * ns.length, fun fuel hf => ?_⟩
  obtain ⟨r, h1, h2⟩ := delays_end clock T hT hr L hL ns (k + 1) J (by omega) fuel hf
  have hm : measure clock fuel ns k = .ok (clock r - clock k) := by simp only [measure, h1, Res.bind]
  refine ⟨_, hm, measured_at_least clock T hT hr fuel ns k _ hm, ?_⟩
  obtain ⟨h3, h4⟩ := delays_wait clock T hT fuel ns (k + 1) r h1
  have h5 := mono_of_shows hT (show k ≤ k + 1 by omega)
  have h6 := (Clock.elapsed_esp (T k) (T r) (by omega) (hr r)).1
  unfold Clock.microsecondsEsp at h6
  rw [hT.2, hT.2]
  omega

/-- **C62**, with the clock of the library: what `getMillisecondTicks` shows at any time after the return is
short of the time asked for by at most two ticks of the operating system and a millisecond. -/
theorem delay_measured_partial (period ms : BitVec 32) (hp : 0 < period.toNat) (t1 t2 : Nat)
    (hret : delay period t1 ms ≤ t2) (h12 : t1 ≤ t2) (ht : t2 < 2 ^ 63) (hd : t2 - t1 ≤ 1000 * (2 ^ 32 - 2)) :
    ms.toNat ≤ (millisecondTicks (BitVec.ofNat 64 t2) - millisecondTicks (BitVec.ofNat 64 t1)).toNat +
      2 * period.toNat := by
  have h1 := delay_at_least_partial period ms hp t1
  have h2 := (ticks_difference t1 t2 h12 ht hd).2.2
  omega

/-- Read at once, the clock never shows more than what was asked for. -/
theorem delay_measured_at_most (period ms : BitVec 32) (hp : 0 < period.toNat) (t1 : Nat)
    (ht : t1 + 1000 * ms.toNat < 2 ^ 63) (hms : ms.toNat ≤ 2 ^ 32 - 2) :
    (millisecondTicks (BitVec.ofNat 64 (delay period t1 ms)) - millisecondTicks (BitVec.ofNat 64 t1)).toNat ≤
      ms.toNat := by
  have h1 := (delay_at_most period ms hp t1).1
  have h12 : t1 ≤ delay period t1 ms := by
    unfold delay vTaskDelay
    generalize (delayTicks period ms).toNat = n
    have hd := Nat.div_add_mod t1 (1000 * period.toNat)
    have hm := Nat.mod_lt t1 (show 0 < 1000 * period.toNat by omega)
    generalize 1000 * period.toNat = P at *
    split
    · exact Nat.le_refl _
    · have : (t1 / P + 1) * P ≤ (t1 / P + n) * P := Nat.mul_le_mul_right _ (by omega)
      rw [Nat.add_mul, Nat.one_mul, Nat.mul_comm] at this
      omega
  have h2 := (ticks_difference t1 (delay period t1 ms) h12 (by omega) (by omega)).1
  rw [h2]
  omega

/-- A clock advancing by 3 µs per reading; 10 µs and 5 µs are asked for, 27 µs measured. -/
example : measure (fun i => BitVec.ofNat 64 (3 * i)) 100 [10, 5] 0 = .ok 27 := by decide +kernel

/-- 19 ms are asked for, 1 ms is measured. -/
example : (millisecondTicks (BitVec.ofNat 64 (delay 10 9999 19)) - millisecondTicks (BitVec.ofNat 64 9999)).toNat = 1 := by
  decide

end Verif.Hal.Time
