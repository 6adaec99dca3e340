import Verif.Hal.Time
import Mathlib.Tactic.Linarith
/-!
# C61, C62, C63: waiting
-/
namespace Verif.Hal.Time
open Verif

/-- `clock` shows the true time `T`, which never runs backwards, modulo 2^w. -/
def Shows {w : Nat} (clock : Nat → BitVec w) (T : Nat → Nat) : Prop :=
  (∀ i j, i ≤ j → T i ≤ T j) ∧ ∀ i, clock i = BitVec.ofNat w (T i)

theorem spin_ok {clock : Nat → BitVec 64} {cond : BitVec 64 → Bool} {fuel k r : Nat} (h : spin clock cond fuel k = .ok r) :
    k < r ∧ cond (clock (r - 1)) = false ∧ ∀ j, k ≤ j → j < r - 1 → cond (clock j) = true := by
  induction fuel generalizing k with
  | zero => simp [spin] at h
  | succ n ih =>
    unfold spin at h
    cases hc : cond (clock k) with
    | true =>
      rw [hc, if_pos rfl] at h
      obtain ⟨h1, h2, h3⟩ := ih h
      refine ⟨by omega, h2, fun j hj hjr => ?_⟩
      by_cases hjk : j = k
      · rw [hjk]; exact hc
      · exact h3 j (by omega) hjr
    | false =>
      rw [hc, if_neg (by simp)] at h
      cases h
      exact ⟨by omega, by simpa using hc, fun j hj hjr => by omega⟩

theorem spin_terminates {clock : Nat → BitVec 64} {cond : BitVec 64 → Bool} {k j : Nat} (hj : k ≤ j)
    (hc : cond (clock j) = false) (fuel : Nat) (hf : j - k < fuel) : ∃ r, spin clock cond fuel k = .ok r := by
  induction fuel generalizing k with
  | zero => omega
  | succ n ih =>
    unfold spin
    cases hk : cond (clock k) with
    | false => exact ⟨k + 1, by simp⟩
    | true =>
      simp only [if_true]
      by_cases hjk : k = j
      · subst hjk; rw [hk] at hc; cases hc
      · exact ih (by omega) (by omega)

private theorem epoch {a b M : Nat} (hM : 0 < M) (h : a ≤ b) : a / M ≤ b / M ∧
    a = M * (a / M) + a % M ∧ b = M * (b / M) + b % M ∧ a % M < M ∧ b % M < M :=
  ⟨Nat.div_le_div_right h, (Nat.div_add_mod a M).symm, (Nat.div_add_mod b M).symm, Nat.mod_lt _ hM, Nat.mod_lt _ hM⟩

/-- **C61**: whatever the clock does – as long as it shows a time which never runs backwards, wrapping or not – when
`delayMicroseconds(n)` returns, its last reading is at least `n` microseconds after its first one. -/
theorem delayMicroseconds_waits (clock : Nat → BitVec 64) (T : Nat → Nat) (hT : Shows clock T) (fuel k r : Nat)
    (n : BitVec 32) (hn : n ≠ 0) (h : delayMicroseconds clock fuel n k = .ok r) :
    k < r ∧ T k + n.toNat ≤ T (r - 1) := by
  obtain ⟨hmono, hclock⟩ := hT
  have hval : ∀ i, (clock i).toNat = T i % 2 ^ 64 := fun i => by rw [hclock, BitVec.toNat_ofNat]
  have hn32 := n.isLt
  unfold delayMicroseconds at h
  rw [if_pos hn] at h
  simp only at h
  generalize hexp : clock k + n.setWidth 64 = expected at h
  have hexpn : expected.toNat = (T k % 2 ^ 64 + n.toNat) % 2 ^ 64 := by
    rw [← hexp, BitVec.toNat_add, hval, BitVec.toNat_setWidth, Nat.mod_eq_of_lt (show n.toNat < 2 ^ 64 by omega)]
  by_cases hw : expected < clock k
  · simp only [hw, if_true] at h
    obtain ⟨k1, h1, h2⟩ := Res.bind_eq_ok.1 h
    obtain ⟨a1, a2, -⟩ := spin_ok h1
    obtain ⟨b1, b2, -⟩ := spin_ok h2
    refine ⟨by omega, ?_⟩
    have a3 : (clock (k1 - 1)).toNat ≤ expected.toNat := by
      simpa [BitVec.lt_def] using a2
    have b3 : expected.toNat ≤ (clock (r - 1)).toNat := by
      simpa [BitVec.lt_def] using b2
    have hw' : expected.toNat < (clock k).toNat := BitVec.lt_def.1 hw
    rw [hval] at a3 b3 hw'
    have m1 := hmono k (k1 - 1) (by omega)
    have m2 := hmono (k1 - 1) (r - 1) (by omega)
    obtain ⟨q1, q2, q3, q4, q5⟩ := epoch (M := 2 ^ 64) (by decide) m1
    obtain ⟨p1, p2, p3, p4, p5⟩ := epoch (M := 2 ^ 64) (by decide) m2
    have hlt : T k / 2 ^ 64 < T (k1 - 1) / 2 ^ 64 := by
      rcases Nat.lt_or_ge (T k / 2 ^ 64) (T (k1 - 1) / 2 ^ 64) with h | h
      · exact h
      · have : T k / 2 ^ 64 = T (k1 - 1) / 2 ^ 64 := by omega
        rw [this] at q2
        omega
    omega
  · simp only [hw, if_false, Res.bind_ok] at h
    obtain ⟨b1, b2, -⟩ := spin_ok h
    refine ⟨by omega, ?_⟩
    have b3 : expected.toNat ≤ (clock (r - 1)).toNat := by
      simpa [BitVec.lt_def] using b2
    have hw' : (clock k).toNat ≤ expected.toNat := by
      have := mt BitVec.lt_def.2 hw
      omega
    rw [hval] at b3 hw'
    have m1 := hmono k (r - 1) (by omega)
    obtain ⟨q1, q2, q3, q4, q5⟩ := epoch (M := 2 ^ 64) (by decide) m1
    omega

/-- No wait for zero. -/
theorem delayMicroseconds_zero (clock : Nat → BitVec 64) (fuel k : Nat) : delayMicroseconds clock fuel 0 k = .ok k := rfl

/-- While the clock does not wrap (the timer is a positive 64-bit number), the wait ends with the first reading which is
late enough, and it does end when there is such a reading. -/
theorem delayMicroseconds_stops (clock : Nat → BitVec 64) (T : Nat → Nat) (hT : Shows clock T)
    (hrange : ∀ i, T i < 2 ^ 63) (k j : Nat) (n : BitVec 32) (hn : n ≠ 0) (hj : k < j) (hlate : T k + n.toNat ≤ T j)
    (fuel : Nat) (hf : j < fuel) :
    ∃ r, delayMicroseconds clock fuel n k = .ok r ∧ r ≤ j + 1 ∧ ∀ i, k < i → i < r - 1 → T i < T k + n.toNat := by
  obtain ⟨hmono, hclock⟩ := hT
  have hval : ∀ i, (clock i).toNat = T i := fun i => by
    rw [hclock, BitVec.toNat_ofNat, Nat.mod_eq_of_lt (by have := hrange i; omega)]
  have hn32 := n.isLt
  have hk := hrange k
  unfold delayMicroseconds
  rw [if_pos hn]
  simp only
  generalize hexp : clock k + n.setWidth 64 = expected
  have hexpn : expected.toNat = T k + n.toNat := by
    rw [← hexp, BitVec.toNat_add, hval, BitVec.toNat_setWidth, Nat.mod_eq_of_lt (show n.toNat < 2 ^ 64 by omega),
      Nat.mod_eq_of_lt (by omega)]
  have hw : ¬ expected < clock k := by
    rw [BitVec.lt_def, hexpn, hval]; omega
  simp only [hw, if_false, Res.bind_ok]
  have hc : (fun t => decide (t < expected)) (clock j) = false := by
    simp only [decide_eq_false_iff_not, BitVec.lt_def, hexpn, hval]; omega
  obtain ⟨r, hr⟩ := spin_terminates (cond := fun t => decide (t < expected)) (show k + 1 ≤ j by omega) hc fuel (by omega)
  obtain ⟨b1, b2, b3⟩ := spin_ok hr
  refine ⟨r, hr, ?_, fun i hi hir => ?_⟩
  · rcases Nat.lt_or_ge j (r - 1) with h | h
    · have := b3 j (by omega) h
      exact absurd (hc.symm.trans this) (by simp)
    · omega
  · have := b3 i (by omega) hir
    simpa [BitVec.lt_def, hexpn, hval] using this

/-- A wait of 25 µs with readings every 10 µs takes the first reading and three more. -/
example : delayMicroseconds (fun k => BitVec.ofNat 64 (100 + 10 * k)) 100 25 0 = .ok 4 := by decide

/-- The same across the wrap of the counter. -/
example : delayMicroseconds (fun k => BitVec.ofNat 64 (2 ^ 64 - 10 + 7 * k)) 100 25 0 = .ok 5 := by decide

/-! ### C62 -/

/-- The exact number of ticks, and the time it stands for. -/
theorem delayTicks_exact (period ms : BitVec 32) (hp : 0 < period.toNat) :
    (delayTicks period ms).toNat = ms.toNat / period.toNat ∧
    (delayTicks period ms).toNat * period.toNat ≤ ms.toNat ∧
    ms.toNat < (delayTicks period ms).toNat * period.toNat + period.toNat := by
  have h : (delayTicks period ms).toNat = ms.toNat / period.toNat := by
    unfold delayTicks; exact BitVec.toNat_udiv
  refine ⟨h, ?_, ?_⟩
  · rw [h]; exact Nat.div_mul_le_self _ _
  · rw [h]
    have := Nat.lt_mul_div_succ ms.toNat hp
    rw [Nat.mul_add, Nat.mul_one, Nat.mul_comm] at this
    exact this

/-- **C62 is false**: the wait is never longer than requested, and shorter unless the tick period divides the
milliseconds and the call is made exactly at a tick interrupt. -/
theorem delay_at_most (period ms : BitVec 32) (hp : 0 < period.toNat) (start : Nat) :
    delay period start ms ≤ start + 1000 * ms.toNat ∧
    (delay period start ms = start + 1000 * ms.toNat →
      ms.toNat % period.toNat = 0 ∧ (ms.toNat = 0 ∨ start % (1000 * period.toNat) = 0)) := by
  obtain ⟨h1, h2, h3⟩ := delayTicks_exact period ms hp
  unfold delay vTaskDelay
  generalize (delayTicks period ms).toNat = n at *
  have hd := Nat.div_add_mod start (1000 * period.toNat)
  have hm := Nat.mod_lt start (show 0 < 1000 * period.toNat by omega)
  generalize hq : start / (1000 * period.toNat) = q at *
  generalize hr : start % (1000 * period.toNat) = r at *
  have hdm := Nat.div_add_mod ms.toNat period.toNat
  rw [← h1] at hdm
  generalize hmr : ms.toNat % period.toNat = mr at *
  have e1 : (q + n) * (1000 * period.toNat) = 1000 * period.toNat * q + 1000 * (period.toNat * n) := by
    rw [Nat.add_mul, Nat.mul_comm q, Nat.mul_comm n, Nat.mul_assoc 1000 _ n]
  by_cases hn : n = 0
  · rw [if_pos hn]
    subst hn
    simp only [Nat.mul_zero, Nat.zero_add] at hdm
    constructor
    · omega
    · intro h; constructor <;> omega
  · rw [if_neg hn, e1]
    constructor
    · omega
    · intro h
      constructor
      · omega
      · right; omega

/-- What holds: the wait is short by less than two tick periods. -/
theorem delay_at_least_partial (period ms : BitVec 32) (hp : 0 < period.toNat) (start : Nat) :
    start + 1000 * ms.toNat < delay period start ms + 2 * (1000 * period.toNat) := by
  obtain ⟨h1, h2, h3⟩ := delayTicks_exact period ms hp
  unfold delay vTaskDelay
  generalize (delayTicks period ms).toNat = n at *
  have hd := Nat.div_add_mod start (1000 * period.toNat)
  have hm := Nat.mod_lt start (show 0 < 1000 * period.toNat by omega)
  generalize hq : start / (1000 * period.toNat) = q at *
  generalize hr : start % (1000 * period.toNat) = r at *
  have e1 : (q + n) * (1000 * period.toNat) = 1000 * period.toNat * q + 1000 * (n * period.toNat) := by
    rw [Nat.add_mul, Nat.mul_comm q]
    congr 1
    rw [Nat.mul_left_comm]
  by_cases hn : n = 0
  · rw [if_pos hn]
    subst hn
    omega
  · rw [if_neg hn, e1]
    omega

/-- With the usual period of 10 ms a delay of 9 ms does not wait at all. -/
theorem delay_nine (start : Nat) : delay 10 start 9 = start := rfl

/-- The largest shortfall: one tick interrupt follows immediately. -/
example : delay 10 9999 19 = 10000 := rfl

/-- `getMillisecondTicks` shows the time in whole milliseconds, modulo 2^32. -/
theorem millisecondTicks_exact (t : Nat) (ht : t < 2 ^ 63) :
    millisecondTicks (BitVec.ofNat 64 t) = BitVec.ofNat 32 (t / 1000) := by
  unfold millisecondTicks
  have hm : (BitVec.ofNat 64 t).msb = false := by
    rw [BitVec.msb_eq_false_iff_two_mul_lt, BitVec.toNat_ofNat, Nat.mod_eq_of_lt (by omega)]; omega
  have hd : (BitVec.ofNat 64 t).sdiv 1000 = (BitVec.ofNat 64 t) / 1000 := by
    rw [BitVec.sdiv_eq, hm]; rfl
  rw [hd]
  apply BitVec.eq_of_toNat_eq
  rw [BitVec.toNat_setWidth, BitVec.toNat_udiv, BitVec.toNat_ofNat, BitVec.toNat_ofNat,
    Nat.mod_eq_of_lt (show t < 2 ^ 64 by omega)]
  rfl

/-- **C62**: differences of the millisecond counter measure the elapsed time to within a millisecond, also across its
wrap, for anything shorter than 2^32 ms. -/
theorem ticks_difference (t1 t2 : Nat) (h12 : t1 ≤ t2) (ht : t2 < 2 ^ 63) (hd : t2 - t1 ≤ 1000 * (2 ^ 32 - 2)) :
    let d := (millisecondTicks (BitVec.ofNat 64 t2) - millisecondTicks (BitVec.ofNat 64 t1)).toNat
    d = t2 / 1000 - t1 / 1000 ∧ 1000 * d < (t2 - t1) + 1000 ∧ t2 - t1 < 1000 * d + 1000 := by
  simp only
  rw [millisecondTicks_exact t1 (by omega), millisecondTicks_exact t2 ht, BitVec.toNat_sub, BitVec.toNat_ofNat,
    BitVec.toNat_ofNat]
  have h : (2 ^ 32 - t1 / 1000 % 2 ^ 32 + t2 / 1000 % 2 ^ 32) % 2 ^ 32 = t2 / 1000 - t1 / 1000 := by omega
  rw [h]
  omega

example : (millisecondTicks (BitVec.ofNat 64 (4294967296000 + 5000)) -
    millisecondTicks (BitVec.ofNat 64 (4294967296000 - 5000))).toNat = 10 := by decide

/-! ### C63 -/

theorem sleepLoop_ok {ticks : Nat → BitVec 32} {slept : Nat → Bool} {wait : BitVec 32} {fuel k r : Nat}
    {log log' : List Ev} (h : sleepLoop ticks slept wait fuel k log = .ok (r, log')) :
    k < r ∧ wait ≤ ticks (r - 1) ∧ ∃ new, log' = log ++ new ∧
      ∀ e ∈ new, (∃ i, k ≤ i ∧ i + 1 < r ∧ ticks i < wait ∧ e = .sleep (i + 1) (((wait - ticks (i + 1)) * 1000).setWidth 64)) ∨
        (∃ i, k ≤ i ∧ i < r ∧ ticks i < wait ∧ e = .wait i (wait - ticks i)) := by
  induction fuel generalizing k log with
  | zero => simp [sleepLoop] at h
  | succ n ih =>
    unfold sleepLoop at h
    by_cases hk : ticks k < wait
    · simp only [hk, if_true] at h
      cases hs : slept log.length with
      | false =>
        simp only [hs, Bool.not_false, if_true] at h
        by_cases hc : wait > ticks (k + 2)
        · simp only [hc, if_true] at h
          obtain ⟨h1, h2, new, h3, h4⟩ := ih h
          refine ⟨by omega, h2, .sleep (k + 1) (((wait - ticks (k + 1)) * 1000).setWidth 64) ::
            .wait (k + 2) (wait - ticks (k + 2)) :: new, by rw [h3]; simp, ?_⟩
          intro e he
          simp only [List.mem_cons] at he
          rcases he with he | he | he
          · exact Or.inl ⟨k, by omega, by omega, hk, he⟩
          · exact Or.inr ⟨k + 2, by omega, by omega, hc, he⟩
          · rcases h4 e he with ⟨i, a, b, c⟩ | ⟨i, a, b, c⟩
            · exact Or.inl ⟨i, by omega, b, c⟩
            · exact Or.inr ⟨i, by omega, b, c⟩
        · simp only [hc, if_false] at h
          obtain ⟨h1, h2, new, h3, h4⟩ := ih h
          refine ⟨by omega, h2, .sleep (k + 1) (((wait - ticks (k + 1)) * 1000).setWidth 64) :: new,
            by rw [h3]; simp, ?_⟩
          intro e he
          simp only [List.mem_cons] at he
          rcases he with he | he
          · exact Or.inl ⟨k, by omega, by omega, hk, he⟩
          · rcases h4 e he with ⟨i, a, b, c⟩ | ⟨i, a, b, c⟩
            · exact Or.inl ⟨i, by omega, b, c⟩
            · exact Or.inr ⟨i, by omega, b, c⟩
      | true =>
        simp only [hs, Bool.not_true, Bool.false_eq_true, if_false] at h
        obtain ⟨h1, h2, new, h3, h4⟩ := ih h
        refine ⟨by omega, h2, .sleep (k + 1) (((wait - ticks (k + 1)) * 1000).setWidth 64) :: new,
          by rw [h3]; simp, ?_⟩
        intro e he
        simp only [List.mem_cons] at he
        rcases he with he | he
        · exact Or.inl ⟨k, by omega, by omega, hk, he⟩
        · rcases h4 e he with ⟨i, a, b, c⟩ | ⟨i, a, b, c⟩
          · exact Or.inl ⟨i, by omega, b, c⟩
          · exact Or.inr ⟨i, by omega, b, c⟩
    · simp only [hk, if_false] at h
      cases h
      refine ⟨by omega, ?_, [], by simp, by simp⟩
      simpa using hk

/-- **C63** as long as the deadline `D` does not wrap and the counter does not run backwards: `ligntSleep` returns no
earlier than the deadline.  A wake-up is requested after a reading before the deadline; it is no later than the deadline
(and exact modulo 2^32 µs) unless the counter has passed the deadline between the two readings, and then it is
2^32 - 1000·(T i - D) µs away (modulo 2^32).  Delays always end at the deadline. -/
theorem lightSleep_exact (ticks : Nat → BitVec 32) (T : Nat → Nat) (hT : Shows ticks T) (slept : Nat → Bool)
    (fuel r : Nat) (ms : BitVec 32) (log : List Ev) (hT32 : ∀ i, T i < 2 ^ 32) (D : Nat) (hD : D = T 0 + ms.toNat)
    (hwrap : D < 2 ^ 32) (h : lightSleep ticks slept fuel ms = .ok (r, log)) :
    D ≤ T (r - 1) ∧
    (∀ e ∈ log, match e with
      | .sleep i us => 0 < i ∧ T (i - 1) < D ∧ (T i ≤ D → us.toNat = 1000 * (D - T i) % 2 ^ 32) ∧
          (D < T i → us.toNat = (2 ^ 32 - 1000 * (T i - D) % 2 ^ 32) % 2 ^ 32)
      | .wait i d => T i < D ∧ T i + d.toNat = D) := by
  obtain ⟨hmono, hclock⟩ := hT
  have hval : ∀ i, (ticks i).toNat = T i := fun i => by
    rw [hclock, BitVec.toNat_ofNat, Nat.mod_eq_of_lt (hT32 i)]
  unfold lightSleep at h
  simp only at h
  have hwait : (ticks 0 + ms).toNat = D := by
    rw [BitVec.toNat_add, hval, hD, Nat.mod_eq_of_lt (by omega)]
  generalize ticks 0 + ms = wait at h hwait
  obtain ⟨h1, h2, new, h3, h4⟩ := sleepLoop_ok h
  refine ⟨by rw [BitVec.le_def, hwait, hval] at h2; exact h2, ?_⟩
  intro e he
  rw [h3, List.nil_append] at he
  rcases h4 e he with ⟨i, a, b, c, rfl⟩ | ⟨i, a, b, c, rfl⟩
  · simp only
    rw [BitVec.lt_def, hwait, hval] at c
    have hus : (((wait - ticks (i + 1)) * 1000).setWidth 64).toNat =
        (2 ^ 32 - T (i + 1) + D) % 2 ^ 32 * 1000 % 2 ^ 32 := by
      rw [BitVec.toNat_setWidth, BitVec.toNat_mul, BitVec.toNat_sub, hwait, hval,
        show (1000 : BitVec 32).toNat = 1000 from rfl, Nat.mod_eq_of_lt (by omega)]
    have hb := hT32 (i + 1)
    refine ⟨by omega, by simpa using c, ?_, ?_⟩
    · intro hle
      rw [hus, show 2 ^ 32 - T (i + 1) + D = 2 ^ 32 + (D - T (i + 1)) by omega, Nat.add_mod_left,
        Nat.mod_eq_of_lt (show D - T (i + 1) < 2 ^ 32 by omega), Nat.mul_comm]
    · intro hgt
      rw [hus]
      omega
  · simp only
    rw [BitVec.lt_def, hwait, hval] at c
    refine ⟨c, ?_⟩
    rw [BitVec.toNat_sub_of_le (by rw [BitVec.le_def, hwait, hval]; omega), hwait, hval]
    omega

/-- **C63**, what holds: no wake-up is requested later than the deadline, provided that the deadline does not wrap and
the counter does not pass it between a loop test and the computation of the wake-up time. -/
theorem lightSleep_partial (ticks : Nat → BitVec 32) (T : Nat → Nat) (hT : Shows ticks T) (slept : Nat → Bool)
    (fuel r : Nat) (ms : BitVec 32) (log : List Ev) (hT32 : ∀ i, T i < 2 ^ 32) (hwrap : T 0 + ms.toNat < 2 ^ 32)
    (hrace : ∀ i us, .sleep i us ∈ log → T i ≤ T 0 + ms.toNat)
    (h : lightSleep ticks slept fuel ms = .ok (r, log)) :
    T 0 + ms.toNat ≤ T (r - 1) ∧
    (∀ e ∈ log, match e with
      | .sleep i us => 1000 * T i + us.toNat ≤ 1000 * (T 0 + ms.toNat)
      | .wait i d => T i + d.toNat = T 0 + ms.toNat) := by
  obtain ⟨h1, h2⟩ := lightSleep_exact ticks T hT slept fuel r ms log hT32 _ rfl hwrap h
  refine ⟨h1, ?_⟩
  intro e he
  have := h2 e he
  cases e with
  | sleep i us =>
    have hr := hrace i us he
    have hx := this.2.2.1 hr
    have := Nat.mod_le (1000 * (T 0 + ms.toNat - T i)) (2 ^ 32)
    dsimp only
    omega
  | wait i d => exact this.2

/-- The last readings: the call returns at once, or after a sleep requested after a reading before the deadline. -/
theorem sleepLoop_last {ticks : Nat → BitVec 32} {slept : Nat → Bool} {wait : BitVec 32} {fuel k r : Nat}
    {log log' : List Ev} (h : sleepLoop ticks slept wait fuel k log = .ok (r, log')) :
    r = k + 1 ∨ ∃ i us, k ≤ i ∧ .sleep (i + 1) us ∈ log' ∧ (r = i + 3 ∨ r = i + 4) := by
  induction fuel generalizing k log with
  | zero => simp [sleepLoop] at h
  | succ n ih =>
    unfold sleepLoop at h
    by_cases hk : ticks k < wait
    · simp only [hk, if_true] at h
      cases hs : slept log.length with
      | false =>
        simp only [hs, Bool.not_false, if_true] at h
        by_cases hc : wait > ticks (k + 2)
        · simp only [hc, if_true] at h
          obtain ⟨-, -, new, h3, -⟩ := sleepLoop_ok h
          rcases ih h with hr | ⟨i, us, h1, h2, h4⟩
          · exact .inr ⟨k, ((wait - ticks (k + 1)) * 1000).setWidth 64, Nat.le_refl _, by rw [h3]; simp, by omega⟩
          · exact .inr ⟨i, us, by omega, h2, h4⟩
        · simp only [hc, if_false] at h
          obtain ⟨-, -, new, h3, -⟩ := sleepLoop_ok h
          rcases ih h with hr | ⟨i, us, h1, h2, h4⟩
          · exact .inr ⟨k, ((wait - ticks (k + 1)) * 1000).setWidth 64, Nat.le_refl _, by rw [h3]; simp, by omega⟩
          · exact .inr ⟨i, us, by omega, h2, h4⟩
      | true =>
        simp only [hs, Bool.not_true, Bool.false_eq_true, if_false] at h
        obtain ⟨-, -, new, h3, -⟩ := sleepLoop_ok h
        rcases ih h with hr | ⟨i, us, h1, h2, h4⟩
        · exact .inr ⟨k, ((wait - ticks (k + 1)) * 1000).setWidth 64, Nat.le_refl _, by rw [h3]; simp, by omega⟩
        · exact .inr ⟨i, us, by omega, h2, h4⟩
    · simp only [hk, if_false] at h
      cases h
      exact .inl rfl

/-- The reading after which something was asked for, and for how many microseconds. -/
def Ev.reading : Ev → Nat
  | .sleep i _ => i
  | .wait i _ => i
def Ev.us : Ev → Nat
  | .sleep _ us => us.toNat
  | .wait _ ms => 1000 * ms.toNat

/-- **C63**, the other bound: if from one reading to the next there pass at most `L` µs more than what was asked for
after the first of them, then, without wrap and race, `ligntSleep` returns at most `2·L` µs after the deadline. -/
theorem lightSleep_on_time (ticks : Nat → BitVec 32) (T : Nat → Nat) (hT : Shows ticks T) (slept : Nat → Bool)
    (fuel r : Nat) (ms : BitVec 32) (log : List Ev) (hT32 : ∀ i, T i < 2 ^ 32) (D : Nat) (hD : D = T 0 + ms.toNat)
    (hwrap : D < 2 ^ 32) (hrace : ∀ i us, .sleep i us ∈ log → T i ≤ D) (L : Nat)
    (hlag : ∀ i, 1000 * T (i + 1) ≤ 1000 * T i + L ∨
      ∃ e ∈ log, e.reading = i ∧ 1000 * T (i + 1) ≤ 1000 * T i + e.us + L)
    (h : lightSleep ticks slept fuel ms = .ok (r, log)) :
    D ≤ T (r - 1) ∧ 1000 * T (r - 1) ≤ 1000 * D + 2 * L := by
  obtain ⟨h1, h2⟩ := lightSleep_partial ticks T hT slept fuel r ms log hT32 (by omega)
    (fun i us hm => hD ▸ hrace i us hm) h
  rw [← hD] at h1
  refine ⟨h1, ?_⟩
  have hev : ∀ e ∈ log, 1000 * T e.reading + e.us ≤ 1000 * D := by
    intro e he
    have := h2 e he
    cases e <;> simp only [Ev.reading, Ev.us, hD] at this ⊢ <;> omega
  have hstep : ∀ i, T i ≤ D → 1000 * T (i + 1) ≤ 1000 * D + L := by
    intro i hi
    rcases hlag i with hl | ⟨e, he, rfl, hl⟩
    · omega
    · have := hev e he; omega
  rcases sleepLoop_last h with rfl | ⟨i, us, hk, hm, hr⟩
  · have := hstep 0 (by omega)
    simp only [Nat.zero_add] at this
    rw [show 1 + 1 - 1 = 1 from rfl]
    omega
  · have h3 := hstep (i + 1) (hrace _ _ hm)
    rcases hr with rfl | rfl
    · rw [show i + 3 - 1 = i + 1 + 1 by omega]; omega
    · rw [show i + 4 - 1 = i + 1 + 1 + 1 by omega]
      rcases hlag (i + 1 + 1) with hl | ⟨e, he, hx, hl⟩
      · omega
      · have := hev e he
        rw [hx] at this
        omega

/-- The loop ends when the counter has reached the deadline for good. -/
theorem sleepLoop_stops {ticks : Nat → BitVec 32} {slept : Nat → Bool} {wait : BitVec 32} {J : Nat}
    (hJ : ∀ i, J ≤ i → wait ≤ ticks i) (fuel k : Nat) (hf : J < fuel + k) (h0 : 0 < fuel) (log : List Ev) :
    ∃ r log', sleepLoop ticks slept wait fuel k log = .ok (r, log') := by
  induction fuel generalizing k log with
  | zero => omega
  | succ n ih =>
    unfold sleepLoop
    by_cases hk : ticks k < wait
    · have hkJ : k < J := Nat.lt_of_not_le fun hle => by
        have := hJ k hle
        rw [BitVec.lt_def] at hk
        rw [BitVec.le_def] at this
        omega
      simp only [hk, if_true]
      split
      · split
        · exact ih (k + 3) (by omega) (by omega) _
        · exact ih (k + 3) (by omega) (by omega) _
      · exact ih (k + 2) (by omega) (by omega) _
    · simp only [hk, if_false]
      exact ⟨_, _, rfl⟩

/-- **C63**: `ligntSleep` returns, whether or not the sleeps succeed, as soon as the counter stays at or above the
deadline. -/
theorem lightSleep_stops (ticks : Nat → BitVec 32) (slept : Nat → Bool) (ms : BitVec 32) (J : Nat)
    (hJ : ∀ i, J ≤ i → ticks 0 + ms ≤ ticks i) :
    ∃ r log, lightSleep ticks slept (J + 1) ms = .ok (r, log) :=
  sleepLoop_stops hJ (J + 1) 1 (by omega) (by omega) []

/-- The wake-up requested is exact when less than 2^32 microseconds remain. -/
theorem wakeup_exact (wait now : BitVec 32) (h : now ≤ wait) (hd : (wait.toNat - now.toNat) * 1000 < 2 ^ 32) :
    (((wait - now) * 1000).setWidth 64 : BitVec 64).toNat = (wait.toNat - now.toNat) * 1000 := by
  rw [BitVec.toNat_setWidth, BitVec.toNat_mul, BitVec.toNat_sub_of_le h]
  rw [show (1000 : BitVec 32).toNat = 1000 from rfl, Nat.mod_eq_of_lt hd, Nat.mod_eq_of_lt (by omega)]

/-- **C63 is false** in the race window: when the counter passes the deadline by `d` milliseconds between the loop test
and the computation of the wake-up time, a wake-up 2^32 − 1000·d microseconds (about 71 minutes) away is requested. -/
theorem lightSleep_overshoots (ticks : Nat → BitVec 32) (slept : Nat → Bool) (fuel : Nat) (ms : BitVec 32) (d : Nat)
    (hd : 0 < d) (hd2 : 1000 * d < 2 ^ 32) (h1 : ticks 1 < ticks 0 + ms) (h2 : ticks 2 = ticks 0 + ms + BitVec.ofNat 32 d)
    (r : Nat) (log : List Ev) (h : lightSleep ticks slept fuel ms = .ok (r, log)) :
    ∃ us rest, log = .sleep 2 us :: rest ∧ us.toNat = 2 ^ 32 - 1000 * d := by
  unfold lightSleep at h
  simp only at h
  generalize ticks 0 + ms = wait at *
  have hus : (((wait - ticks 2) * 1000).setWidth 64 : BitVec 64).toNat = 2 ^ 32 - 1000 * d := by
    have : (wait - ticks 2) * 1000 = BitVec.ofNat 32 (2 ^ 32 - 1000 * d) := by
      rw [h2]
      apply BitVec.eq_of_toNat_eq
      rw [BitVec.toNat_mul, BitVec.toNat_sub, BitVec.toNat_add, BitVec.toNat_ofNat, BitVec.toNat_ofNat,
        show (1000 : BitVec 32).toNat = 1000 from rfl]
      have := wait.isLt
      rw [Nat.mod_eq_of_lt (show d < 2 ^ 32 by omega)]
      omega
    rw [this, BitVec.toNat_setWidth, BitVec.toNat_ofNat]
    omega
  cases fuel with
  | zero => simp [sleepLoop] at h
  | succ n =>
    unfold sleepLoop at h
    simp only [h1, if_true] at h
    split at h
    · split at h
      · obtain ⟨-, -, new, h3, -⟩ := sleepLoop_ok h
        exact ⟨_, _, by rw [h3]; simp; rfl, hus⟩
      · obtain ⟨-, -, new, h3, -⟩ := sleepLoop_ok h
        exact ⟨_, _, by rw [h3]; simp; rfl, hus⟩
    · obtain ⟨-, -, new, h3, -⟩ := sleepLoop_ok h
      exact ⟨_, _, by rw [h3]; simp; rfl, hus⟩

/-- **C63 is false** when the deadline wraps: `ligntSleep` then returns at once. -/
theorem lightSleep_wrap_returns (ticks : Nat → BitVec 32) (slept : Nat → Bool) (fuel : Nat) (ms : BitVec 32)
    (hwrap : 2 ^ 32 ≤ (ticks 0).toNat + ms.toNat) (h1 : ticks 0 ≤ ticks 1) :
    lightSleep ticks slept (fuel + 1) ms = .ok (2, []) := by
  unfold lightSleep sleepLoop
  simp only
  have : ¬ ticks 1 < ticks 0 + ms := by
    rw [BitVec.lt_def, BitVec.toNat_add]
    rw [BitVec.le_def] at h1
    have := (ticks 0).isLt
    have := ms.isLt
    omega
  simp only [this, if_false]

/-- Deep sleep requests exactly the time given. -/
theorem deepSleep_exact (ms : BitVec 32) : (deepSleepUs ms).toNat = 1000 * ms.toNat := by
  have := ms.isLt
  unfold deepSleepUs
  rw [BitVec.toNat_mul, BitVec.toNat_setWidth, Nat.mod_eq_of_lt (show ms.toNat < 2 ^ 64 by omega),
    show (1000 : BitVec 64).toNat = 1000 from rfl, Nat.mod_eq_of_lt (by omega)]
  omega

/-- Fifty milliseconds: the first sleep is refused, the second one works. -/
example : lightSleep (fun k => [100, 100, 101, 102, 130, 130, 150].getD k 200) (fun n => n != 0) 10 50 =
    .ok (7, [.sleep 2 49000, .wait 3 48, .sleep 5 20000]) := by decide

/-- One millisecond too late in the window: 4294966296 µs. -/
example : lightSleep (fun k => [100, 149, 151, 151].getD k 200) (fun _ => true) 10 50 =
    .ok (4, [.sleep 2 4294966296]) := by decide

end Verif.Hal.Time
