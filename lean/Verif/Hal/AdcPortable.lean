import Verif.Hal.AdcProps
/-!
# C115: programs reading analog pins

A program reads analog pins one after the other; what it reads next may depend on the values so far.  On Arduino every
read gives the level of the pin.  On the ESP32 the converter units are never released, so that a unit serves one read.
-/
namespace Verif.Hal.Adc.Portable
open Verif Verif.Hal.Adc

/-- A program: the next pin to read, depending on the values read before. -/
inductive Prog where
  | done
  | read (pin : BitVec 8) (next : Int → Prog)

/-- The world: the level of each pin at each of the reads, as the converter gives it. -/
abbrev Volt := BitVec 8 → Nat → Nat

/-- The pin connected to a channel of a unit. -/
def wired (map : Map) (unit channel : Nat) : Option Int := map[unit]?.bind fun u => u[channel]?

/-- An ESP32 driver which never fails by itself and converts the level of the pin connected to the channel configured
last. -/
def driver (map : Map) (volt : Volt) (n : Nat) : Driver where
  newUnit _ := true
  config _ := true
  read calls :=
    match calls.getLast? with
    | some (.config i j) => (wired map i j).map fun p => volt (BitVec.ofInt 8 p) n
    | _ => none

/-- arduino/AnalogPin.cpp:5-8 `singleRead`: `analogRead` of the pin. -/
def singleReadArduino (volt : Volt) (n : Nat) (pin : BitVec 8) : Int := volt pin n

/-- What the program reads on Arduino, from read number `n` on. -/
def runA (volt : Volt) : Prog → Nat → List (BitVec 8 × Int)
  | .done, _ => []
  | .read pin next, n => (pin, singleReadArduino volt n pin) :: runA volt (next (singleReadArduino volt n pin)) (n + 1)

/-- What the program reads on the ESP32. -/
def runE (map : Map) (pinCount : Nat) (volt : Volt) : Prog → Nat → St → List (BitVec 8 × Int)
  | .done, _, _ => []
  | .read pin next, n, s =>
    (pin, (singleRead map pinCount (driver map volt n) pin s).1) ::
      runE map pinCount volt (next (singleRead map pinCount (driver map volt n) pin s).1) (n + 1)
        (singleRead map pinCount (driver map volt n) pin s).2

/-- Specification: the pin exists and `i` is the first unit with a channel connected to it. -/
def OnUnit (map : Map) (pinCount : Nat) (pin : BitVec 8) (i : Nat) : Prop :=
  pin.toNat < pinCount ∧ (∃ j, Assigned map pin i j) ∧ ∀ i' j', Assigned map pin i' j' → i ≤ i'

theorem onUnit_iff {map : Map} {pinCount : Nat} {pin : BitVec 8} {i : Nat} :
    OnUnit map pinCount pin i ↔ ∃ j, lookup map pinCount pin = some (i, j) := by
  constructor
  · rintro ⟨h1, ⟨j, hj⟩, h3⟩
    cases hl : lookup map pinCount pin with
    | none =>
      rcases (lookup_complete map pinCount pin).1 hl with h | h
      · omega
      · exact absurd hj (h i j)
    | some x =>
      obtain ⟨i', j'⟩ := x
      obtain ⟨ha, -, hm⟩ := lookup_sound hl
      have := h3 i' j' ha
      have : i' = i := by rcases hm i j hj with h | h <;> omega
      exact ⟨j', by rw [this]⟩
  · rintro ⟨j, hj⟩
    obtain ⟨ha, hlt, hm⟩ := lookup_sound hj
    exact ⟨hlt, ⟨j, ha⟩, fun i' j' h => by rcases hm i' j' h with h | h <;> omega⟩

theorem wired_of_lookup {map : Map} {pinCount : Nat} {pin : BitVec 8} {i j : Nat}
    (h : lookup map pinCount pin = some (i, j)) : wired map i j = some (pin.toNat : Int) := by
  obtain ⟨⟨u, hu, huj⟩, -, -⟩ := lookup_sound h
  simp [wired, hu, huj]

/-- A read of a pin of a free unit gives its level and takes the unit. -/
theorem read_free {map : Map} {pinCount : Nat} {volt : Volt} {n : Nat} {pin : BitVec 8} {s : St} {i : Nat}
    (hi : i < 2) (hu : OnUnit map pinCount pin i) (hf : i ∉ s.inUse) :
    (singleRead map pinCount (driver map volt n) pin s).1 = volt pin n ∧
    (singleRead map pinCount (driver map volt n) pin s).2.inUse = i :: s.inUse := by
  obtain ⟨j, hj⟩ := onUnit_iff.1 hu
  have key : (singleReadADC (driver map volt n) i j s).1 = volt pin n ∧
      (singleReadADC (driver map volt n) i j s).2.inUse = i :: s.inUse := by
    unfold singleReadADC
    rw [if_pos (by simp [driver, hf])]
    simp [driver, wired_of_lookup hj]
  unfold singleRead
  rw [hj]
  simp only
  by_cases h0 : i = 0
  · subst h0; rw [if_pos rfl]; exact key
  · rw [if_neg h0, if_pos (by omega : i = 1)]
    have : i = 1 := by omega
    subst this; exact key

/-- Any other read fails. -/
theorem read_taken {map : Map} {pinCount : Nat} {drv : Driver} {pin : BitVec 8} {s : St}
    (h : ∀ i < 2, OnUnit map pinCount pin i → i ∈ s.inUse) :
    (singleRead map pinCount drv pin s).1 = -1 := by
  rcases singleRead_exact_partial map pinCount drv pin s with ⟨v, -, i, j, hl, hi, hn, -⟩ | ⟨h1, -⟩
  · exact absurd (h i hi (onUnit_iff.2 ⟨j, hl⟩)) hn
  · exact h1

/-- The pins, one after the other, are on units not taken before. -/
def Fresh (map : Map) (pinCount : Nat) : List Nat → List (BitVec 8) → Prop
  | _, [] => True
  | used, p :: ps => ∃ i, i < 2 ∧ OnUnit map pinCount p i ∧ i ∉ used ∧ Fresh map pinCount (i :: used) ps

theorem run_iff (map : Map) (pinCount : Nat) (volt : Volt) (p : Prog) (n : Nat) (s : St) :
    runE map pinCount volt p n s = runA volt p n ↔ Fresh map pinCount s.inUse ((runA volt p n).map Prod.fst) := by
  induction p generalizing n s with
  | done => simp [runE, runA, Fresh]
  | read pin next ih =>
    rw [runE, runA]
    simp only [List.map_cons, Fresh, List.cons.injEq, Prod.mk.injEq, true_and, singleReadArduino]
    constructor
    · rintro ⟨h1, h2⟩
      have hfree : ∃ i, i < 2 ∧ OnUnit map pinCount pin i ∧ i ∉ s.inUse := by
        apply Classical.byContradiction
        intro hno
        have hbad := read_taken (drv := driver map volt n) (s := s) (map := map) (pinCount := pinCount) (pin := pin)
          fun i hi hu => Classical.byContradiction fun hc => hno ⟨i, hi, hu, hc⟩
        rw [hbad] at h1
        omega
      obtain ⟨i, hi, hu, hf⟩ := hfree
      refine ⟨i, hi, hu, hf, ?_⟩
      obtain ⟨hv, hs⟩ := read_free (volt := volt) (n := n) hi hu hf
      rw [hv] at h2
      have := (ih _ _ _).1 h2
      rwa [hs] at this
    · rintro ⟨i, hi, hu, hf, hrest⟩
      obtain ⟨hv, hs⟩ := read_free (volt := volt) (n := n) hi hu hf
      refine ⟨hv, ?_⟩
      rw [hv]
      apply (ih _ _ _).2
      rwa [hs]

theorem onUnit_unique {map : Map} {pinCount : Nat} {pin : BitVec 8} {i i' : Nat} (h : OnUnit map pinCount pin i)
    (h' : OnUnit map pinCount pin i') : i = i' := by
  obtain ⟨-, ⟨j, hj⟩, hm⟩ := h
  obtain ⟨-, ⟨j', hj'⟩, hm'⟩ := h'
  have := hm _ _ hj'
  have := hm' _ _ hj
  omega

theorem fresh_iff (map : Map) (pinCount : Nat) (used : List Nat) (ps : List (BitVec 8)) :
    Fresh map pinCount used ps ↔
      (∀ p ∈ ps, ∃ i, i < 2 ∧ OnUnit map pinCount p i ∧ i ∉ used) ∧
      ps.Pairwise fun p q => ∀ i, OnUnit map pinCount p i → ¬ OnUnit map pinCount q i := by
  induction ps generalizing used with
  | nil => simp [Fresh]
  | cons p ps ih =>
    simp only [Fresh, ih, List.pairwise_cons, List.mem_cons]
    constructor
    · rintro ⟨i, hi, hu, hf, hall, hpw⟩
      refine ⟨?_, ?_, hpw⟩
      · rintro q (rfl | hq)
        · exact ⟨i, hi, hu, hf⟩
        · obtain ⟨k, hk, hku, hkf⟩ := hall q hq
          exact ⟨k, hk, hku, fun h => hkf (Or.inr h)⟩
      · intro q hq k hpk hqk
        obtain ⟨m, -, hmu, hmf⟩ := hall q hq
        apply hmf
        left
        rw [onUnit_unique hmu hqk, onUnit_unique hu hpk]
    · rintro ⟨hall, hfirst, hpw⟩
      obtain ⟨i, hi, hu, hf⟩ := hall p (Or.inl rfl)
      refine ⟨i, hi, hu, hf, ?_, hpw⟩
      intro q hq
      obtain ⟨k, hk, hku, hkf⟩ := hall q (Or.inr hq)
      refine ⟨k, hk, hku, ?_⟩
      rintro (rfl | h)
      · exact hfirst q hq k hu hku
      · exact hkf h

/-- **C115**: with a driver which never fails by itself, a program reads the same on both platforms iff each pin it
reads on Arduino is on one of the two units and no two of them are on the same unit. -/
theorem portable_iff_partial (map : Map) (pinCount : Nat) (volt : Volt) (p : Prog) (calls : List Ev) :
    runE map pinCount volt p 0 ⟨calls, []⟩ = runA volt p 0 ↔
      (∀ q ∈ (runA volt p 0).map Prod.fst, OnUnit map pinCount q 0 ∨ OnUnit map pinCount q 1) ∧
      ((runA volt p 0).map Prod.fst).Pairwise fun p q => ∀ i, OnUnit map pinCount p i → ¬ OnUnit map pinCount q i := by
  rw [run_iff, fresh_iff]
  apply and_congr_left'
  apply forall₂_congr
  intro q _
  constructor
  · rintro ⟨i, hi, hu, -⟩
    rcases (by omega : i = 0 ∨ i = 1) with rfl | rfl
    · exact Or.inl hu
    · exact Or.inr hu
  · rintro (h | h)
    · exact ⟨0, by omega, h, by simp⟩
    · exact ⟨1, by omega, h, by simp⟩

/-- Units 0 and 1 which are still free. -/
def free (s : St) : Nat := (if 0 ∈ s.inUse then 0 else 1) + (if 1 ∈ s.inUse then 0 else 1)

theorem singleRead_takes {map : Map} {pinCount : Nat} {drv : Driver} {pin : BitVec 8} {s : St}
    (h : (singleRead map pinCount drv pin s).1 ≠ -1) :
    ∃ i, i < 2 ∧ i ∉ s.inUse ∧ i ∈ (singleRead map pinCount drv pin s).2.inUse := by
  rcases singleRead_exact_partial map pinCount drv pin s with ⟨v, -, i, j, hl, hi, hn, -⟩ | ⟨h1, -⟩
  · refine ⟨i, hi, hn, ?_⟩
    unfold singleRead at h ⊢
    rw [hl] at h ⊢
    rcases (by omega : i = 0 ∨ i = 1) with rfl | rfl
    · exact singleReadADC_ok h
    · exact singleReadADC_ok h
  · exact absurd h1 h

theorem free_mono {s t : St} (h : ∀ u ∈ s.inUse, u ∈ t.inUse) : free t ≤ free s := by
  have h0 := h 0
  have h1 := h 1
  unfold free
  by_cases a : 0 ∈ s.inUse <;> by_cases b : 1 ∈ s.inUse <;> by_cases c : 0 ∈ t.inUse <;> by_cases d : 1 ∈ t.inUse <;>
    simp_all

theorem reads_bound (map : Map) (pinCount : Nat) (drv : Driver) (ps : List (BitVec 8)) (s : St) :
    ((reads map pinCount drv ps s).1.filter (· ≠ -1)).length ≤ free s := by
  induction ps generalizing s with
  | nil => simp [reads]
  | cons p ps ih =>
    have hm := singleRead_inUse map pinCount drv p s
    have ih' := ih (singleRead map pinCount drv p s).2
    simp only [reads]
    by_cases hr : (singleRead map pinCount drv p s).1 = -1
    · rw [List.filter_cons_of_neg (by simp [hr])]
      exact Nat.le_trans ih' (free_mono hm)
    · rw [List.filter_cons_of_pos (by simp [hr])]
      obtain ⟨i, hi, hn, ht⟩ := singleRead_takes hr
      have : free (singleRead map pinCount drv p s).2 + 1 ≤ free s := by
        have h0 := hm 0
        have h1 := hm 1
        unfold free
        rcases (by omega : i = 0 ∨ i = 1) with rfl | rfl
        · simp only [hn, ht, if_true, if_false]
          by_cases b : 1 ∈ s.inUse
          · simp [b, h1 b]
          · simp only [b, if_false]; split <;> omega
        · simp only [hn, ht, if_true, if_false]
          by_cases b : 0 ∈ s.inUse
          · simp [b, h0 b]
          · simp only [b, if_false]; split <;> omega
      simp only [List.length_cons]
      omega

/-- **C115**: whatever the channel map, the driver, the pins read and what happened before, at most two reads of a
sequence succeed on the ESP32 — one per converter unit. -/
theorem at_most_two (map : Map) (pinCount : Nat) (drv : Driver) (ps : List (BitVec 8)) (s : St) :
    ((reads map pinCount drv ps s).1.filter (· ≠ -1)).length ≤ 2 := by
  refine Nat.le_trans (reads_bound map pinCount drv ps s) ?_
  unfold free
  split <;> split <;> omega

/-- **C115 is false** as soon as a program reads a pin twice: with any map, the values differ between the platforms. -/
theorem not_portable_twice (map : Map) (pinCount : Nat) (volt : Volt) (pin : BitVec 8) (calls : List Ev)
    (next : Int → Int → Prog) :
    runE map pinCount volt (.read pin fun a => .read pin fun b => next a b) 0 ⟨calls, []⟩ ≠
      runA volt (.read pin fun a => .read pin fun b => next a b) 0 := by
  intro h
  obtain ⟨h1, h2⟩ := (portable_iff_partial map pinCount volt _ calls).1 h
  simp only [runA, List.map_cons, List.pairwise_cons, List.mem_cons] at h1 h2
  have := h2.1 pin (Or.inl rfl)
  rcases h1 pin (Or.inl rfl) with h | h
  · exact this 0 h h
  · exact this 1 h h

/-- The channels of the ESP32: unit 1 on pins 36, 37, 38, 39, 32, 33, 34, 35, unit 2 on 4, 0, 2, 15, 13, 12, 14, 27, 25, 26. -/
def esp32 : Map := [[36, 37, 38, 39, 32, 33, 34, 35, -1, -1], [4, 0, 2, 15, 13, 12, 14, 27, 25, 26]]

/-- A thermostat: the sensor, and when it is cold the set point from the other unit. -/
def thermostat : Prog := .read 36 fun t => if t < 1000 then .read 4 fun _ => .done else .done

example : runE esp32 40 (fun p _ => p.toNat) thermostat 0 ⟨[], []⟩ = [(36, 36), (4, 4)] ∧
    runA (fun p _ => p.toNat) thermostat 0 = [(36, 36), (4, 4)] := by decide
/-- Pins 36 and 37 share a unit. -/
example : runE esp32 40 (fun p _ => p.toNat) (.read 36 fun _ => .read 37 fun _ => .done) 0 ⟨[], []⟩ = [(36, 36), (37, -1)] ∧
    runA (fun p _ => p.toNat) (.read 36 fun _ => .read 37 fun _ => .done) 0 = [(36, 36), (37, 37)] := by decide
example : (reads esp32 40 (driver esp32 (fun p _ => p.toNat) 0) [36, 36, 5, 26, 4, 32] ⟨[], []⟩).1 = [36, -1, -1, 26, -1, -1] := by
  decide

end Verif.Hal.Adc.Portable
