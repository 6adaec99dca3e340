import Verif.Hal.Gpio
/-!
# C59, C65: chip select and pin configuration
-/
namespace Verif.Hal.Gpio
open Verif

/-- The program does not drive pin `p`. -/
def Untouched (p : BitVec 8) : Prog → Prop
  | .skip | .access _ | .leave => True
  | .set q | .reset q | .setLevel q _ => q ≠ p
  | .seq a b => Untouched p a ∧ Untouched p b
  | .select q body => q ≠ p ∧ Untouched p body

/-- Pin `p` is driven by chip selectors only, and these are not nested. -/
def Selected (p : BitVec 8) : Prog → Prop
  | .skip | .access _ | .leave => True
  | .set q | .reset q | .setLevel q _ => q ≠ p
  | .seq a b => Selected p a ∧ Selected p b
  | .select q body => if q = p then Untouched p body else Selected p body

/-- The accesses in the order in which they happen, each with whether it is inside of a selector of `p`, and whether
the function is left. -/
def trace (p : BitVec 8) (inside : Bool) : Prog → List (Nat × Bool) × Bool
  | .access tag => ([(tag, inside)], false)
  | .leave => ([], true)
  | .seq a b =>
    if (trace p inside a).2 then trace p inside a
    else ((trace p inside a).1 ++ (trace p inside b).1, (trace p inside b).2)
  | .select q body => trace p (inside || q == p) body
  | _ => ([], false)

/-- What was logged, as levels of pin `p`. -/
def seen (p : BitVec 8) (l : List (Nat × (BitVec 8 → Bool))) : List (Nat × Bool) := l.map (fun e => (e.1, e.2 p))

theorem drive_other {s : St} {p q : BitVec 8} (h : q ≠ p) (b : Bool) : (s.drive q b).level p = s.level p := by
  simp [St.drive, Ne.symm h]

theorem drive_same (s : St) (p : BitVec 8) (b : Bool) : (s.drive p b).level p = b := by
  simp [St.drive]

theorem pinSetLevel_eq (p : BitVec 8) (b : Bool) (s : St) : pinSetLevel p b s = s.drive p b := by
  cases b <;> rfl

theorem untouched_level {p : BitVec 8} (prog : Prog) (h : Untouched p prog) (s : St) :
    (exec prog s).2.level p = s.level p := by
  induction prog generalizing s with
  | skip => rfl
  | access => rfl
  | leave => rfl
  | set q => exact drive_other h true
  | reset q => exact drive_other h false
  | setLevel q b => simp only [exec, pinSetLevel_eq]; exact drive_other h b
  | seq a b iha ihb =>
    have ha := iha h.1 s
    unfold exec
    cases hx : exec a s with
    | mk l s' =>
      rw [hx] at ha
      cases l with
      | true => exact ha
      | false => simp only; rw [ihb h.2 s', ha]
  | select q body ih =>
    unfold exec
    simp only [selectorDtor, pinSet]
    rw [drive_other h.1, ih h.2]
    exact drive_other h.1 _

/-- A program which does not drive `p` sees the level `p` has. -/
theorem untouched_trace {p : BitVec 8} (prog : Prog) (h : Untouched p prog) (s : St) (inside : Bool)
    (hs : s.level p = !inside) :
    (exec prog s).1 = (trace p inside prog).2 ∧
    seen p (exec prog s).2.log = (seen p s.log) ++ (trace p inside prog).1.map (fun e => (e.1, !e.2)) := by
  induction prog generalizing s with
  | skip => simp [exec, trace]
  | access tag => simp [exec, trace, seen, hs]
  | leave => simp [exec, trace]
  | set q => simp [exec, trace, pinSet, St.drive]
  | reset q => simp [exec, trace, pinReset, St.drive]
  | setLevel q b => simp [exec, trace, pinSetLevel_eq, St.drive]
  | seq a b iha ihb =>
    have ha := iha h.1 s hs
    have hl := untouched_level a h.1 s
    unfold exec trace
    cases hx : exec a s with
    | mk l s' =>
      rw [hx] at ha hl
      obtain ⟨h1, h2⟩ := ha
      simp only at h1 h2 hl
      cases l with
      | true => rw [if_pos h1.symm]; exact ⟨h1, h2⟩
      | false =>
        rw [if_neg (by rw [← h1]; simp)]
        simp only
        obtain ⟨b1, b2⟩ := ihb h.2 s' (hl.trans hs)
        refine ⟨b1, ?_⟩
        rw [b2, h2]; simp
  | select q body ih =>
    unfold exec trace
    have hq : (inside || q == p) = inside := by
      simp [beq_false_of_ne h.1]
    rw [hq]
    obtain ⟨b1, b2⟩ := ih h.2 (selectorCtor q s) ((drive_other h.1 _).trans hs)
    exact ⟨b1, b2⟩

/-- **C59**: in every program which drives pin `p` by non-nested chip selectors only, with the pin high at the
beginning, each access sees the pin low iff it happens inside of a selector of `p` – also when the function is left
early – and the pin is high at the end. -/
theorem select_brackets (p : BitVec 8) (prog : Prog) (h : Selected p prog) (s : St) (hs : s.level p = true) :
    (exec prog s).2.level p = true ∧
    (exec prog s).1 = (trace p false prog).2 ∧
    seen p (exec prog s).2.log = seen p s.log ++ (trace p false prog).1.map (fun e => (e.1, !e.2)) := by
  induction prog generalizing s with
  | skip => simp [exec, trace, hs]
  | access tag => simp [exec, trace, seen, hs]
  | leave => simp [exec, trace, hs]
  | set q => exact ⟨(drive_other h _).trans hs, by simp [exec, trace, pinSet, St.drive]⟩
  | reset q => exact ⟨(drive_other h _).trans hs, by simp [exec, trace, pinReset, St.drive]⟩
  | setLevel q b =>
    refine ⟨?_, by simp [exec, trace, pinSetLevel_eq, St.drive]⟩
    simp only [exec, pinSetLevel_eq]; exact (drive_other h _).trans hs
  | seq a b iha ihb =>
    have ha := iha h.1 s hs
    unfold exec trace
    cases hx : exec a s with
    | mk l s' =>
      rw [hx] at ha
      obtain ⟨h0, h1, h2⟩ := ha
      simp only at h0 h1 h2
      cases l with
      | true => rw [if_pos h1.symm]; exact ⟨h0, h1, h2⟩
      | false =>
        rw [if_neg (by rw [← h1]; simp)]
        simp only
        obtain ⟨b0, b1, b2⟩ := ihb h.2 s' h0
        refine ⟨b0, b1, ?_⟩
        rw [b2, h2]; simp
  | select q body ih =>
    unfold Selected at h
    unfold exec trace
    by_cases hq : q = p
    · rw [if_pos hq] at h
      subst hq
      have hc : (selectorCtor q s).level q = !true := drive_same s q false
      obtain ⟨b1, b2⟩ := untouched_trace body h (selectorCtor q s) true hc
      refine ⟨drive_same _ _ _, ?_, ?_⟩
      · simpa using b1
      · have b3 : seen q (selectorDtor q (exec body (selectorCtor q s)).2).log =
            seen q s.log ++ (trace q true body).1.map (fun e => (e.1, !e.2)) := b2
        simpa using b3
    · rw [if_neg hq] at h
      have hb : (false || q == p) = false := by simp [hq]
      rw [hb]
      obtain ⟨b0, b1, b2⟩ := ih h (selectorCtor q s) ((drive_other hq _).trans hs)
      exact ⟨(drive_other hq _).trans b0, b1, b2⟩

/-- A selector of `p` drives no other pin. -/
theorem select_other (p q : BitVec 8) (hq : p ≠ q) (body : Prog) (h : Untouched q body) (s : St) :
    (exec (.select p body) s).2.level q = s.level q :=
  untouched_level (.select p body) ⟨hq, h⟩ s

/-- Two selectors, one of another pin inside, an access between and an early exit. -/
example : seen 5 (exec (.seq (.select 5 (.seq (.access 1) (.select 7 (.access 2))))
      (.seq (.access 3) (.select 5 (.seq (.access 4) (.seq .leave (.access 5)))))) ⟨fun _ => true, []⟩).2.log =
    [(1, false), (2, false), (3, true), (4, false)] := by decide

/-- Nesting two selectors of the same pin deselects the chip early. -/
example : seen 5 (exec (.select 5 (.seq (.select 5 (.access 1)) (.access 2))) ⟨fun _ => true, []⟩).2.log =
    [(1, false), (2, true)] := by decide

/-! ### C65 -/

/-- **C65** (ESP32): a valid pin is configured – and no other pin – with the direction and pull requested and no
interrupt; the result is the driver's; an invalid pin is refused without calling the driver. -/
theorem initEsp_exact (valid : BitVec 8 → Bool) (config : Config → Bool) (hv : ∀ p, valid p = true → p.toNat < 64)
    (pin : BitVec 8) (type : Direction) (pull : PullMode) :
    (valid pin = false → initEsp valid config pin type pull = .ok (false, none)) ∧
    (valid pin = true → ∃ c, initEsp valid config pin type pull = .ok (config c, some c) ∧
      (∀ i, c.mask.getLsbD i = decide (i = pin.toNat)) ∧
      (c.output = true ↔ type = .output) ∧ (c.pullUp = true ↔ pull = .up) ∧ (c.pullDown = true ↔ pull = .down) ∧
      c.interrupt = false) := by
  refine ⟨fun h => by simp [initEsp, h], fun h => ?_⟩
  have hlt := hv pin h
  refine ⟨_, by simp only [initEsp, h]; rw [if_neg (by simp), if_neg (by omega)], ?_, ?_, ?_, ?_, rfl⟩
  · intro i
    rw [BitVec.getLsbD_shiftLeft]
    by_cases hi : i = pin.toNat
    · subst hi; simp [hlt]
    · by_cases h1 : i < pin.toNat
      · simp [hi, h1]
      · have : i - pin.toNat ≠ 0 := by omega
        simp [hi, BitVec.getLsbD_one, this]
  · cases type <;> simp only <;> decide
  · cases pull <;> simp only <;> decide
  · cases pull <;> simp only <;> decide

/-- The shift of the pin mask is undefined exactly for pins which the vendor takes as valid beyond the 64 bits. -/
theorem initEsp_ub_iff (valid : BitVec 8 → Bool) (config : Config → Bool) (pin : BitVec 8) (type : Direction)
    (pull : PullMode) : initEsp valid config pin type pull = .ub ↔ valid pin = true ∧ 64 ≤ pin.toNat := by
  unfold initEsp
  cases h : valid pin
  · simp
  · by_cases h64 : pin.toNat ≥ 64
    · simp [h64]
    · simp [h64]

/-- **C65** (Arduino): exactly the pin is configured, with exactly the bits of direction and pull. -/
theorem initArduino_exact (pin : BitVec 8) (type : Direction) (pull : PullMode) :
    ∃ mode, initArduino pin type pull = (true, pin, mode) ∧
      (mode.getLsbD 0 = true) ∧ (mode.getLsbD 1 = true ↔ type = .output) ∧ (mode.getLsbD 2 = true ↔ pull = .up) ∧
      (mode.getLsbD 3 = true ↔ pull = .down) ∧ mode.toNat < 16 := by
  refine ⟨_, rfl, ?_⟩
  cases type <;> cases pull <;> decide

example : initEsp (fun p => p.toNat < 40) (fun _ => true) 21 .output .up =
    .ok (true, some ⟨0x200000, true, true, false, false⟩) := by decide

end Verif.Hal.Gpio
