import Verif.Hal.GpioRead
/-!
# C96: one pin program on two platforms

A program calls `init`, `set`, `reset` and `check` on `GpioDigitalPin` objects and may choose each call from the results of
the calls before.  It is run with both implementations (GpioRead.lean) on pads in the same state, in a world which may
change from call to call.
-/
namespace Verif.Hal.Gpio.Portable
open Verif Verif.Hal.Gpio Verif.Hal.Gpio.Read

/-- A program: the next call, and how to go on with its result (`true` for `void`). -/
inductive Prog where
  | done
  | op (o : Op) (next : Bool → Prog)
  | check (pin : BitVec 8) (next : Bool → Prog)

/-- What one can observe of a call: its result, and the levels of all pins afterwards. -/
abbrev Seen := Bool × (BitVec 8 → Bool)

/-- What a call returns (arduino/GpioDigitalPin.cpp:24-37). -/
def resultA : Op → Bool
  | .init pin type pull => (initArduino pin type pull).1
  | _ => true

/-- What a call returns (esp32-esp-idf/GpioDigitalPin.cpp:30-45). -/
def resultE (valid : BitVec 8 → Bool) (config : Config → Bool) : Op → Res Bool
  | .init pin type pull => (initEsp valid config pin type pull).bind fun x => .ok x.1
  | _ => .ok true

/-- The run with arduino/GpioDigitalPin.cpp; `w n` is the world at the `n`-th call. -/
def runA (w : Nat → World) : Prog → Nat → Pads → List Seen
  | .done, _, _ => []
  | .op o next, n, P =>
    let r := resultA o
    let P := stepArduino o P
    (r, P.wire (w n)) :: runA w (next r) (n + 1) P
  | .check p next, n, P =>
    let r := check p P (w n)
    (r, P.wire (w n)) :: runA w (next r) (n + 1) P

/-- The run with esp32-esp-idf/GpioDigitalPin.cpp. -/
def runE (valid : BitVec 8 → Bool) (config : Config → Bool) (w : Nat → World) : Prog → Nat → Pads → Res (List Seen)
  | .done, _, _ => .ok []
  | .op o next, n, P => do
    let r ← resultE valid config o
    let P ← stepEsp valid config o P
    let rest ← runE valid config w (next r) (n + 1) P
    .ok ((r, P.wire (w n)) :: rest)
  | .check p next, n, P => do
    let r := check p P (w n)
    let rest ← runE valid config w (next r) (n + 1) P
    .ok ((r, P.wire (w n)) :: rest)

/-! ### Specification -/

/-- The pin was initialised as an output last, and its level is high. -/
def HighOutput (P0 : Pads) (l : List Op) (p : BitVec 8) : Prop :=
  (∃ pl, lastInit (fun _ _ _ => true) p l = some (.output, pl)) ∧ (lastLevel p l).getD (P0.reg p) = true

/-- What reading a pin has to give after the calls `l`, in terms of the history: the level of an output, what is outside
of an input; a pin not initialised reads as it was left. -/
def level (P0 : Pads) (w : World) (l : List Op) (p : BitVec 8) : Bool :=
  match lastInit (fun _ _ _ => true) p l with
  | some (.output, _) => (lastLevel p l).getD (P0.reg p)
  | some (.input, pl) => inputLevel w pl p
  | none =>
    P0.inEn p && (if P0.outEn p then (lastLevel p l).getD (P0.reg p) else outside w (P0.up p) (P0.down p) p)

/-- A program is portable when `init` is never refused and no output which is high is read, in the run which answers
`check` by `level`. -/
def Portable (accepted : BitVec 8 → Direction → PullMode → Bool) (P0 : Pads) (w : Nat → World) :
    Prog → Nat → List Op → Prop
  | .done, _, _ => True
  | .op o next, n, l =>
    (∀ q d pl, o = .init q d pl → accepted q d pl = true) ∧ Portable accepted P0 w (next true) (n + 1) (l ++ [o])
  | .check p next, n, l => ¬ HighOutput P0 l p ∧ Portable accepted P0 w (next (level P0 (w n) l p)) (n + 1) l

/-! ### Proofs -/

theorem runArduino_append (l : List Op) (o : Op) (P : Pads) :
    runArduino (l ++ [o]) P = stepArduino o (runArduino l P) := by
  induction l generalizing P with
  | nil => rfl
  | cons a l ih => exact ih _

theorem runEsp_append (valid : BitVec 8 → Bool) (config : Config → Bool) (l : List Op) (o : Op) (P : Pads) :
    runEsp valid config (l ++ [o]) P = (runEsp valid config l P).bind (stepEsp valid config o) := by
  induction l generalizing P with
  | nil =>
    change (stepEsp valid config o P).bind (fun x => .ok x) = stepEsp valid config o P
    cases stepEsp valid config o P <;> rfl
  | cons a l ih =>
    simp only [List.cons_append, runEsp]
    cases stepEsp valid config a P with
    | ub => rfl
    | hang => rfl
    | ok Q => exact ih Q

/-- Initialisations which are all accepted. -/
def AllAccepted (accepted : BitVec 8 → Direction → PullMode → Bool) (l : List Op) : Prop :=
  ∀ q d pl, .init q d pl ∈ l → accepted q d pl = true

theorem lastInit_accepted {accepted : BitVec 8 → Direction → PullMode → Bool} {l : List Op} (h : AllAccepted accepted l)
    (p : BitVec 8) : lastInit accepted p l = lastInit (fun _ _ _ => true) p l := by
  unfold lastInit
  have h' : ∀ q d pl, .init q d pl ∈ l.reverse → accepted q d pl = true := fun q d pl hm => h q d pl (List.mem_reverse.1 hm)
  generalize l.reverse = m at h'
  induction m with
  | nil => rfl
  | cons o m ih =>
    have ih := ih fun q d pl hm => h' q d pl (List.mem_cons_of_mem _ hm)
    cases o with
    | init q d pl =>
      have := h' q d pl List.mem_cons_self
      simp only [List.findSome?_cons, this, ih]
    | set q => simp only [List.findSome?_cons, ih]
    | reset q => simp only [List.findSome?_cons, ih]

/-- Levels of the pads after a history. -/
theorem wire_of_knows {i : Bool} {P P0 : Pads} {p : BitVec 8} {lv m} (k : Knows i P P0 p lv m) (w : World) :
    P.wire w p = match (generalizing := false) m with
      | some (.output, _) => lv.getD (P0.reg p)
      | some (.input, pl) => inputLevel w pl p
      | none => if P0.outEn p then lv.getD (P0.reg p) else outside w (P0.up p) (P0.down p) p := by
  unfold Pads.wire
  cases m with
  | none =>
    obtain ⟨a, -, c, d⟩ := k.same rfl
    rw [a, c, d, k.reg]
  | some x =>
    obtain ⟨d, pl⟩ := x
    obtain ⟨ho, -, hu, hd⟩ := k.mode d pl rfl
    rw [ho, hu, hd, k.reg]
    cases d
    · simp [outside_pull]
    · simp

theorem read_of_knows {i : Bool} {P P0 : Pads} {p : BitVec 8} {lv m} (k : Knows i P P0 p lv m) (w : World) :
    P.read w p = match (generalizing := false) m with
      | some (.output, _) => i && lv.getD (P0.reg p)
      | some (.input, pl) => inputLevel w pl p
      | none => P0.inEn p && (if P0.outEn p then lv.getD (P0.reg p) else outside w (P0.up p) (P0.down p) p) := by
  unfold Pads.read
  rw [wire_of_knows k]
  cases m with
  | none =>
    obtain ⟨-, b, -, -⟩ := k.same rfl
    rw [b]
    cases P0.inEn p <;> simp
  | some x =>
    obtain ⟨d, pl⟩ := x
    obtain ⟨-, hi, -, -⟩ := k.mode d pl rfl
    rw [hi]
    cases d
    · simp
    · cases i <;> simp

theorem resultE_ok (valid : BitVec 8 → Bool) (config : Config → Bool) (hv : ∀ p, valid p = true → p.toNat < 64) (o : Op) :
    ∃ r, resultE valid config o = .ok r ∧
      (r = true ↔ ∀ q d pl, o = .init q d pl → reported valid config q d pl = true) := by
  cases o with
  | set q => exact ⟨true, rfl, by simp⟩
  | reset q => exact ⟨true, rfl, by simp⟩
  | init q d pl =>
    cases hvq : valid q with
    | false =>
      have e := (initEsp_exact valid config hv q d pl).1 hvq
      refine ⟨false, by simp only [resultE, e]; rfl, ?_⟩
      constructor
      · intro h; cases h
      · intro h; have := h q d pl rfl; simp [reported, e] at this
    | true =>
      obtain ⟨c, hc, -⟩ := (initEsp_exact valid config hv q d pl).2 hvq
      refine ⟨config c, by simp only [resultE, hc]; rfl, ?_⟩
      constructor
      · intro h q' d' pl' e; cases e; simp [reported, hc, h]
      · intro h; have := h q d pl rfl; simpa [reported, hc] using this

/-- The runs from a common history. -/
theorem run_from (valid : BitVec 8 → Bool) (config : Config → Bool) (hv : ∀ p, valid p = true → p.toNat < 64)
    (w : Nat → World) (P0 : Pads) (prog : Prog) : ∀ (n : Nat) (l : List Op),
    AllAccepted (reported valid config) l → ∀ Q, runEsp valid config l P0 = .ok Q →
    ∃ log, runE valid config w prog n Q = .ok log ∧
      (Portable (reported valid config) P0 w prog n l → log = runA w prog n (runArduino l P0)) ∧
      (log.map Prod.fst = (runA w prog n (runArduino l P0)).map Prod.fst →
        Portable (reported valid config) P0 w prog n l) := by
  induction prog with
  | done => intro n l _ Q _; exact ⟨[], rfl, fun _ => rfl, fun _ => trivial⟩
  | op o next ih =>
    intro n l hl Q hQ
    obtain ⟨Q', hQ', -⟩ := knows_esp valid config hv (l ++ [o]) P0
    have hs : stepEsp valid config o Q = .ok Q' := by
      rw [runEsp_append, hQ] at hQ'; exact hQ'
    -- the result of the call on ESP32
    obtain ⟨r, hr, hacc⟩ := resultE_ok valid config hv o
    have hra : resultA o = true := by cases o <;> rfl
    cases r with
    | true =>
      have hacc := hacc.1 rfl
      have hl' : AllAccepted (reported valid config) (l ++ [o]) := by
        intro q d pl hm
        rcases List.mem_append.1 hm with hm | hm
        · exact hl q d pl hm
        · exact hacc q d pl (List.mem_singleton.1 hm).symm
      obtain ⟨log, h1, h2, h3⟩ := ih true (n + 1) (l ++ [o]) hl' Q' hQ'
      have hw : Q'.wire (w n) = (stepArduino o (runArduino l P0)).wire (w n) := by
        funext p
        obtain ⟨Q2, hQ2, k⟩ := knows_esp valid config hv (l ++ [o]) P0
        obtain rfl : Q' = Q2 := by rw [hQ'] at hQ2; cases hQ2; rfl
        rw [← runArduino_append, wire_of_knows (k p), wire_of_knows (knows_arduino (l ++ [o]) P0 p), lastInit_accepted hl']
      refine ⟨(true, Q'.wire (w n)) :: log, ?_, ?_, ?_⟩
      · simp only [runE, hr, hs, Res.bind_ok, h1]
      · intro hp
        simp only [runA, hra]
        rw [hw, h2 hp.2, runArduino_append]
      · intro he
        simp only [runA, hra, List.map_cons, List.cons.injEq, true_and] at he
        rw [← runArduino_append] at he
        exact ⟨hacc, h3 he⟩
    | false =>
      have hno : ¬ ∀ q d pl, o = .init q d pl → reported valid config q d pl = true := fun h => by
        have := hacc.2 h; cases this
      -- the rest of the run is defined as well
      suffices ∀ (prog : Prog) (n : Nat) (P : Pads), ∃ log, runE valid config w prog n P = .ok log by
        obtain ⟨log, h1⟩ := this (next false) (n + 1) Q'
        refine ⟨(false, Q'.wire (w n)) :: log, by simp only [runE, hr, hs, Res.bind_ok, h1], fun hp => absurd hp.1 hno, ?_⟩
        intro he
        simp only [runA, hra, List.map_cons, List.cons.injEq, Bool.false_eq_true, false_and] at he
      intro prog
      induction prog with
      | done => intro n P; exact ⟨[], rfl⟩
      | check p next ih =>
        intro n P
        obtain ⟨log, h⟩ := ih (check p P (w n)) (n + 1) P
        exact ⟨_, by simp only [runE, h, Res.bind_ok]; rfl⟩
      | op o next ih =>
        intro n P
        obtain ⟨P', hP', -⟩ := knows_esp valid config hv [o] P
        have hs : stepEsp valid config o P = .ok P' := by
          have := runEsp_append valid config [] o P
          rw [List.nil_append, hP'] at this; exact this.symm
        obtain ⟨r, hr, -⟩ := resultE_ok valid config hv o
        obtain ⟨log, h⟩ := ih r (n + 1) P'
        exact ⟨_, by simp only [runE, hr, hs, Res.bind_ok, h]; rfl⟩
  | check p next ih =>
    intro n l hl Q hQ
    obtain ⟨Q2, hQ2, k⟩ := knows_esp valid config hv l P0
    obtain rfl : Q = Q2 := by rw [hQ] at hQ2; cases hQ2; rfl
    have kA := knows_arduino l P0
    have hw : Q.wire (w n) = (runArduino l P0).wire (w n) := by
      funext q
      rw [wire_of_knows (k q), wire_of_knows (kA q), lastInit_accepted hl]
    have hA : check p (runArduino l P0) (w n) = level P0 (w n) l p := by
      unfold check level
      rw [read_of_knows (kA p)]
      simp only [Bool.true_and]
    have hE : check p Q (w n) = true ∨ ¬ HighOutput P0 l p → check p Q (w n) = level P0 (w n) l p := by
      unfold check level HighOutput
      rw [read_of_knows (k p), lastInit_accepted hl]
      cases lastInit (fun _ _ _ => true) p l with
      | none => intro _; rfl
      | some x =>
        obtain ⟨d, pl⟩ := x
        cases d
        · intro _; rfl
        · simp only [Bool.false_and, Bool.false_eq_true, false_or]
          intro h
          cases hb : (lastLevel p l).getD (P0.reg p)
          · rfl
          · exact absurd ⟨⟨pl, rfl⟩, hb⟩ h
    have hD : HighOutput P0 l p → check p Q (w n) = false ∧ level P0 (w n) l p = true := by
      rintro ⟨⟨pl, h1⟩, h2⟩
      unfold check level
      rw [read_of_knows (k p), lastInit_accepted hl, h1]
      simp [h2]
    obtain ⟨log, h1, h2, h3⟩ := ih (check p Q (w n)) (n + 1) l hl Q hQ
    refine ⟨(check p Q (w n), Q.wire (w n)) :: log, by simp only [runE, h1, Res.bind_ok], ?_, ?_⟩
    · rintro ⟨hq, hp⟩
      have e := hE (.inr hq)
      simp only [runA]
      rw [hA]
      rw [e] at h2 ⊢
      rw [hw, h2 hp]
    · intro he
      simp only [runA, List.map_cons, List.cons.injEq] at he
      obtain ⟨e1, e2⟩ := he
      have hno : ¬ HighOutput P0 l p := by
        intro hh
        obtain ⟨a, b⟩ := hD hh
        rw [a, hA, b] at e1
        cases e1
      have e := hE (.inr hno)
      rw [hA] at e2
      rw [e] at h3
      exact ⟨hno, h3 e2⟩

/-! ### C96 -/

/-- **C96**: on both platforms every call of a portable program has the same result, and all pins have the same level
after it. -/
theorem portable_agrees_partial (valid : BitVec 8 → Bool) (config : Config → Bool) (hv : ∀ p, valid p = true → p.toNat < 64)
    (w : Nat → World) (P : Pads) (prog : Prog) (h : Portable (reported valid config) P w prog 0 []) :
    runE valid config w prog 0 P = .ok (runA w prog 0 P) := by
  obtain ⟨log, h1, h2, -⟩ := run_from valid config hv w P prog 0 [] (by intro q d pl hm; cases hm) P rfl
  rw [h1, h2 h]
  rfl

/-- **C96 (finding)**: all other programs are told apart by a result: `init` is refused on ESP32 only, or an output which
is high reads low there. -/
theorem portable_exact (valid : BitVec 8 → Bool) (config : Config → Bool) (hv : ∀ p, valid p = true → p.toNat < 64)
    (w : Nat → World) (P : Pads) (prog : Prog) :
    ∃ log, runE valid config w prog 0 P = .ok log ∧
      (log.map Prod.fst = (runA w prog 0 P).map Prod.fst ↔ Portable (reported valid config) P w prog 0 []) := by
  obtain ⟨log, h1, h2, h3⟩ := run_from valid config hv w P prog 0 [] (by intro q d pl hm; cases hm) P rfl
  exact ⟨log, h1, h3, fun h => by rw [h2 h]; rfl⟩

/-- A program which waits for a button and switches a lamp: portable. -/
def lamp : Prog :=
  .op (.init 4 .input .up) fun _ => .op (.init 21 .output .none) fun ok => .check 4 fun b =>
    if ok && !b then .op (.set 21) fun _ => .done else .op (.reset 21) fun _ => .check 21 fun _ => .done

/-- Nothing initialised, nothing connected. -/
def blank : Pads := ⟨fun _ => false, fun _ => false, fun _ => false, fun _ => false, fun _ => false⟩

def pressed (n : Nat) : World := ⟨fun p => if p = 4 then some (n < 2) else none, fun _ => false⟩

example : Portable (reported (fun p => p.toNat < 40) (fun _ => true)) blank pressed lamp 0 [] :=
  ⟨by rintro q d pl h; cases h; decide, by rintro q d pl h; cases h; decide,
    by rintro ⟨⟨pl, h⟩, -⟩; revert h; cases pl <;> decide, by
      rw [show level blank (pressed (0 + 1 + 1)) ([] ++ [.init 4 .input .up] ++ [.init 21 .output .none]) 4 = false by decide]
      exact ⟨(by rintro q d pl h; cases h), trivial⟩⟩
example : (runA pressed lamp 0 blank).map Prod.fst = [true, true, false, true] := by decide

/-- Reading the lamp back: not portable. -/
example : (runA pressed (.op (.init 21 .output .none) fun _ => .op (.set 21) fun _ => .check 21 fun _ => .done) 0
    blank).map Prod.fst = [true, true, true] ∧
    (runE (fun p => p.toNat < 40) (fun _ => true) pressed
      (.op (.init 21 .output .none) fun _ => .op (.set 21) fun _ => .check 21 fun _ => .done) 0 blank).bind
      (fun log => .ok (log.map Prod.fst)) = .ok [true, true, false] := by decide

end Verif.Hal.Gpio.Portable
