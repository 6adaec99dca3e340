import Verif.Uart.ArduinoStream
/-!
# C86: when the calls stop waiting

The same calls as in ArduinoStream.lean, described by the outcomes of all reads (a byte or none) and all readings of the
clock.
-/
namespace Verif.Uart.Arduino
open Verif
open Verif.Uart.Esp (Env St tick)

/-! ## Specification -/

/-- A call, given the clock readings and the outcomes of reads it takes, returns the packet.  `Receive` looks at the clock
before each read and stops as soon as it has the bytes asked for or the clock has reached the deadline, not before.
`ReceiveUntil` does not look at the clock (the device has its own time-out).  `ReceiveBetween` looks at the clock before
each read while it waits for the start byte, unless the time-out is zero, and gives up as soon as the clock has reached the
deadline, not before.  The deadline is computed modulo 2^32. -/
inductive Takes : Call → List (BitVec 32) → List (Option Byte) → List Byte → Prop where
  | all (size timeout : Nat) (c0 : BitVec 32) (cs : List (BitVec 32)) (c1 : BitVec 32) (o : List (Option Byte)) :
      cs.length = o.length → (∀ c ∈ cs, c < c0 + BitVec.ofNat 32 timeout) → (o.filterMap id).length ≤ size →
      (o = [] ∨ (o.dropLast.filterMap id).length < size) →
      (c0 + BitVec.ofNat 32 timeout ≤ c1 ∨ (o.filterMap id).length = size) →
      Takes (.all size timeout) (c0 :: cs ++ [c1]) o (o.filterMap id)
  | «until» (size : Nat) (e : Byte) (timeout : Nat) (p : List Byte) (t : List (Option Byte)) : p.length + 1 ≤ size → e ∉ p →
      Ends e (p.length + 1 = size) t → Takes (.until size e timeout) [] (p.map some ++ t) (p ++ [e])
  | nothing (size : Nat) (sb e : Byte) (timeout : Nat) (c0 : BitVec 32) (cs : List (BitVec 32)) (c1 : BitVec 32)
      (skipped : List (Option Byte)) : timeout ≠ 0 → some sb ∉ skipped → cs.length = skipped.length →
      (∀ c ∈ cs, c < c0 + BitVec.ofNat 32 timeout) → c0 + BitVec.ofNat 32 timeout ≤ c1 →
      Takes (.between size sb e timeout) (c0 :: cs ++ [c1]) skipped []
  | between (size : Nat) (sb e : Byte) (timeout : Nat) (c0 : BitVec 32) (cs : List (BitVec 32))
      (skipped : List (Option Byte)) (p : List Byte) (t : List (Option Byte)) : some sb ∉ skipped →
      (if timeout = 0 then cs = [] else cs.length = skipped.length + 1 ∧ ∀ c ∈ cs, c < c0 + BitVec.ofNat 32 timeout) →
      p.length + 2 ≤ size → e ∉ p → Ends e (p.length + 2 = size) t →
      Takes (.between size sb e timeout) (c0 :: cs) (skipped ++ some sb :: p.map some ++ t) (sb :: p ++ [e])

/-- The readings and outcomes are shared out among the calls, in order and without loss. -/
inductive AllTake : List Call → List (BitVec 32) → List (Option Byte) → List (List Byte) → Prop where
  | nil : AllTake [] [] [] []
  | cons (c : Call) (cl : List (BitVec 32)) (o : List (Option Byte)) (p : List Byte) (cs : List Call)
      (cls : List (BitVec 32)) (os : List (Option Byte)) (ps : List (List Byte)) : Takes c cl o p →
      AllTake cs cls os ps → AllTake (c :: cs) (cl ++ cls) (o ++ os) (p :: ps)

/-! ## The code -/

/-- Consecutive calls with one buffer, as `runCalls`: the packets returned and the numbers of clock readings and reads
made. -/
def runTimed (fuel : Nat) : Env → List Byte → List Call → Res (List (List Byte) × Nat × Nat)
  | _, _, [] => .ok ([], 0, 0)
  | env, mem, c :: cs => do
    let (n, s) ← c.run env fuel mem
    let (ps, clocks, reads) ← runTimed fuel (env.after s) s.mem cs
    .ok (s.mem.take n :: ps, s.clocks + clocks, s.log.length + reads)

theorem runTimed_runCalls (fuel : Nat) (env : Env) (mem : List Byte) (cs : List Call) :
    runCalls fuel env mem cs = (do let r ← runTimed fuel env mem cs; .ok (r.1, r.2.2)) := by
  induction cs generalizing env mem with
  | nil => rfl
  | cons c cs ih =>
    rw [runCalls, runTimed]
    cases c.run env fuel mem with
    | ub => rfl
    | hang => rfl
    | ok r =>
      simp only [Res.bind_ok]
      rw [ih]
      cases runTimed fuel (env.after r.2) r.2.mem cs <;> rfl

/-! ## Proof -/

theorem receiveLoop_taken (env : Env) (size : Nat) (maxTime : BitVec 32) (fuel pos : Nat) (s : St) (n : Nat) (s' : St)
    (hp : pos ≤ size) (h : receiveLoop env size maxTime fuel pos s = .ok (n, s')) :
    ∃ o cs c1, outcomes env s'.log.length = outcomes env s.log.length ++ o ∧
      readings env s'.clocks = readings env s.clocks ++ cs ++ [c1] ∧ cs.length = o.length ∧ (∀ c ∈ cs, c < maxTime) ∧
      n = pos + (o.filterMap id).length ∧ n ≤ size ∧ (o = [] ∨ pos + (o.dropLast.filterMap id).length < size) ∧
      (maxTime ≤ c1 ∨ n = size) := by
  induction fuel generalizing pos s with
  | zero => simp [receiveLoop] at h
  | succ fuel ih =>
    by_cases hc : env.clock s.clocks < maxTime ∧ pos < size
    · have key : ∀ (k : Nat) (s2 : St), s2.clocks = s.clocks + 1 → s2.log.length = s.log.length + 1 →
          k = pos + ([env.rx s.log.length].filterMap id).length → k ≤ size →
          receiveLoop env size maxTime fuel k s2 = .ok (n, s') →
          ∃ o cs c1, outcomes env s'.log.length = outcomes env s.log.length ++ o ∧
            readings env s'.clocks = readings env s.clocks ++ cs ++ [c1] ∧ cs.length = o.length ∧
            (∀ c ∈ cs, c < maxTime) ∧ n = pos + (o.filterMap id).length ∧ n ≤ size ∧
            (o = [] ∨ pos + (o.dropLast.filterMap id).length < size) ∧ (maxTime ≤ c1 ∨ n = size) := by
        intro k s2 q1 q2 q3 q4 q5
        obtain ⟨o, cs, c1, j1, j2, j3, j4, j5, j6, j7, j8⟩ := ih k s2 q4 q5
        rw [q2, outcomes_succ] at j1
        rw [q1, readings_succ] at j2
        refine ⟨env.rx s.log.length :: o, env.clock s.clocks :: cs, c1, by rw [j1]; simp, by rw [j2]; simp,
          by simp [j3], ?_, ?_, j6, .inr ?_, j8⟩
        · intro c hcm
          rcases List.mem_cons.1 hcm with rfl | hcm
          · exact hc.1
          · exact j4 c hcm
        · rw [j5, q3, ← List.singleton_append (l := o), List.filterMap_append, List.length_append]; omega
        · rcases j7 with rfl | j7
          · simpa using hc.2
          · cases o with
            | nil => simpa using hc.2
            | cons x o =>
              rw [List.dropLast_cons_cons, ← List.singleton_append, List.filterMap_append, List.length_append]
              omega
      rw [receiveLoop] at h
      simp only [show (tick env s).1 = env.clock s.clocks from rfl, hc, and_self, if_true] at h
      cases hr : env.rx s.log.length with
      | none =>
        have hb : Esp.readByte env (tick env s).2 pos 0 =
            .ok (false, { (tick env s).2 with log := s.log ++ [(0, none)] }) := by simp [Esp.readByte, tick, hr]
        rw [hb] at h
        exact key _ _ rfl (by simp) (by simp [hr]) (by omega) h
      | some b =>
        by_cases hm : pos < s.mem.length
        · have hb : Esp.readByte env (tick env s).2 pos 0 =
              .ok (true, { (tick env s).2 with mem := s.mem.set pos b, log := s.log ++ [(0, some b)] }) := by
            simp [Esp.readByte, tick, hr, hm]
          rw [hb] at h
          exact key _ _ rfl (by simp) (by simp [hr]) (by omega) h
        · have hb : Esp.readByte env (tick env s).2 pos 0 = .ub := by simp [Esp.readByte, tick, hr, hm]
          rw [hb] at h
          cases h
    · have h0 : receiveLoop env size maxTime (fuel + 1) pos s = .ok (pos, (tick env s).2) := by
        rw [receiveLoop]; simp only [show (tick env s).1 = env.clock s.clocks from rfl]; rw [if_neg hc]
      rw [h0] at h
      simp only [Res.ok.injEq, Prod.mk.injEq] at h
      obtain ⟨rfl, rfl⟩ := h
      refine ⟨[], [], env.clock s.clocks, by simp [tick], by simp [tick, readings_succ], rfl, by simp, by simp, hp, .inl rfl,
        ?_⟩
      by_cases hc1 : env.clock s.clocks < maxTime
      · right; have : ¬ pos < size := fun hh => hc ⟨hc1, hh⟩; omega
      · left; simpa using hc1

/-- One call takes a part of the readings and of the outcomes. -/
theorem call_taken (env : Env) (fuel : Nat) (mem : List Byte) (c : Call) (h : c.Fits mem.length) (n : Nat) (s : St)
    (hr : c.run env fuel mem = .ok (n, s)) :
    Takes c (readings env s.clocks) (outcomes env s.log.length) (s.mem.take n) := by
  cases c with
  | all size timeout =>
    obtain ⟨k1, k2, k3, -⟩ := (receive_exact env fuel mem size timeout h).2 n s hr
    obtain ⟨o, cs, c1, j1, j2, j3, j4, j5, j6, j7, j8⟩ := receiveLoop_taken env size (env.clock 0 + BitVec.ofNat 32 timeout)
      fuel 0 (tick env ⟨mem, 0, []⟩).2 n s (Nat.zero_le _) hr
    replace j1 : outcomes env s.log.length = o := by simpa [tick, outcomes] using j1
    replace j2 : readings env s.clocks = env.clock 0 :: cs ++ [c1] := by simpa [tick, readings] using j2
    rw [Nat.zero_add] at j5
    rw [k3, List.take_append_of_le_length (by omega), List.take_of_length_le (by omega), received_outcomes, j1, j2]
    exact .all _ _ _ _ _ _ j3 j4 (by omega) (by simpa using j7) (by rw [← j5]; exact j8)
  | «until» size e timeout =>
    obtain ⟨f1, f2, f3⟩ := h
    obtain ⟨bs, t, s', k1, k2, k3, k4, k5, k6, k7⟩ := receiveUntilS_ok env mem size e f1 f2 f3
    simp only [Call.run, k1, Res.ok.injEq, Prod.mk.injEq] at hr
    obtain ⟨rfl, rfl⟩ := hr
    rw [k5, List.take_append_of_le_length (by simp), List.take_of_length_le (by simp), k7, k4]
    exact .until _ _ _ _ _ k2 k3 k6
  | between size sb e timeout =>
    obtain ⟨f1, f2, f3⟩ := h
    rcases (receiveBetweenS_ok env fuel mem size sb e timeout f1 f2 f3).2 n s hr with
      ⟨rfl, j0, j1, j2, cs, c1, j3, j4, j5, j6⟩ | ⟨sk, bs, t, cs, rfl, j1, j2, j3, j4, j5, j6, j7, j8⟩
    · rw [List.take_zero, j3]
      exact .nothing _ _ _ _ _ _ _ _ j0 j2 (by rw [j4, outcomes_length]) j5 j6
    · rw [j4, List.take_append_of_le_length (by simp), List.take_of_length_le (by simp), j6, j7]
      exact .between _ _ _ _ _ _ _ _ _ j2 j8 j1 j3 j5

/-- **C86** (with the clock): whatever the clock and the device do, consecutive calls share out what is read from the device
and from the clock. -/
theorem stream_timed (fuel : Nat) (env : Env) (mem : List Byte) (cs : List Call) (hf : ∀ c ∈ cs, c.Fits mem.length) :
    runTimed fuel env mem cs ≠ .ub ∧
    ∀ ps clocks reads, runTimed fuel env mem cs = .ok (ps, clocks, reads) →
      AllTake cs ((List.range clocks).map env.clock) ((List.range reads).map env.rx) ps := by
  change _ ∧ ∀ ps clocks reads, _ → AllTake cs (readings env clocks) (outcomes env reads) ps
  induction cs generalizing env mem with
  | nil =>
    refine ⟨by simp [runTimed], ?_⟩
    intro ps clocks reads h
    cases h
    exact .nil
  | cons c cs ih =>
    simp only [List.mem_cons, forall_eq_or_imp] at hf
    obtain ⟨h1, h2⟩ := call_takes env fuel mem c hf.1
    cases hr : c.run env fuel mem with
    | ub => exact absurd hr h1
    | hang => exact ⟨by simp [runTimed, hr], by simp [runTimed, hr]⟩
    | ok r =>
      obtain ⟨n, s⟩ := r
      obtain ⟨hl, -⟩ := h2 n s hr
      obtain ⟨g1, g2⟩ := ih (env.after s) s.mem (fun c' hc' => hl ▸ hf.2 c' hc')
      cases hq : runTimed fuel (env.after s) s.mem cs with
      | ub => exact absurd hq g1
      | hang => exact ⟨by simp [runTimed, hr, hq], by simp [runTimed, hr, hq]⟩
      | ok r =>
        obtain ⟨ps, clocks, reads⟩ := r
        refine ⟨by simp [runTimed, hr, hq], ?_⟩
        intro ps' clocks' reads' heq
        simp only [runTimed, hr, hq, Res.bind_ok, Res.ok.injEq, Prod.mk.injEq] at heq
        obtain ⟨rfl, rfl, rfl⟩ := heq
        rw [outcomes_after, readings_after]
        exact .cons _ _ _ _ _ _ _ _ (call_taken env fuel mem c hf.1 n s hr) (g2 ps clocks reads hq)

/-- The first call waits until its deadline (readings 0, 1, 2 and 3); the second one does not look at the clock; the third
one gives up at its deadline, without a read; the last one has what it wants after one read. -/
example : runTimed 10 ⟨fun k => BitVec.ofNat 32 k, fun k => [some 7, none, some 4, some 10, some 9][k]?.join⟩
    [0, 0, 0] [.all 3 3, .until 3 10 0, .between 3 2 10 1, .all 1 100] = .ok ([[7], [4, 10], [], [9]], 9, 5) := by decide

end Verif.Uart.Arduino
