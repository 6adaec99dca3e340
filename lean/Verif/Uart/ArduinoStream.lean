import Verif.Uart.ArduinoProps
import Verif.Uart.EspStream
/-!
# C86: consecutive packet receptions on Arduino share out the byte stream

Calls of `Receive`, `ReceiveUntil` and `ReceiveBetween`, in any order, each continuing with the clock and the device where
the call before has left them.  In Arduino.lean the bytes arriving during `readBytesUntil` are a parameter; here they are
read one by one from the same stream as those of `read()`, and the two models are shown to agree.
-/
namespace Verif.Uart.Arduino
open Verif
open Verif.Uart.Esp (Env St tick received received_succ)

/-! ## Specification -/

/-- A call of the packet interface. -/
inductive Call where
  | all (size timeout : Nat)
  | «until» (size : Nat) (e : Byte) (timeout : Nat)
  | between (size : Nat) (sb e : Byte) (timeout : Nat)

/-- The outcomes `s` of all reads (a byte or none) are shared out by the calls as the packets `ps`, in order and without
loss: `Receive` gets the next bytes; `ReceiveUntil` gets the next bytes up to the terminator; `ReceiveBetween` skips
bytes other than the start byte, and gets the start byte and the bytes up to the terminator, or nothing if there is a
time-out.  A packet of the last two always ends with the terminator, also when it was not there: because the buffer is
full (`untilFull`, `betweenFull`, the terminator may then be the next byte), or because of a pause (`untilPause`,
`betweenPause`). -/
inductive SharedOut : List Call → List (Option Byte) → List (List Byte) → Prop where
  | nil : SharedOut [] [] []
  | all (size timeout : Nat) (o : List (Option Byte)) (cs : List Call) (s : List (Option Byte)) (ps : List (List Byte)) :
      (o.filterMap id).length ≤ size → SharedOut cs s ps →
      SharedOut (.all size timeout :: cs) (o ++ s) (o.filterMap id :: ps)
  | «until» (size : Nat) (e : Byte) (timeout : Nat) (p : List Byte) (cs : List Call) (s : List (Option Byte))
      (ps : List (List Byte)) : p.length + 1 < size → e ∉ p → SharedOut cs s ps →
      SharedOut (.until size e timeout :: cs) (p.map some ++ [some e] ++ s) ((p ++ [e]) :: ps)
  | untilFull (size : Nat) (e : Byte) (timeout : Nat) (p : List Byte) (cs : List Call) (s : List (Option Byte))
      (ps : List (List Byte)) : p.length + 1 = size → e ∉ p → SharedOut cs s ps →
      SharedOut (.until size e timeout :: cs) (p.map some ++ s) ((p ++ [e]) :: ps)
  | untilPause (size : Nat) (e : Byte) (timeout : Nat) (p : List Byte) (cs : List Call) (s : List (Option Byte))
      (ps : List (List Byte)) : p.length + 1 < size → e ∉ p → SharedOut cs s ps →
      SharedOut (.until size e timeout :: cs) (p.map some ++ [none] ++ s) ((p ++ [e]) :: ps)
  | nothing (size : Nat) (sb e : Byte) (timeout : Nat) (skipped : List (Option Byte)) (cs : List Call)
      (s : List (Option Byte)) (ps : List (List Byte)) : some sb ∉ skipped → timeout ≠ 0 → SharedOut cs s ps →
      SharedOut (.between size sb e timeout :: cs) (skipped ++ s) ([] :: ps)
  | between (size : Nat) (sb e : Byte) (timeout : Nat) (skipped : List (Option Byte)) (p : List Byte) (cs : List Call)
      (s : List (Option Byte)) (ps : List (List Byte)) : some sb ∉ skipped → p.length + 2 < size → e ∉ p →
      SharedOut cs s ps →
      SharedOut (.between size sb e timeout :: cs) (skipped ++ some sb :: p.map some ++ [some e] ++ s)
        ((sb :: p ++ [e]) :: ps)
  | betweenFull (size : Nat) (sb e : Byte) (timeout : Nat) (skipped : List (Option Byte)) (p : List Byte) (cs : List Call)
      (s : List (Option Byte)) (ps : List (List Byte)) : some sb ∉ skipped → p.length + 2 = size → e ∉ p →
      SharedOut cs s ps →
      SharedOut (.between size sb e timeout :: cs) (skipped ++ some sb :: p.map some ++ s) ((sb :: p ++ [e]) :: ps)
  | betweenPause (size : Nat) (sb e : Byte) (timeout : Nat) (skipped : List (Option Byte)) (p : List Byte) (cs : List Call)
      (s : List (Option Byte)) (ps : List (List Byte)) : some sb ∉ skipped → p.length + 2 < size → e ∉ p →
      SharedOut cs s ps →
      SharedOut (.between size sb e timeout :: cs) (skipped ++ some sb :: p.map some ++ [none] ++ s)
        ((sb :: p ++ [e]) :: ps)

/-! ## The code -/

/-- Arduino `Stream::readBytesUntil(terminator, buffer + base, length)`, `n` bytes of it being left and `i` stored: each
`timedRead()` gives a byte or gives up, as the environment decides. -/
def readUntil (env : Env) (e : Byte) (base : Nat) : Nat → Nat → St → Res (Nat × St)
  | 0, i, s => .ok (i, s)
  | n + 1, i, s =>
    match env.rx s.log.length with
    | none => .ok (i, { s with log := s.log ++ [(0, none)] })
    | some c =>
      if c = e then .ok (i, { s with log := s.log ++ [(0, some c)] })
      else if base + i < s.mem.length then
        readUntil env e base n (i + 1) { s with mem := s.mem.set (base + i) c, log := s.log ++ [(0, some c)] }
      else .ub

/-- PacketUart.cpp:44-56 `ReceiveUntil`, without the time-out setting of the device (for which see Arduino.lean). -/
def receiveUntilS (env : Env) (mem : List Byte) (bufferSize : Nat) (e : Byte) : Res (Nat × St) := do
  let (n, s) ← readUntil env e 0 (toSize ((bufferSize : Int) - 1)) 0 ⟨mem, 0, []⟩
  let pos := n % 65536
  let m ← store s.mem pos [e]
  .ok ((pos + 1) % 65536, { s with mem := m })

/-- PacketUart.cpp:72-82: waiting for the start byte; the clock is read if there is a time-out. -/
def startS (env : Env) (sb : Byte) (timeout : Nat) (maxTime : BitVec 32) : Nat → St → Res (Bool × St)
  | 0, _ => .hang
  | fuel + 1, s =>
    let (inTime, s) := if timeout = 0 then (true, s) else (decide (env.clock s.clocks < maxTime), (tick env s).2)
    if inTime then
      let s' : St := { s with log := s.log ++ [(0, env.rx s.log.length)] }
      if env.rx s.log.length = some sb then .ok (true, s') else startS env sb timeout maxTime fuel s'
    else .ok (false, s)

/-- PacketUart.cpp:58-85 `ReceiveBetween`, without the time-out setting of the device. -/
def receiveBetweenS (env : Env) (fuel : Nat) (mem : List Byte) (bufferSize : Nat) (sb e : Byte) (timeout : Nat) :
    Res (Nat × St) := do
  let (start, s) := tick env ⟨mem, 0, []⟩
  let (found, s) ← startS env sb timeout (start + BitVec.ofNat 32 timeout) fuel s
  if found then do
    let m1 ← store s.mem 0 [sb]
    let (n, s) ← readUntil env e 1 (toSize ((bufferSize : Int) - 1 - 1)) 0 { s with mem := m1 }
    let pos := (1 + n) % 65536
    let m3 ← store s.mem pos [e]
    .ok ((pos + 1) % 65536, { s with mem := m3 })
  else .ok (0, s)

/-- One call: the number returned and the state. -/
def Call.run (env : Env) (fuel : Nat) (mem : List Byte) : Call → Res (Nat × St)
  | .all size timeout => receive env fuel mem size timeout
  | .until size e _ => receiveUntilS env mem size e
  | .between size sb e timeout => receiveBetweenS env fuel mem size sb e timeout

/-- Consecutive calls with one buffer: the packets returned and the number of reads made. -/
def runCalls (fuel : Nat) : Env → List Byte → List Call → Res (List (List Byte) × Nat)
  | _, _, [] => .ok ([], 0)
  | env, mem, c :: cs => do
    let (n, s) ← c.run env fuel mem
    let (ps, reads) ← runCalls fuel (env.after s) s.mem cs
    .ok (s.mem.take n :: ps, s.log.length + reads)

/-! ## Proof -/

/-- The outcomes of the first `k` reads. -/
def outcomes (env : Env) (k : Nat) : List (Option Byte) := (List.range k).map env.rx

theorem outcomes_succ (env : Env) (k : Nat) : outcomes env (k + 1) = outcomes env k ++ [env.rx k] := by
  simp [outcomes, List.range_succ]

theorem outcomes_length (env : Env) (k : Nat) : (outcomes env k).length = k := by simp [outcomes]

theorem received_outcomes (env : Env) (k : Nat) : received env k = (outcomes env k).filterMap id := by
  simp [received, outcomes, List.filterMap_map]

theorem outcomes_after (env : Env) (s : St) (k : Nat) :
    outcomes env (s.log.length + k) = outcomes env s.log.length ++ outcomes (env.after s) k := by
  induction k with
  | zero => simp [outcomes]
  | succ k ih =>
    rw [← Nat.add_assoc, outcomes_succ, ih, outcomes_succ, List.append_assoc]
    rfl

/-- How a packet ends: with the terminator, with the buffer full, or with a pause. -/
def Ends (e : Byte) (full : Prop) (t : List (Option Byte)) : Prop :=
  (¬ full ∧ t = [some e]) ∨ (full ∧ t = []) ∨ (¬ full ∧ t = [none])

/-- Told more room than there is, and receiving more bytes than there is room, it runs over the end of the buffer. -/
theorem readUntil_overruns (env : Env) (e : Byte) (base n i : Nat) (s : St) (hb : base + i ≤ s.mem.length)
    (h : s.mem.length < base + i + n)
    (hr : ∀ k, k ≤ s.mem.length - (base + i) → ∃ c, c ≠ e ∧ env.rx (s.log.length + k) = some c) :
    readUntil env e base n i s = .ub := by
  induction n generalizing i s with
  | zero => omega
  | succ n ih =>
    obtain ⟨c, hc, hx⟩ := hr 0 (by omega)
    rw [Nat.add_zero] at hx
    unfold readUntil
    simp only [hx]
    rw [if_neg hc]
    by_cases hl : base + i < s.mem.length
    · rw [if_pos hl]
      apply ih
      · simp; omega
      · simp; omega
      · intro k hk
        simp only [List.length_set] at hk
        obtain ⟨c', h1, h2⟩ := hr (k + 1) (by omega)
        refine ⟨c', h1, ?_⟩
        rw [List.length_append, List.length_singleton, Nat.add_assoc, Nat.add_comm 1 k]
        exact h2
    · rw [if_neg hl]

theorem readUntil_ok (env : Env) (e : Byte) (base n i : Nat) (s : St) (h : base + i + n ≤ s.mem.length) :
    ∃ bs t s', readUntil env e base n i s = .ok (i + bs.length, s') ∧ bs.length ≤ n ∧ e ∉ bs ∧ s'.clocks = s.clocks ∧
      s'.mem = s.mem.take (base + i) ++ bs ++ s.mem.drop (base + i + bs.length) ∧ Ends e (bs.length = n) t ∧
      outcomes env s'.log.length = outcomes env s.log.length ++ bs.map some ++ t := by
  induction n generalizing i s with
  | zero => exact ⟨[], [], s, rfl, by simp, by simp, rfl, by simp, .inr (.inl ⟨rfl, rfl⟩), by simp⟩
  | succ n ih =>
    unfold readUntil
    cases hr : env.rx s.log.length with
    | none =>
      refine ⟨[], [none], _, rfl, by simp, by simp, rfl, by simp, .inr (.inr ⟨by simp, rfl⟩), ?_⟩
      simp [outcomes_succ, hr]
    | some c =>
      simp only
      by_cases hc : c = e
      · rw [if_pos hc]
        refine ⟨[], [some e], _, rfl, by simp, by simp, rfl, by simp, .inl ⟨by simp, rfl⟩, ?_⟩
        simp [outcomes_succ, hr, hc]
      · rw [if_neg hc, if_pos (by omega)]
        obtain ⟨bs, t, s', h1, h2, h3, h4, h5, h6, h7⟩ := ih (i + 1)
          { s with mem := s.mem.set (base + i) c, log := s.log ++ [(0, some c)] } (by simp; omega)
        simp only [List.length_append, List.length_singleton, outcomes_succ, hr] at h5 h7
        refine ⟨c :: bs, t, s', by rw [h1]; simp; omega, by simp; omega, ?_, h4, ?_, ?_, ?_⟩
        · simp only [List.mem_cons, not_or]
          exact ⟨fun he => hc he.symm, h3⟩
        · rw [h5]
          have hset : s.mem.set (base + i) c = (s.mem.take (base + i) ++ [c]) ++ s.mem.drop (base + i + 1) := by
            rw [List.set_eq_take_append_cons_drop, if_pos (by omega)]
            simp
          have hlen : (s.mem.take (base + i) ++ [c]).length = base + (i + 1) := by simp; omega
          rw [hset, List.take_append_of_le_length (by omega), List.take_of_length_le (by omega), List.drop_append,
            List.drop_of_length_le (by omega), hlen, List.drop_drop, List.nil_append, List.length_cons,
            show base + i + 1 + (base + (i + 1) + bs.length - (base + (i + 1))) = base + i + (bs.length + 1) by omega]
          simp
        · simpa [Ends] using h6
        · rw [h7]; simp

/-- `ReceiveUntil`, the part of C55 which holds, for bytes read one by one. -/
theorem receiveUntilS_ok (env : Env) (mem : List Byte) (size : Nat) (e : Byte) (h1 : 1 ≤ size) (h2 : size < 65536)
    (hs : size ≤ mem.length) :
    ∃ bs t s, receiveUntilS env mem size e = .ok (bs.length + 1, s) ∧ bs.length + 1 ≤ size ∧ e ∉ bs ∧ s.clocks = 0 ∧
      s.mem = bs ++ [e] ++ mem.drop (bs.length + 1) ∧ Ends e (bs.length + 1 = size) t ∧
      outcomes env s.log.length = bs.map some ++ t := by
  have hsz : toSize ((size : Int) - 1) = size - 1 := by unfold toSize; omega
  obtain ⟨bs, t, s, k1, k2, k3, k4, k5, k6, k7⟩ := readUntil_ok env e 0 (size - 1) 0 ⟨mem, 0, []⟩ (by simp; omega)
  simp only [Nat.zero_add, List.take_zero, List.nil_append] at k1 k5
  have hmod : bs.length % 65536 = bs.length := Nat.mod_eq_of_lt (by omega)
  have hmod2 : (bs.length + 1) % 65536 = bs.length + 1 := Nat.mod_eq_of_lt (by omega)
  have hst : store s.mem bs.length [e] = .ok (bs ++ [e] ++ mem.drop (bs.length + 1)) := by
    rw [k5, store_ok _ _ _ (by simp; omega), List.take_left, List.length_singleton,
      ← List.drop_drop, List.drop_left]
    simp [List.drop_drop]
  refine ⟨bs, t, { s with mem := bs ++ [e] ++ mem.drop (bs.length + 1) }, ?_, by omega, k3, k4, rfl, ?_, ?_⟩
  · unfold receiveUntilS
    rw [hsz, k1]
    simp only [Res.bind_ok, hmod, hst, hmod2]
  · have hiff : (bs.length + 1 = size) = (bs.length = size - 1) := by apply propext; omega
    rw [hiff]; exact k6
  · simpa [outcomes] using k7

/-- The first `k` readings of the clock. -/
def readings (env : Env) (k : Nat) : List (BitVec 32) := (List.range k).map env.clock

theorem readings_succ (env : Env) (k : Nat) : readings env (k + 1) = readings env k ++ [env.clock k] := by
  simp [readings, List.range_succ]

theorem readings_after (env : Env) (s : St) (k : Nat) :
    readings env (s.clocks + k) = readings env s.clocks ++ readings (env.after s) k := by
  induction k with
  | zero => simp [readings]
  | succ k ih =>
    rw [← Nat.add_assoc, readings_succ, ih, readings_succ, List.append_assoc]
    rfl

theorem startS_ok (env : Env) (sb : Byte) (timeout : Nat) (maxTime : BitVec 32) (fuel : Nat) (s : St) :
    startS env sb timeout maxTime fuel s ≠ .ub ∧
    (∀ s', startS env sb timeout maxTime fuel s = .ok (true, s') →
      ∃ skipped cs, s'.mem = s.mem ∧ some sb ∉ skipped ∧
        outcomes env s'.log.length = outcomes env s.log.length ++ skipped ++ [some sb] ∧
        readings env s'.clocks = readings env s.clocks ++ cs ∧
        (if timeout = 0 then cs = [] else cs.length = skipped.length + 1 ∧ ∀ c ∈ cs, c < maxTime)) ∧
    (∀ s', startS env sb timeout maxTime fuel s = .ok (false, s') →
      ∃ skipped cs c1, s'.mem = s.mem ∧ some sb ∉ skipped ∧ timeout ≠ 0 ∧
        outcomes env s'.log.length = outcomes env s.log.length ++ skipped ∧
        readings env s'.clocks = readings env s.clocks ++ cs ++ [c1] ∧ cs.length = skipped.length ∧
        (∀ c ∈ cs, c < maxTime) ∧ maxTime ≤ c1) := by
  induction fuel generalizing s with
  | zero => simp [startS]
  | succ fuel ih =>
    -- the state after the clock has been read or not
    have key : ∀ s1 : St, s1.mem = s.mem → s1.log = s.log → ∀ c0, readings env s1.clocks = readings env s.clocks ++ c0 →
        (if timeout = 0 then c0 = [] else c0.length = 1 ∧ ∀ c ∈ c0, c < maxTime) → ∀ r,
        (if env.rx s1.log.length = some sb then
            (.ok (true, { s1 with log := s1.log ++ [(0, env.rx s1.log.length)] }) : Res (Bool × St))
          else startS env sb timeout maxTime fuel { s1 with log := s1.log ++ [(0, env.rx s1.log.length)] }) = r →
        r ≠ .ub ∧
        (∀ s', r = .ok (true, s') →
          ∃ skipped cs, s'.mem = s.mem ∧ some sb ∉ skipped ∧
            outcomes env s'.log.length = outcomes env s.log.length ++ skipped ++ [some sb] ∧
            readings env s'.clocks = readings env s.clocks ++ cs ∧
            (if timeout = 0 then cs = [] else cs.length = skipped.length + 1 ∧ ∀ c ∈ cs, c < maxTime)) ∧
        (∀ s', r = .ok (false, s') →
          ∃ skipped cs c1, s'.mem = s.mem ∧ some sb ∉ skipped ∧ timeout ≠ 0 ∧
            outcomes env s'.log.length = outcomes env s.log.length ++ skipped ∧
            readings env s'.clocks = readings env s.clocks ++ cs ++ [c1] ∧ cs.length = skipped.length ∧
            (∀ c ∈ cs, c < maxTime) ∧ maxTime ≤ c1) := by
      intro s1 hm hlog c0 hc0 hc0t r hr
      rw [hlog] at hr
      by_cases hf : env.rx s.log.length = some sb
      · rw [if_pos hf] at hr
        subst hr
        refine ⟨by simp, ?_, by simp⟩
        intro s' h
        cases h
        exact ⟨[], c0, hm, by simp, by simp [outcomes_succ, hf], hc0, by simpa using hc0t⟩
      · rw [if_neg hf] at hr
        subst hr
        obtain ⟨i1, i2, i3⟩ := ih { s1 with log := s.log ++ [(0, env.rx s.log.length)] }
        simp only [List.length_append, List.length_singleton, outcomes_succ] at i2 i3
        have hni : some sb ∉ [env.rx s.log.length] := by
          simp only [List.mem_singleton]; exact fun h => hf h.symm
        refine ⟨i1, ?_, ?_⟩
        · intro s' h
          obtain ⟨sk, cs, j1, j2, j3, j4, j5⟩ := i2 s' h
          refine ⟨[env.rx s.log.length] ++ sk, c0 ++ cs, j1.trans hm,
            by rw [List.mem_append]; exact fun h => h.elim hni j2, by rw [j3]; simp, by rw [j4, hc0]; simp, ?_⟩
          split
          · rename_i ht
            rw [if_pos ht] at j5 hc0t
            rw [j5, hc0t]; rfl
          · rename_i ht
            rw [if_neg ht] at j5 hc0t
            refine ⟨by simp only [List.length_append, List.length_singleton]; omega, ?_⟩
            intro c hc
            rw [List.mem_append] at hc
            exact hc.elim (hc0t.2 c) (j5.2 c)
        · intro s' h
          obtain ⟨sk, cs, c1, j1, j2, j3, j4, j5, j6, j7, j8⟩ := i3 s' h
          rw [if_neg j3] at hc0t
          refine ⟨[env.rx s.log.length] ++ sk, c0 ++ cs, c1, j1.trans hm,
            by rw [List.mem_append]; exact fun h => h.elim hni j2, j3, by rw [j4]; simp, by rw [j5, hc0]; simp,
            by simp only [List.length_append, List.length_singleton]; omega, ?_, j8⟩
          intro c hc
          rw [List.mem_append] at hc
          exact hc.elim (hc0t.2 c) (j7 c)
    by_cases ht : timeout = 0
    · exact key s rfl rfl [] (by simp) (by simp [ht]) _ (by rw [startS]; simp [ht])
    · by_cases hc : env.clock s.clocks < maxTime
      · exact key (tick env s).2 rfl rfl [env.clock s.clocks] (readings_succ env s.clocks) (by simp [ht, hc]) _
          (by rw [startS]; simp [ht, hc])
      · have he : startS env sb timeout maxTime (fuel + 1) s = .ok (false, (tick env s).2) := by
          rw [startS]; simp [ht, hc]
        rw [he]
        refine ⟨by simp, by simp, ?_⟩
        intro s' h
        cases h
        exact ⟨[], [], env.clock s.clocks, rfl, by simp, ht, by simp [tick], by simp [tick, readings_succ], rfl, by simp,
          by simpa using hc⟩

/-- `ReceiveBetween`, the part of C55 which holds, for bytes read one by one. -/
theorem receiveBetweenS_ok (env : Env) (fuel : Nat) (mem : List Byte) (size : Nat) (sb e : Byte) (timeout : Nat)
    (h1 : 2 ≤ size) (h2 : size < 65536) (hs : size ≤ mem.length) :
    receiveBetweenS env fuel mem size sb e timeout ≠ .ub ∧
    ∀ n s, receiveBetweenS env fuel mem size sb e timeout = .ok (n, s) →
      (n = 0 ∧ timeout ≠ 0 ∧ s.mem = mem ∧ some sb ∉ outcomes env s.log.length ∧
        ∃ cs c1, readings env s.clocks = env.clock 0 :: cs ++ [c1] ∧ cs.length = s.log.length ∧
          (∀ c ∈ cs, c < env.clock 0 + BitVec.ofNat 32 timeout) ∧ env.clock 0 + BitVec.ofNat 32 timeout ≤ c1) ∨
      ∃ skipped bs t cs, n = bs.length + 2 ∧ n ≤ size ∧ some sb ∉ skipped ∧ e ∉ bs ∧
        s.mem = sb :: bs ++ [e] ++ mem.drop n ∧ Ends e (n = size) t ∧
        outcomes env s.log.length = skipped ++ some sb :: bs.map some ++ t ∧
        readings env s.clocks = env.clock 0 :: cs ∧
        (if timeout = 0 then cs = [] else
          cs.length = skipped.length + 1 ∧ ∀ c ∈ cs, c < env.clock 0 + BitVec.ofNat 32 timeout) := by
  have hsz : toSize ((size : Int) - 1 - 1) = size - 2 := by unfold toSize; omega
  obtain ⟨s1, s2, s3⟩ := startS_ok env sb timeout (env.clock 0 + BitVec.ofNat 32 timeout) fuel (tick env ⟨mem, 0, []⟩).2
  unfold receiveBetweenS
  simp only [show (tick env ⟨mem, 0, []⟩).1 = env.clock 0 from rfl]
  cases hst : startS env sb timeout (env.clock 0 + BitVec.ofNat 32 timeout) fuel (tick env ⟨mem, 0, []⟩).2 with
  | ub => exact absurd hst s1
  | hang => simp
  | ok r =>
    obtain ⟨found, s⟩ := r
    simp only [Res.bind_ok]
    cases found with
    | false =>
      refine ⟨by simp, ?_⟩
      intro n s' h
      simp only [Bool.false_eq_true, if_false, Res.ok.injEq, Prod.mk.injEq] at h
      obtain ⟨rfl, rfl⟩ := h
      obtain ⟨sk, cs, c1, j1, j2, j3, j4, j5, j6, j7, j8⟩ := s3 s hst
      have j4 : outcomes env s.log.length = sk := by simpa [tick, outcomes] using j4
      refine .inl ⟨rfl, j3, j1, by rw [j4]; exact j2, cs, c1, by simpa [tick, readings] using j5, ?_, j7, j8⟩
      rw [j6, ← j4, outcomes_length]
    | true =>
      obtain ⟨sk, cs, j1, j2, j3, jr, jt⟩ := s2 s hst
      replace jr : readings env s.clocks = env.clock 0 :: cs := by simpa [tick, readings] using jr
      simp only [tick, List.length_nil, outcomes, List.range_zero, List.map_nil, List.nil_append] at j1 j3
      change outcomes env s.log.length = sk ++ [some sb] at j3
      have hm1 : store s.mem 0 [sb] = .ok (sb :: mem.drop 1) := by
        rw [j1, store_ok _ _ _ (by simp; omega)]
        simp
      simp only [if_true, hm1, Res.bind_ok, hsz]
      obtain ⟨bs, t, s', k1, k2, k3, k4, k5, k6, k7⟩ := readUntil_ok env e 1 (size - 2) 0 { s with mem := sb :: mem.drop 1 }
        (by simp; omega)
      simp only [Nat.zero_add, Nat.add_zero] at k1 k5 k7
      have k5 : s'.mem = sb :: bs ++ mem.drop (1 + bs.length) := by
        rw [k5, List.take_succ_cons, List.take_zero, Nat.add_comm 1 bs.length, List.drop_succ_cons, List.drop_drop]
        simp [Nat.add_comm]
      have hmod : (1 + bs.length) % 65536 = 1 + bs.length := Nat.mod_eq_of_lt (by omega)
      have hmod2 : (1 + bs.length + 1) % 65536 = bs.length + 2 := by rw [Nat.mod_eq_of_lt (by omega)]; omega
      have hst2 : store s'.mem (1 + bs.length) [e] = .ok (sb :: bs ++ [e] ++ mem.drop (bs.length + 2)) := by
        rw [k5, store_ok _ _ _ (by simp; omega)]
        congr 1
        rw [List.take_append_of_le_length (by simp; omega), List.take_of_length_le (by simp; omega),
          List.length_singleton, List.drop_append, List.drop_of_length_le (by rw [List.length_cons]; omega)]
        simp [List.drop_drop]
        congr 1
        omega
      simp only [k1, Res.bind_ok, hmod, hst2, hmod2]
      refine ⟨by simp, ?_⟩
      intro n s'' h
      simp only [Res.ok.injEq, Prod.mk.injEq] at h
      obtain ⟨rfl, rfl⟩ := h
      refine .inr ⟨sk, bs, t, cs, rfl, by omega, j2, k3, rfl, ?_, ?_, by simp only [k4]; exact jr, jt⟩
      · have hiff : (bs.length + 2 = size) = (bs.length = size - 2) := by apply propext; omega
        rw [hiff]; exact k6
      · simp only [j3] at k7
        rw [k7]; simp

/-- The buffer can hold the packet; the sizes for which C55 is false are left out. -/
def Call.Fits (room : Nat) : Call → Prop
  | .all size _ => size ≤ room
  | .until size _ _ => 1 ≤ size ∧ size < 65536 ∧ size ≤ room
  | .between size _ _ _ => 2 ≤ size ∧ size < 65536 ∧ size ≤ room

/-- One call takes a part of the stream. -/
theorem call_takes (env : Env) (fuel : Nat) (mem : List Byte) (c : Call) (h : c.Fits mem.length) :
    c.run env fuel mem ≠ .ub ∧
    ∀ n s, c.run env fuel mem = .ok (n, s) → s.mem.length = mem.length ∧
      ∀ cs rest ps, SharedOut cs rest ps → SharedOut (c :: cs) (outcomes env s.log.length ++ rest) (s.mem.take n :: ps) := by
  cases c with
  | all size timeout =>
    obtain ⟨h1, h2⟩ := receive_exact env fuel mem size timeout h
    refine ⟨h1, ?_⟩
    intro n s hr
    obtain ⟨k1, k2, k3, -⟩ := h2 n s hr
    have hle : size ≤ mem.length := h
    refine ⟨by rw [k3]; simp; omega, ?_⟩
    intro cs rest ps hs
    rw [k3, List.take_append_of_le_length (by omega), List.take_of_length_le (by omega), received_outcomes]
    rw [received_outcomes] at k1
    exact .all _ _ _ _ _ _ (by omega) hs
  | «until» size e timeout =>
    obtain ⟨f1, f2, f3⟩ := h
    obtain ⟨bs, t, s, k1, k2, k3, -, k5, k6, k7⟩ := receiveUntilS_ok env mem size e f1 f2 f3
    refine ⟨by simp [Call.run, k1], ?_⟩
    intro n s' hr
    simp only [Call.run, k1, Res.ok.injEq, Prod.mk.injEq] at hr
    obtain ⟨rfl, rfl⟩ := hr
    refine ⟨by rw [k5]; simp; omega, ?_⟩
    intro cs rest ps hs
    rw [k5, List.take_append_of_le_length (by simp), List.take_of_length_le (by simp), k7]
    rcases k6 with ⟨g, rfl⟩ | ⟨g, rfl⟩ | ⟨g, rfl⟩
    · exact .until _ _ _ _ _ _ _ (by omega) k3 hs
    · rw [List.append_nil]; exact .untilFull _ _ _ _ _ _ _ g k3 hs
    · exact .untilPause _ _ _ _ _ _ _ (by omega) k3 hs
  | between size sb e timeout =>
    obtain ⟨f1, f2, f3⟩ := h
    obtain ⟨k1, k2⟩ := receiveBetweenS_ok env fuel mem size sb e timeout f1 f2 f3
    refine ⟨k1, ?_⟩
    intro n s hr
    rcases k2 n s hr with ⟨rfl, j0, j1, j2, -⟩ | ⟨sk, bs, t, -, rfl, j1, j2, j3, j4, j5, j6, -⟩
    · refine ⟨by rw [j1], ?_⟩
      intro cs rest ps hs
      rw [List.take_zero]
      exact .nothing _ _ _ _ _ _ _ _ j2 j0 hs
    · refine ⟨by rw [j4]; simp; omega, ?_⟩
      intro cs rest ps hs
      rw [j4, List.take_append_of_le_length (by simp), List.take_of_length_le (by simp), j6]
      rcases j5 with ⟨g, rfl⟩ | ⟨g, rfl⟩ | ⟨g, rfl⟩
      · exact .between _ _ _ _ _ _ _ _ _ j2 (by omega) j3 hs
      · rw [List.append_nil]; exact .betweenFull _ _ _ _ _ _ _ _ _ j2 g j3 hs
      · exact .betweenPause _ _ _ _ _ _ _ _ _ j2 (by omega) j3 hs

/-- **C86**: whatever the clock and the device do, consecutive calls share out what is read. -/
theorem stream_shared_out (fuel : Nat) (env : Env) (mem : List Byte) (cs : List Call)
    (hf : ∀ c ∈ cs, c.Fits mem.length) :
    runCalls fuel env mem cs ≠ .ub ∧
    ∀ ps reads, runCalls fuel env mem cs = .ok (ps, reads) → SharedOut cs ((List.range reads).map env.rx) ps := by
  change _ ∧ ∀ ps reads, _ → SharedOut cs (outcomes env reads) ps
  induction cs generalizing env mem with
  | nil =>
    refine ⟨by simp [runCalls], ?_⟩
    intro ps reads h
    cases h
    exact .nil
  | cons c cs ih =>
    simp only [List.mem_cons, forall_eq_or_imp] at hf
    obtain ⟨h1, h2⟩ := call_takes env fuel mem c hf.1
    cases hr : c.run env fuel mem with
    | ub => exact absurd hr h1
    | hang => exact ⟨by simp [runCalls, hr], by simp [runCalls, hr]⟩
    | ok r =>
      obtain ⟨n, s⟩ := r
      obtain ⟨hl, hsh⟩ := h2 n s hr
      obtain ⟨g1, g2⟩ := ih (env.after s) s.mem (fun c' hc' => hl ▸ hf.2 c' hc')
      cases hq : runCalls fuel (env.after s) s.mem cs with
      | ub => exact absurd hq g1
      | hang => exact ⟨by simp [runCalls, hr, hq], by simp [runCalls, hr, hq]⟩
      | ok r =>
        obtain ⟨ps, reads⟩ := r
        refine ⟨by simp [runCalls, hr, hq], ?_⟩
        intro ps' reads' heq
        simp only [runCalls, hr, hq, Res.bind_ok, Res.ok.injEq, Prod.mk.injEq] at heq
        obtain ⟨rfl, rfl⟩ := heq
        rw [outcomes_after]
        exact hsh cs _ ps (g2 ps reads hq)

/-- The model of Arduino.lean gives the same packet when the bytes arriving are those read here. -/
theorem receiveUntilS_agrees (env : Env) (mem : List Byte) (size : Nat) (e : Byte) (h1 : 1 ≤ size) (h2 : size < 65536)
    (hs : size ≤ mem.length) (timeout old : Nat) (n : Nat) (s : St) (h : receiveUntilS env mem size e = .ok (n, s)) :
    ∃ d', receiveUntil (received env s.log.length) ⟨old, none, mem⟩ size e timeout = .ok (n, d') ∧ d'.mem = s.mem := by
  obtain ⟨bs, t, s', k1, k2, k3, -, k5, k6, k7⟩ := receiveUntilS_ok env mem size e h1 h2 hs
  rw [h] at k1
  simp only [Res.ok.injEq, Prod.mk.injEq] at k1
  obtain ⟨rfl, rfl⟩ := k1
  have hu : untilBytes (received env s.log.length) e (size - 1) = bs := by
    have hw : ∀ t, (bs ++ t).takeWhile (· ≠ e) = bs ++ t.takeWhile (· ≠ e) := fun t =>
      List.takeWhile_append_of_pos (by intro x hx; simp; intro hxe; exact k3 (hxe ▸ hx))
    have hw0 := hw []
    simp only [List.append_nil, List.takeWhile_nil] at hw0
    have hfm : (bs.map some).filterMap id = bs := by simp [List.filterMap_map]
    unfold untilBytes
    rw [received_outcomes, k7, List.filterMap_append, hfm]
    rcases k6 with ⟨-, rfl⟩ | ⟨-, rfl⟩ | ⟨-, rfl⟩
    · simp only [List.filterMap_cons, id_eq, List.filterMap_nil]
      rw [hw]
      simp only [List.takeWhile_cons, ne_eq, not_true_eq_false, decide_false, Bool.false_eq_true, if_false, List.append_nil]
      exact List.take_of_length_le (by omega)
    · simp only [List.filterMap_nil, List.append_nil, hw0]
      exact List.take_of_length_le (by omega)
    · simp only [List.filterMap_cons, id_eq, List.filterMap_nil, List.append_nil, hw0]
      exact List.take_of_length_le (by omega)
  have hmem : ((⟨old, none, mem⟩ : Dev).enter timeout).mem = mem := by unfold Dev.enter; split <;> rfl
  have hsz : toSize ((size : Int) - 1) = size - 1 := by unfold toSize; omega
  have hmod : bs.length % 65536 = bs.length := Nat.mod_eq_of_lt (by omega)
  have hmod2 : (bs.length + 1) % 65536 = bs.length + 1 := Nat.mod_eq_of_lt (by omega)
  refine ⟨⟨old, some ((⟨old, none, mem⟩ : Dev).enter timeout).timeout, s.mem⟩, ?_, rfl⟩
  unfold receiveUntil
  simp only [hsz, hu, hmem]
  rw [store_ok _ _ _ (by simp; omega)]
  simp only [List.take_zero, List.nil_append, Res.bind_ok, hmod, Nat.zero_add]
  rw [store_ok _ _ _ (by simp; omega), List.take_left, List.length_singleton]
  simp only [Res.bind_ok, hmod2]
  rw [k5, List.drop_append, List.drop_of_length_le (by omega)]
  simp [List.drop_drop]

/-- Every kind of call: the terminator 10 at the end of the third packet was not received (a pause); the fourth packet
fills the buffer, so that its terminator is left to the last call. -/
example : runCalls 10 ⟨fun k => BitVec.ofNat 32 k, fun k => [some 7, some 1, some 10, some 4, none, some 9, some 2, some 5, some 10][k]?.join⟩
    [0, 0, 0] [.all 1 5, .until 3 10 0, .until 3 10 0, .between 3 2 10 0, .all 3 2] =
      .ok ([[7], [1, 10], [4, 10], [2, 5, 10], [10]], 9) := by decide

end Verif.Uart.Arduino
