import Verif.Uart.EspStream
/-!
# C84: where packets end

The same calls as in EspStream.lean, described by the outcomes of all reads (a byte or none) and all readings of the clock.
-/
namespace Verif.Uart.Esp
open Verif

/-! ## Specification -/

/-- A call, given the clock readings `cl` and the outcomes of reads `o` it takes, returns the packet `p`.
`ReceiveUntil` takes the bytes delivered, reads that fail being repeated, until the terminator has come, the buffer is
full, or the clock has reached the deadline.  `ReceiveBetween` gives up with the first failing read before the start byte;
after it, it takes the bytes until the terminator has come, the buffer is full, or the clock is past the deadline.  It
takes nothing if the buffer has less than two bytes.  If the deadline wraps around the 32-bit clock, it does not wait for
the start byte, and the packet begins with a byte that was not received (finding of C54). -/
inductive Takes : Call → List (BitVec 32) → List (Option Byte) → List Byte → Prop where
  | «until» (size : Nat) (e : Byte) (timeout : Nat) (cl : List (BitVec 32)) (o : List (Option Byte)) :
      (o.filterMap id).length ≤ size → e ∉ (o.filterMap id).dropLast →
      ((o.filterMap id).getLast? = some e ∨ (o.filterMap id).length = size ∨
        (timeout ≠ 0 ∧ ∃ c0 c1, cl.head? = some c0 ∧ cl.getLast? = some c1 ∧ c0 + BitVec.ofNat 32 timeout ≤ c1)) →
      Takes (.until size e timeout) cl o (o.filterMap id)
  | small (size : Nat) (sb e : Byte) (timeout : Nat) : size < 2 → Takes (.between size sb e timeout) [] [] []
  | nothing (size : Nat) (sb e : Byte) (timeout : Nat) (c0 : BitVec 32) (skipped : List Byte) :
      2 ≤ size → c0.toNat + timeout < 4294967296 → sb ∉ skipped →
      Takes (.between size sb e timeout) [c0] (skipped.map some ++ [none]) []
  | between (size : Nat) (sb e : Byte) (timeout : Nat) (c0 : BitVec 32) (cl : List (BitVec 32)) (skipped : List Byte)
      (o : List (Option Byte)) : c0.toNat + timeout < 4294967296 → sb ∉ skipped → (o.filterMap id).length + 1 ≤ size → e ∉ (o.filterMap id).dropLast →
      ((o.filterMap id).getLast? = some e ∨ (o.filterMap id).length + 1 = size ∨
        ∃ c1, cl.getLast? = some c1 ∧ c0.toNat + timeout < c1.toNat) →
      Takes (.between size sb e timeout) (c0 :: cl) (skipped.map some ++ some sb :: o) (sb :: o.filterMap id)
  | wrapped (size : Nat) (sb e : Byte) (timeout : Nat) (c0 : BitVec 32) (cl : List (BitVec 32)) (x : Byte)
      (o : List (Option Byte)) : 4294967296 ≤ c0.toNat + timeout → 2 ≤ size → (o.filterMap id).length + 1 ≤ size →
      e ∉ (o.filterMap id).dropLast →
      ((o.filterMap id).getLast? = some e ∨ (o.filterMap id).length + 1 = size ∨
        ∃ c1, cl.getLast? = some c1 ∧ c0.toNat + timeout - 4294967296 < c1.toNat) →
      Takes (.between size sb e timeout) (c0 :: cl) o (x :: o.filterMap id)

/-- The readings and outcomes are shared out among the calls, in order and without loss. -/
inductive AllTake : List Call → List (BitVec 32) → List (Option Byte) → List (List Byte) → Prop where
  | nil : AllTake [] [] [] []
  | cons (c : Call) (cl : List (BitVec 32)) (o : List (Option Byte)) (p : List Byte) (cs : List Call)
      (cls : List (BitVec 32)) (os : List (Option Byte)) (ps : List (List Byte)) : Takes c cl o p →
      AllTake cs cls os ps → AllTake (c :: cs) (cl ++ cls) (o ++ os) (p :: ps)

/-- The outcomes of the first `k` reads. -/
def outcomes (env : Env) (k : Nat) : List (Option Byte) := (List.range k).map env.rx

/-- The buffer has `room` bytes at least; time-outs are 16-bit. -/
def Call.Holds (room : Nat) : Call → Prop
  | .until size _ _ => size ≤ room
  | .between size _ _ timeout => size ≤ room ∧ timeout < 65536

/-- The first `k` readings of the clock. -/
def readings (env : Env) (k : Nat) : List (BitVec 32) := (List.range k).map env.clock

/-! ## Proof -/

theorem outcomes_succ (env : Env) (k : Nat) : outcomes env (k + 1) = outcomes env k ++ [env.rx k] := by
  simp [outcomes, List.range_succ]

theorem received_outcomes (env : Env) (k : Nat) : received env k = (outcomes env k).filterMap id := by
  simp [received, outcomes, List.filterMap_map]

theorem outcomes_add (env : Env) (s : St) (k : Nat) :
    outcomes env (s.log.length + k) = outcomes env s.log.length ++ outcomes (env.after s) k := by
  simp [outcomes, List.range_add, Env.after]

theorem readings_add (env : Env) (s : St) (k : Nat) :
    readings env (s.clocks + k) = readings env s.clocks ++ readings (env.after s) k := by
  simp [readings, List.range_add, Env.after]

theorem readings_head (env : Env) (k : Nat) : (readings env (k + 1)).head? = some (env.clock 0) := by
  simp [readings, List.range_succ_eq_map]

theorem readings_last (env : Env) (k : Nat) : (readings env (k + 1)).getLast? = some (env.clock k) := by
  simp [readings, List.range_succ]

theorem readings_cons (env : Env) (k : Nat) : ∃ l, readings env (k + 1) = env.clock 0 :: l := by
  simp [readings, List.range_succ_eq_map]

theorem outcomes_prefix (env : Env) {k K : Nat} (h : k ≤ K) : ∃ o, outcomes env K = outcomes env k ++ o := by
  obtain ⟨d, rfl⟩ := Nat.exists_eq_add_of_le h
  refine ⟨(List.map (fun x => k + x) (List.range d)).map env.rx, ?_⟩
  simp only [outcomes, List.range_add, List.map_append]

/-- Waiting for the start byte: no read fails but the last. -/
theorem startLoop_outcomes (env : Env) (sb : Byte) (start maxTime : BitVec 32) (hle : start ≤ maxTime) (fuel : Nat) (s : St)
    (found : Bool) (s' : St) (h : startLoop env sb start maxTime fuel s = .ok (found, s')) :
    s'.clocks = s.clocks ∧ ∃ bs : List Byte, sb ∉ bs ∧ outcomes env s'.log.length =
      outcomes env s.log.length ++ bs.map some ++ [if found then some sb else none] := by
  induction fuel generalizing s with
  | zero => simp [startLoop] at h
  | succ fuel ih =>
    unfold startLoop at h
    rw [if_pos hle] at h
    unfold readByte at h
    cases hr : env.rx s.log.length with
    | none =>
      simp only [hr, Res.bind_ok, Bool.false_eq_true, if_false, Res.ok.injEq, Prod.mk.injEq] at h
      obtain ⟨rfl, rfl⟩ := h
      exact ⟨rfl, [], by simp, by simp [outcomes_succ, hr]⟩
    | some b =>
      rw [hr] at h
      by_cases hp : 0 < s.mem.length
      · simp only [if_pos hp, Res.bind_ok, if_true] at h
        rw [List.getElem?_set_self (by simpa using hp)] at h
        dsimp only at h
        by_cases hb : b = sb
        · rw [if_pos hb] at h
          simp only [Res.ok.injEq, Prod.mk.injEq] at h
          obtain ⟨rfl, rfl⟩ := h
          exact ⟨rfl, [], by simp, by simp [outcomes_succ, hr, hb]⟩
        · rw [if_neg hb] at h
          obtain ⟨k1, bs, k2, k3⟩ := ih _ h
          refine ⟨k1, b :: bs, by simp [Ne.symm hb, k2], ?_⟩
          rw [k3]
          simp [outcomes_succ, hr]
      · simp only [if_neg hp, Res.bind_ub, reduceCtorEq] at h

theorem restLoop_log (env : Env) (size : Nat) (e : Byte) (maxTime : BitVec 32) (fuel pos : Nat) (s : St) (n : Nat) (s' : St)
    (h : restLoop env size e maxTime fuel pos s = .ok (n, s')) : s.log.length ≤ s'.log.length ∧ s.clocks < s'.clocks := by
  induction fuel generalizing pos s with
  | zero => simp [restLoop] at h
  | succ fuel ih =>
    unfold restLoop at h
    dsimp only at h
    by_cases hc : (tick env s).1 ≤ maxTime
    · rw [if_pos hc] at h
      by_cases hpos : pos = size
      · rw [if_pos hpos] at h
        simp only [Res.ok.injEq, Prod.mk.injEq] at h
        obtain ⟨-, rfl⟩ := h
        exact ⟨Nat.le_refl _, Nat.lt_succ_self _⟩
      · rw [if_neg hpos] at h
        simp only [tick] at h
        unfold readByte at h
        dsimp only at h
        cases hr : env.rx s.log.length with
        | none =>
          simp only [hr, Res.bind_ok, Bool.false_eq_true, if_false] at h
          have := ih _ _ h
          simp at this
          omega
        | some b =>
          rw [hr] at h
          dsimp only at h
          by_cases hp : pos < s.mem.length
          · simp only [if_pos hp, Res.bind_ok, if_true] at h
            rw [List.getElem?_set_self hp] at h
            dsimp only at h
            by_cases hb : b = e
            · rw [if_pos hb] at h
              simp only [Res.ok.injEq, Prod.mk.injEq] at h
              obtain ⟨-, rfl⟩ := h
              simp
            · rw [if_neg hb] at h
              have := ih _ _ h
              simp at this
              omega
          · simp only [if_neg hp, Res.bind_ub, reduceCtorEq] at h
    · rw [if_neg hc] at h
      simp only [Res.ok.injEq, Prod.mk.injEq] at h
      obtain ⟨-, rfl⟩ := h
      exact ⟨Nat.le_refl _, Nat.lt_succ_self _⟩

theorem split_unique {α : Type} {x : α} {a b c d : List α} (ha : x ∉ a) (hc : x ∉ c) (h : a ++ x :: b = c ++ x :: d) :
    a = c ∧ b = d := by
  induction a generalizing c with
  | nil =>
    cases c with
    | nil => simpa using h
    | cons y c =>
      simp only [List.nil_append, List.cons_append, List.cons.injEq] at h
      exact absurd (by simp [h.1]) hc
  | cons y a ih =>
    cases c with
    | nil =>
      simp only [List.nil_append, List.cons_append, List.cons.injEq] at h
      exact absurd (by simp [h.1]) ha
    | cons z c =>
      simp only [List.cons_append, List.cons.injEq] at h
      obtain ⟨k1, k2⟩ := ih (fun m => ha (by simp [m])) (fun m => hc (by simp [m])) h.2
      exact ⟨by rw [h.1, k1], k2⟩

theorem restLoop_clocks (env : Env) (size : Nat) (sb e : Byte) (timeout fuel : Nat) (mem : List Byte) (n : Nat) (s : St)
    (hs2 : 2 ≤ size) (hn : n ≠ 0) (h : receiveBetween env fuel mem size sb e timeout = .ok (n, s)) : 2 ≤ s.clocks := by
  unfold receiveBetween at h
  rw [if_neg (by omega)] at h
  simp only [tick] at h
  obtain ⟨⟨found, s1⟩, g1, g2⟩ := Res.bind_eq_ok.1 h
  cases found with
  | false =>
    simp only [Bool.false_eq_true, if_false, Res.ok.injEq, Prod.mk.injEq] at g2
    omega
  | true =>
    simp only [if_true] at g2
    have := (restLoop_log env size e _ fuel 1 s1 n s g2).2
    have h1 : s1.clocks = 1 := by
      clear h g2 this
      have : ∀ (f : Nat) (t : St) (s1 : St) (m : BitVec 32), startLoop env sb (env.clock 0) m f t = .ok (true, s1) →
          s1.clocks = t.clocks := by
        intro f
        induction f with
        | zero => intro t s1 m h; simp [startLoop] at h
        | succ f ih =>
          intro t s1 m h
          unfold startLoop at h
          by_cases hc : env.clock 0 ≤ m
          · rw [if_pos hc] at h
            unfold readByte at h
            cases hr : env.rx t.log.length with
            | none => simp [hr] at h
            | some b =>
              rw [hr] at h
              by_cases hp : 0 < t.mem.length
              · simp only [if_pos hp, Res.bind_ok, if_true] at h
                rw [List.getElem?_set_self hp] at h
                dsimp only at h
                by_cases hb : b = sb
                · rw [if_pos hb] at h
                  simp only [Res.ok.injEq, Prod.mk.injEq] at h
                  rw [← h.2]
                · rw [if_neg hb] at h
                  have := ih _ _ _ h
                  simpa using this
              · simp only [if_neg hp, Res.bind_ub, reduceCtorEq] at h
          · rw [if_neg hc] at h
            simp only [Res.ok.injEq, Prod.mk.injEq] at h
            rw [← h.2]
      exact this fuel _ s1 _ g1
    omega

/-- The readings after the first, when there were two at least. -/
theorem readings_two (env : Env) (k : Nat) : ∃ l, readings env (k + 2) = env.clock 0 :: l ∧
    l.getLast? = some (env.clock (k + 1)) := by
  obtain ⟨l, hl⟩ := readings_cons env (k + 1)
  refine ⟨l, hl, ?_⟩
  have h1 := readings_last env (k + 1)
  rw [hl] at h1
  cases l with
  | nil =>
    have := congrArg List.length hl
    simp [readings] at this
  | cons x l => simpa using h1

theorem between_wrapped (env : Env) (fuel : Nat) (mem : List Byte) (size : Nat) (sb e : Byte) (timeout n : Nat) (s : St)
    (hf : size ≤ mem.length ∧ timeout < 65536) (hw : 4294967296 ≤ (env.clock 0).toNat + timeout)
    (h : receiveBetween env fuel mem size sb e timeout = .ok (n, s)) :
    Takes (.between size sb e timeout) (readings env s.clocks) (outcomes env s.log.length) (s.mem.take n) ∧
      mem.length ≤ s.mem.length := by
  by_cases hs2 : size < 2
  · unfold receiveBetween at h
    rw [if_pos hs2] at h
    simp only [Res.ok.injEq, Prod.mk.injEq] at h
    obtain ⟨rfl, rfl⟩ := h
    exact ⟨.small _ _ _ _ hs2, Nat.le_refl _⟩
  · obtain ⟨k1, k2, ⟨x, hx, k3⟩, k4, k5⟩ :=
      (receiveBetween_wrap_exact env fuel mem size sb e timeout hf.2 hf.1 (by omega) hw).2 n s h
    have hc := restLoop_clocks env size sb e timeout fuel mem n s (by omega) (by omega) h
    obtain ⟨k, hk⟩ : ∃ k, s.clocks = k + 2 := ⟨s.clocks - 2, by omega⟩
    obtain ⟨l, hl1, hl2⟩ := readings_two env k
    refine ⟨?_, by rw [k3]; simp; omega⟩
    rw [k3, List.take_append_of_le_length (by simp; omega), List.take_of_length_le (by simp; omega), received_outcomes, hk, hl1]
    rw [received_outcomes] at k1 k4 k5
    refine .wrapped _ _ _ _ _ _ _ _ hw (by omega) (by omega) k4 ?_
    rcases k5 with w | w | ⟨j, w, w'⟩
    · exact .inl w
    · exact .inr (.inl (by omega))
    · refine .inr (.inr ⟨_, hl2, ?_⟩)
      have : j = k + 1 := by omega
      rw [← this]
      exact w'

/-- One call. -/
theorem call_takes (env : Env) (fuel : Nat) (mem : List Byte) (c : Call) (hf : c.Holds mem.length) (n : Nat) (s : St)
    (h : c.run env fuel mem = .ok (n, s)) :
    Takes c (readings env s.clocks) (outcomes env s.log.length) (s.mem.take n) ∧ mem.length ≤ s.mem.length := by
  cases c with
  | «until» size e timeout =>
    obtain ⟨k1, k2, k3, k4, k5, -⟩ := (receiveUntil_exact env fuel mem size e timeout hf).2 n s h
    refine ⟨?_, by rw [k3]; simp; omega⟩
    rw [k3, List.take_append_of_le_length (by omega), List.take_of_length_le (by omega), received_outcomes]
    rw [received_outcomes] at k1 k4 k5
    refine .until _ _ _ _ _ (by omega) k4 ?_
    rcases k5 with k | k | ⟨kt, k, kc, k'⟩
    · exact .inl k
    · exact .inr (.inl (by omega))
    · exact .inr (.inr ⟨kt, _, _, by rw [kc]; exact readings_head env k, by rw [kc]; exact readings_last env k, k'⟩)
  | between size sb e timeout =>
    by_cases hw : 4294967296 ≤ (env.clock 0).toNat + timeout
    · exact between_wrapped env fuel mem size sb e timeout n s hf hw h
    rw [Nat.not_le] at hw
    refine ⟨?_, (between_length hf.1 hw h).2⟩
    obtain ⟨j1, j2, j3⟩ := (receiveBetween_exact_partial env fuel mem size sb e timeout hf.1 hw).2 n s h
    have h' : receiveBetween env fuel mem size sb e timeout = .ok (n, s) := h
    unfold receiveBetween at h'
    by_cases hs2 : size < 2
    · rw [if_pos hs2] at h'
      simp only [Res.ok.injEq, Prod.mk.injEq] at h'
      obtain ⟨rfl, rfl⟩ := h'
      exact .small _ _ _ _ hs2
    · rw [if_neg hs2] at h'
      simp only [tick] at h'
      have hle : env.clock 0 ≤ env.clock 0 + BitVec.ofNat 32 timeout := by
        rw [BitVec.le_def, BitVec.toNat_add, BitVec.toNat_ofNat, Nat.mod_eq_of_lt (a := timeout) (by omega),
          Nat.mod_eq_of_lt (by omega)]
        omega
      obtain ⟨⟨found, s1⟩, g1, g2⟩ := Res.bind_eq_ok.1 h'
      obtain ⟨a1, bs, a2, a3⟩ := startLoop_outcomes env sb _ _ hle fuel _ found s1 g1
      cases found with
      | false =>
        simp only [Bool.false_eq_true, if_false, Res.ok.injEq, Prod.mk.injEq] at g2 a3
        obtain ⟨rfl, rfl⟩ := g2
        rw [List.take_zero, a3, a1]
        simpa [outcomes, readings] using Takes.nothing size sb e timeout (env.clock 0) bs (by omega) hw a2
      | true =>
        simp only [if_true] at g2 a3
        obtain ⟨b1, b2⟩ := restLoop_log env size e _ fuel 1 s1 n s g2
        obtain ⟨o, ho⟩ := outcomes_prefix env b1
        have hn : n ≠ 0 := by
          intro hn
          have := (j2 hn).2.1
          rw [received_outcomes, ho, a3] at this
          apply this
          simp
        obtain ⟨before, post, m1, m2, m3, m4, m5, m6⟩ := j3 hn
        have hsplit : bs = before ∧ o.filterMap id = post := by
          rw [received_outcomes, ho, a3] at m1
          apply split_unique a2 m2
          rw [← m1]
          simp [outcomes, List.filterMap_map]
        obtain ⟨rfl, rfl⟩ := hsplit
        rw [m4, List.take_append_of_le_length (by simp; omega), List.take_of_length_le (by simp; omega), ho, a3]
        obtain ⟨k, hk⟩ : ∃ k, s.clocks = k + 1 := ⟨s.clocks - 1, by omega⟩
        obtain ⟨l, hcl⟩ := readings_cons env k
        rw [hk, hcl]
        have := Takes.between size sb e timeout (env.clock 0) l bs o hw a2 (by omega) m5 (by
          rcases m6 with w | w | ⟨k', w, w'⟩
          · exact .inl w
          · exact .inr (.inl (by omega))
          · refine .inr (.inr ⟨env.clock k', ?_, w'⟩)
            have hkk : k' = k := by omega
            subst hkk
            have h1 := readings_last env k'
            rw [hcl] at h1
            cases l with
            | nil =>
              exfalso
              have := congrArg List.length hcl
              simp [readings] at this
              simp at a1
              omega
            | cons x l => simpa using h1)
        simpa [outcomes] using this

/-- **C84**: whatever the clock and the driver do, consecutive calls share out the outcomes of the reads, and a packet is
cut short only when the buffer is full or the deadline has passed. -/
theorem stream_taken (fuel : Nat) (env : Env) (mem : List Byte) (cs : List Call)
    (hf : ∀ c ∈ cs, c.Holds mem.length) (ps : List (List Byte)) (reads : Nat)
    (h : runCalls fuel env mem cs = .ok (ps, reads)) :
    ∃ ticks, AllTake cs (readings env ticks) (outcomes env reads) ps := by
  induction cs generalizing env mem ps reads with
  | nil =>
    simp only [runCalls, Res.ok.injEq, Prod.mk.injEq] at h
    obtain ⟨rfl, rfl⟩ := h
    exact ⟨0, .nil⟩
  | cons c cs ih =>
    simp only [List.mem_cons, forall_eq_or_imp] at hf
    unfold runCalls at h
    obtain ⟨⟨n, s⟩, g1, g2⟩ := Res.bind_eq_ok.1 h
    obtain ⟨⟨ps', reads'⟩, g3, g4⟩ := Res.bind_eq_ok.1 g2
    simp only [Res.ok.injEq, Prod.mk.injEq] at g4
    obtain ⟨rfl, rfl⟩ := g4
    obtain ⟨k1, k2⟩ := call_takes env fuel mem c hf.1 n s g1
    obtain ⟨ticks, k3⟩ := ih (env.after s) s.mem (fun c' hc' => by
      have := hf.2 c' hc'
      cases c' with
      | «until» size e timeout => simp only [Call.Holds] at this ⊢; omega
      | between size sb e timeout => simp only [Call.Holds] at this ⊢; omega) ps' reads' g3
    refine ⟨s.clocks + ticks, ?_⟩
    rw [outcomes_add, readings_add]
    exact .cons _ _ _ _ _ _ _ _ k1 k3

/-- A packet cut short by the deadline, then nothing because of a failing read, then a whole packet. -/
example : runCalls 10 ⟨fun k => [0, 1, 7, 8, 9, 9, 9, 9][k]?.getD 9, fun k => [some 2, some 5, some 4, none, some 2, some 3][k]?.join⟩
    [0, 0, 0, 0] [.between 4 2 3 5, .between 4 2 3 5, .between 4 2 3 5] = .ok ([[2, 5], [], [2, 3]], 6) := by decide

/-- A wrapping deadline. -/
example : runCalls 10 ⟨fun k => if k = 0 then 0xFFFFFFFF else 2, fun k => [some 5, none, some 3][k]?.join⟩
    [9, 0, 0, 0] [.between 4 2 3 5] = .ok ([[9, 5, 3]], 3) := by decide

end Verif.Uart.Esp
