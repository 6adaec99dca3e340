import Verif.Uart.EspProps
/-!
# C84: consecutive packet receptions on ESP32 share out the byte stream

Several calls of `ReceiveUntil` and `ReceiveBetween`, each continuing with the clock and the driver where the call before
has left them.
-/
namespace Verif.Uart.Esp
open Verif

/-! ## Specification -/

/-- A call of the packet interface. -/
inductive Call where
  | «until» (size : Nat) (e : Byte) (timeout : Nat)
  | between (size : Nat) (sb e : Byte) (timeout : Nat)

/-- The stream `s` is shared out by the calls as the packets `ps`, in order and without loss: `ReceiveUntil` gets the
next bytes up to the terminator, and fewer only if the buffer is full or there is a time-out; `ReceiveBetween` skips bytes
other than the start byte, and gets the start byte and the bytes up to the terminator at most, or nothing. -/
inductive SharedOut : List Call → List Byte → List (List Byte) → Prop where
  | nil : SharedOut [] [] []
  | «until» (size : Nat) (e : Byte) (timeout : Nat) (p : List Byte) (cs : List Call) (s : List Byte) (ps : List (List Byte)) :
      p.length ≤ size → e ∉ p.dropLast → p.getLast? = some e ∨ p.length = size ∨ timeout ≠ 0 → SharedOut cs s ps →
      SharedOut (.until size e timeout :: cs) (p ++ s) (p :: ps)
  | nothing (size : Nat) (sb e : Byte) (timeout : Nat) (skipped : List Byte) (cs : List Call) (s : List Byte)
      (ps : List (List Byte)) : sb ∉ skipped → SharedOut cs s ps →
      SharedOut (.between size sb e timeout :: cs) (skipped ++ s) ([] :: ps)
  | between (size : Nat) (sb e : Byte) (timeout : Nat) (skipped p : List Byte) (cs : List Call) (s : List Byte)
      (ps : List (List Byte)) : sb ∉ skipped → p.length + 1 ≤ size → e ∉ p.dropLast → SharedOut cs s ps →
      SharedOut (.between size sb e timeout :: cs) (skipped ++ sb :: p ++ s) ((sb :: p) :: ps)

/-! ## The code -/

/-- The world after a call which has left the state `s`. -/
def Env.after (env : Env) (s : St) : Env :=
  ⟨fun k => env.clock (s.clocks + k), fun k => env.rx (s.log.length + k)⟩

/-- One call: the number returned and the state. -/
def Call.run (env : Env) (fuel : Nat) (mem : List Byte) : Call → Res (Nat × St)
  | .until size e timeout => receiveUntil env fuel mem size e timeout
  | .between size sb e timeout => receiveBetween env fuel mem size sb e timeout

/-- Consecutive calls with one buffer: the packets returned and the number of reads made. -/
def runCalls (fuel : Nat) : Env → List Byte → List Call → Res (List (List Byte) × Nat)
  | _, _, [] => .ok ([], 0)
  | env, mem, c :: cs => do
    let (n, s) ← c.run env fuel mem
    let (ps, reads) ← runCalls fuel (env.after s) s.mem cs
    .ok (s.mem.take n :: ps, s.log.length + reads)

/-! ## Proof -/

theorem received_after (env : Env) (s : St) (k : Nat) :
    received env (s.log.length + k) = received env s.log.length ++ received (env.after s) k := by
  induction k with
  | zero => simp [received]
  | succ k ih =>
    rw [← Nat.add_assoc, received_succ, ih, received_succ, List.append_assoc]
    rfl

/-- The buffer can hold the packet, and the deadline of `ReceiveBetween` does not wrap (C54). -/
def Call.Fits (room : Nat) (latest : Nat) : Call → Prop
  | .until size _ _ => size ≤ room
  | .between size _ _ timeout => size ≤ room ∧ latest + timeout < 4294967296

theorem between_length {env : Env} {fuel : Nat} {mem : List Byte} {size : Nat} {sb e : Byte} {timeout n : Nat} {s : St}
    (hs : size ≤ mem.length) (hw : (env.clock 0).toNat + timeout < 4294967296)
    (h : receiveBetween env fuel mem size sb e timeout = .ok (n, s)) : n ≤ mem.length ∧ mem.length ≤ s.mem.length := by
  obtain ⟨h1, h2, h3⟩ := (receiveBetween_exact_partial env fuel mem size sb e timeout hs hw).2 n s h
  refine ⟨by omega, ?_⟩
  by_cases hn : n = 0
  · by_cases h2s : size < 2
    · unfold receiveBetween at h
      rw [if_pos h2s] at h
      cases h
      exact Nat.le_refl _
    · have := congrArg List.length (h2 hn).1
      simp at this
      omega
  · obtain ⟨before, post, k1, k2, k3, k4, -⟩ := h3 hn
    rw [k4]; simp; omega

/-- **C84**: whatever the clock and the driver do, consecutive calls share out the bytes delivered by the driver. -/
theorem stream_shared_out (fuel : Nat) (env : Env) (mem : List Byte) (cs : List Call) (latest : Nat)
    (hl : ∀ k, (env.clock k).toNat ≤ latest) (hf : ∀ c ∈ cs, c.Fits mem.length latest) :
    runCalls fuel env mem cs ≠ .ub ∧
    ∀ ps reads, runCalls fuel env mem cs = .ok (ps, reads) → SharedOut cs (received env reads) ps := by
  induction cs generalizing env mem with
  | nil =>
    refine ⟨by simp [runCalls], ?_⟩
    intro ps reads h
    cases h
    exact .nil
  | cons c cs ih =>
    simp only [List.mem_cons, forall_eq_or_imp] at hf
    have step : ∀ n s, c.run env fuel mem = .ok (n, s) → mem.length ≤ s.mem.length →
        runCalls fuel (env.after s) s.mem cs ≠ .ub ∧
        ∀ ps reads, runCalls fuel (env.after s) s.mem cs = .ok (ps, reads) →
          SharedOut cs (received (env.after s) reads) ps := by
      intro n s _ hm
      apply ih (env.after s) s.mem (fun k => hl _)
      intro c' hc'
      have := hf.2 c' hc'
      cases c' with
      | «until» size e timeout => simp only [Call.Fits] at this ⊢; omega
      | between size sb e timeout => simp only [Call.Fits] at this ⊢; omega
    have hub : c.run env fuel mem ≠ .ub ∧ ∀ n s, c.run env fuel mem = .ok (n, s) → mem.length ≤ s.mem.length := by
      cases c with
      | «until» size e timeout =>
        have := receiveUntil_exact env fuel mem size e timeout hf.1
        refine ⟨this.1, ?_⟩
        intro n s h
        obtain ⟨k1, k2, k3, -⟩ := this.2 n s h
        rw [k3]; simp; omega
      | between size sb e timeout =>
        have hw : (env.clock 0).toNat + timeout < 4294967296 := by
          have := hl 0; have := hf.1.2; omega
        exact ⟨(receiveBetween_exact_partial env fuel mem size sb e timeout hf.1.1 hw).1,
          fun n s h => (between_length hf.1.1 hw h).2⟩
    cases hr : c.run env fuel mem with
    | ub => exact absurd hr hub.1
    | hang => exact ⟨by simp [runCalls, hr], by simp [runCalls, hr]⟩
    | ok r =>
      obtain ⟨n, s⟩ := r
      obtain ⟨h1, h2⟩ := step n s hr (hub.2 n s hr)
      cases hq : runCalls fuel (env.after s) s.mem cs with
      | ub => exact absurd hq h1
      | hang => exact ⟨by simp [runCalls, hr, hq], by simp [runCalls, hr, hq]⟩
      | ok r =>
        obtain ⟨ps, reads⟩ := r
        have h3 := h2 ps reads hq
        refine ⟨by simp [runCalls, hr, hq], ?_⟩
        intro ps' reads' heq
        simp only [runCalls, hr, hq, Res.bind_ok, Res.ok.injEq, Prod.mk.injEq] at heq
        obtain ⟨rfl, rfl⟩ := heq
        rw [received_after]
        cases c with
        | «until» size e timeout =>
          obtain ⟨k1, k2, k3, k4, k5, -⟩ := (receiveUntil_exact env fuel mem size e timeout hf.1).2 n s hr
          rw [k3, List.take_append_of_le_length (by omega), List.take_of_length_le (by omega)]
          exact .until _ _ _ _ _ _ _ (by omega) k4 (k1 ▸ k5.imp_right (Or.imp_right And.left)) h3
        | between size sb e timeout =>
          have hw : (env.clock 0).toNat + timeout < 4294967296 := by
            have := hl 0; have := hf.1.2; omega
          obtain ⟨k1, k2, k3⟩ := (receiveBetween_exact_partial env fuel mem size sb e timeout hf.1.1 hw).2 n s hr
          by_cases hn : n = 0
          · subst hn
            rw [List.take_zero]
            exact .nothing _ _ _ _ _ _ _ _ (k2 rfl).2.1 h3
          · obtain ⟨before, post, m1, m2, m3, m4, m5, -⟩ := k3 hn
            rw [m1, m4, List.take_append_of_le_length (by simp; omega), List.take_of_length_le (by simp; omega)]
            exact .between _ _ _ _ _ _ _ _ _ m2 (by omega) m5 h3

theorem received_prefix (env : Env) {k K : Nat} (h : k ≤ K) : received env k <+: received env K := by
  obtain ⟨d, rfl⟩ := Nat.exists_eq_add_of_le h
  clear h
  induction d with
  | zero => exact List.prefix_refl _
  | succ d ih => rw [← Nat.add_assoc, received_succ]; exact ih.trans (List.prefix_append _ _)

/-- Without a time-out, the loop ends when the terminator has been delivered. -/
theorem until_returns (env : Env) (size : Nat) (e : Byte) (mem : List Byte) (hs : size ≤ mem.length) (maxTime : BitVec 32)
    (K fuel : Nat) (start : BitVec 32) {s : St} {cur p rest : List Byte} (h : Inv env mem [] s cur)
    (hp : e ∉ p) (hr : received env K = p ++ e :: rest) (hc : ∃ t, p = cur ++ t) (hle : p.length + 1 ≤ size)
    (hf : K < s.log.length + fuel) (hk : s.log.length ≤ K) :
    ∃ s', untilLoop env size e 0 maxTime fuel cur.length start s = .ok (p.length + 1, s') ∧
      s'.mem = p ++ e :: mem.drop (p.length + 1) ∧ s'.log.length ≤ K ∧ received env s'.log.length = p ++ [e] := by
  induction fuel generalizing s cur start with
  | zero => omega
  | succ fuel ih =>
    obtain ⟨t, rfl⟩ := hc
    have hlt : cur.length < size := by simp at hle; omega
    unfold untilLoop
    rw [if_pos hlt]
    simp only [if_true, true_or]
    have hK : s.log.length < K := by
      apply Nat.lt_of_le_of_ne hk
      intro heq
      have := h.bytes
      rw [heq, hr] at this
      have := congrArg List.length this
      simp at this
    have hpre : ∀ k, k ≤ K → received env k <+: received env K := fun k hk' => received_prefix env hk'
    rcases read_step h (by omega) (maxTime - start) with ⟨b, s1, k1, k2, k3, k4, k5, k6⟩ | ⟨s1, k1, k2, k3, k5, k6⟩
    · rw [k2]
      simp only [Res.bind_ok, if_true, k4]
      have hb := k3.bytes
      have hl1 : s1.log.length = s.log.length + 1 := by rw [k6]; simp
      have hpf := hpre s1.log.length (by omega)
      rw [← hb, hr] at hpf
      simp only [List.nil_append, List.append_assoc, List.prefix_append_right_inj] at hpf
      cases t with
      | nil =>
        simp only [List.nil_append, List.cons_prefix_cons] at hpf
        obtain ⟨rfl, -⟩ := hpf
        rw [if_pos rfl]
        refine ⟨s1, by simp, ?_, by omega, by simpa using hb.symm⟩
        rw [k3.mem_eq]; simp
      | cons x t =>
        simp only [List.cons_append, List.cons_prefix_cons] at hpf
        obtain ⟨rfl, -⟩ := hpf
        have hne : b ≠ e := by intro he; apply hp; simp [he]
        rw [if_neg hne]
        have := ih start k3 ⟨t, by simp⟩ (by omega) (by omega)
        rw [List.length_append, List.length_singleton] at this
        exact this
    · rw [k2]
      simp only [Res.bind_ok, Bool.false_eq_true, if_false]
      have hl1 : s1.log.length = s.log.length + 1 := by rw [k6]; simp
      exact ih start k3 ⟨t, rfl⟩ (by omega) (by omega)

/-- **C84**: packets that fit the buffer are received one by one, each with its terminator, however the bytes are spread
over the reads. -/
theorem stream_packets (fuel : Nat) (env : Env) (mem : List Byte) (size : Nat) (hs : size ≤ mem.length) (e : Byte)
    (ps : List (List Byte)) (hp : ∀ p ∈ ps, e ∉ p ∧ p.length + 1 ≤ size) (K : Nat) (hK : K < fuel)
    (hr : received env K = (ps.map (· ++ [e])).flatten) :
    ∃ reads, reads ≤ K ∧ runCalls fuel env mem (ps.map fun _ => .until size e 0) = .ok (ps.map (· ++ [e]), reads) := by
  induction ps generalizing env mem K with
  | nil => exact ⟨0, by omega, rfl⟩
  | cons p ps ih =>
    simp only [List.mem_cons, forall_eq_or_imp] at hp
    have hr' : received env K = p ++ e :: (ps.map (· ++ [e])).flatten := by rw [hr]; simp
    have hinv : Inv env mem [] (tick env ⟨mem, 0, []⟩).2 [] := ⟨by simp [tick], by simp [tick, received], by simp⟩
    obtain ⟨s, k1, k2, k3, k4⟩ := until_returns env size e mem hs (env.clock 0 + BitVec.ofNat 32 0) K fuel (env.clock 0)
      hinv hp.1.1 hr' ⟨p, rfl⟩ hp.1.2 (by simp [tick]; omega) (by simp [tick])
    have hrest : received (env.after s) (K - s.log.length) = (ps.map (· ++ [e])).flatten := by
      have := received_after env s (K - s.log.length)
      rw [show s.log.length + (K - s.log.length) = K by omega, hr', k4] at this
      rw [show p ++ e :: (ps.map (· ++ [e])).flatten = p ++ [e] ++ (ps.map (· ++ [e])).flatten by simp] at this
      exact (List.append_cancel_left this).symm
    have hm : size ≤ s.mem.length := by
      rw [k2]; simp; omega
    obtain ⟨reads, r1, r2⟩ := ih (env.after s) s.mem hm hp.2 (K - s.log.length) (by omega) hrest
    refine ⟨s.log.length + reads, by omega, ?_⟩
    have hrun : receiveUntil env fuel mem size e 0 = .ok (p.length + 1, s) := k1
    simp only [List.map_cons, runCalls, Call.run, hrun, Res.bind_ok, r2]
    rw [k2, show p ++ e :: mem.drop (p.length + 1) = (p ++ [e]) ++ mem.drop (p.length + 1) by simp,
      List.take_append_of_le_length (by simp), List.take_of_length_le (by simp)]

/-- Two packets with a pause in the middle of the second. -/
example : runCalls 10 ⟨fun _ => 0, fun k => [some 1, some 10, none, some 2, none, some 3, some 10][k]?.join⟩ [0, 0, 0]
    [.until 3 10 0, .until 3 10 0] = .ok ([[1, 10], [2, 3, 10]], 7) := by decide

end Verif.Uart.Esp
