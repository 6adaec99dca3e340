import Verif.Uart.EspStream
import Verif.Uart.Counts
/-!
# C84: bulk and packet receptions mixed on ESP32

Any calls of `Receive`, `ReceiveUntil` and `ReceiveBetween` one after the other.  `Receive` asks the driver for a whole
buffer at once, the other two for a byte at a time.
-/
namespace Verif.Uart.Esp.Mixed
open Verif Verif.Uart.Esp

/-! ## Specification -/

/-- A call of the receiving interface. -/
inductive Call where
  | packet (c : Esp.Call)
  | receive (size timeout : Nat)

/-- The driver: the outcome of the `k`-th read, when so many bytes are asked for - a failure, or the bytes read -, and the
value of the `k`-th clock reading. -/
structure World where
  clock : Nat → BitVec 32
  read : Nat → Nat → Option (List Byte)

/-- A driver reads no more than it is asked for, as the vendor documents. -/
def World.Documented (w : World) : Prop := ∀ k n bs, w.read k n = some bs → bs.length ≤ n

/-- The bytes delivered by reads asking for `asked`, the first of which is the `k`-th. -/
def World.delivered (w : World) : Nat → List Nat → List Byte
  | _, [] => []
  | k, n :: ns => (match w.read k n with | some bs => bs | none => []) ++ w.delivered (k + 1) ns

/-- The stream `s` is shared out by the calls: as `Esp.SharedOut`, and `Receive` gets the next bytes, as many as fit its
buffer at most. -/
inductive SharedOut : List Call → List Byte → List (List Byte) → Prop where
  | nil : SharedOut [] [] []
  | packet (c : Esp.Call) (s1 s : List Byte) (p : List Byte) (cs : List Call) (ps : List (List Byte)) :
      Esp.SharedOut [c] s1 [p] → SharedOut cs s ps → SharedOut (.packet c :: cs) (s1 ++ s) (p :: ps)
  | receive (size timeout : Nat) (p : List Byte) (cs : List Call) (s : List Byte) (ps : List (List Byte)) :
      p.length ≤ size → SharedOut cs s ps → SharedOut (.receive size timeout :: cs) (p ++ s) (p :: ps)

/-! ## The code -/

/-- The reads of single bytes from the `r`-th on, and the clock from its `c`-th reading on: a read of one byte has got
it or not (`receiveBlocking(…, 1, …) == 1`). -/
def World.env (w : World) (c r : Nat) : Env :=
  ⟨fun k => w.clock (c + k), fun k => match w.read (r + k) 1 with | some [b] => some b | _ => none⟩

/-- The driver of `SimpleUartDevice` at the time of the `r`-th read of `n` bytes. -/
def World.driver (w : World) (r n : Nat) : Device.Driver :=
  { ok := fun _ => true, written := fun _ => 0, received := fun _ => w.read r n, fifoLen := fun _ => 128 }

/-- PacketUart.cpp:10-76: one call, made after `c` clock readings and `r` reads: the number returned, the memory, the
clock readings made and the sizes asked for. -/
def Call.run (w : World) (period fuel c r : Nat) (mem : List Byte) : Call → Res (Nat × List Byte × Nat × List Nat)
  | .packet call => do
    let (n, s) ← call.run (w.env c r) fuel mem
    .ok (n, s.mem, s.clocks, s.log.map fun _ => 1)
  | .receive size timeout => do
    let (n, m, _) ← Device.packetReceive (w.driver r size) period 0 size timeout mem ⟨[], fun _ => true⟩
    .ok (n, m, 0, [size])

/-- Consecutive calls with one buffer: the packets, and the sizes asked for. -/
def runCalls (w : World) (period fuel : Nat) : Nat → Nat → List Byte → List Call → Res (List (List Byte) × List Nat)
  | _, _, _, [] => .ok ([], [])
  | c, r, mem, call :: calls => do
    let (n, m, clocks, asked) ← call.run w period fuel c r mem
    let (ps, asks) ← runCalls w period fuel (c + clocks) (r + asked.length) m calls
    .ok (m.take n :: ps, asked ++ asks)

/-! ## Proof -/

theorem delivered_append (w : World) (k : Nat) (a b : List Nat) :
    w.delivered k (a ++ b) = w.delivered k a ++ w.delivered (k + a.length) b := by
  induction a generalizing k with
  | nil => rfl
  | cons n a ih =>
    simp only [List.cons_append, World.delivered, ih, List.length_cons, List.append_assoc]
    rw [show k + 1 + a.length = k + (a.length + 1) by omega]

/-- Reads of single bytes deliver what the packet functions receive. -/
theorem delivered_singles (w : World) (hw : w.Documented) (c r k : Nat) :
    w.delivered r (List.replicate k 1) = received (w.env c r) k := by
  induction k generalizing r c with
  | zero => rfl
  | succ k ih =>
    have h1 : received (w.env c r) (k + 1) =
        ((w.env c r).rx 0).toList ++ received (w.env c (r + 1)) k := by
      unfold received
      rw [List.range_succ_eq_map, List.filterMap_cons]
      have : List.filterMap (w.env c r).rx (List.map Nat.succ (List.range k)) =
          List.filterMap (w.env c (r + 1)).rx (List.range k) := by
        rw [List.filterMap_map]
        congr 1
        funext j
        simp only [Function.comp, World.env, Nat.succ_eq_add_one, show r + (j + 1) = r + 1 + j by omega]
      rw [this]
      cases (w.env c r).rx 0 <;> rfl
    rw [h1, List.replicate_succ, World.delivered, ih c (r + 1)]
    congr 1
    simp only [World.env, Nat.add_zero]
    cases hr : w.read r 1 with
    | none => rfl
    | some bs =>
      have := hw r 1 bs hr
      match bs with
      | [] => rfl
      | [b] => rfl
      | _ :: _ :: _ => simp at this

/-- The buffer can hold what is asked for, and the deadline of `ReceiveBetween` does not wrap (C54). -/
def Call.Fits (room latest : Nat) : Call → Prop
  | .packet c => c.Fits room latest
  | .receive size timeout => size ≤ room ∧ size < 65536 ∧ timeout < 65536

/-- **C84**: whatever the clock and the driver do - as long as no bulk read fails (C66) -, any calls of `Receive`,
`ReceiveUntil` and `ReceiveBetween` share out the bytes delivered by the driver. -/
theorem mixed_shared_out (w : World) (hw : w.Documented) (period : Nat) (hp : 0 < period) (fuel c r : Nat)
    (mem : List Byte) (calls : List Call) (latest : Nat) (hl : ∀ k, (w.clock k).toNat ≤ latest)
    (hf : ∀ call ∈ calls, call.Fits mem.length latest)
    (hb : ∀ size timeout, .receive size timeout ∈ calls → ∀ k, w.read k size ≠ none) :
    runCalls w period fuel c r mem calls ≠ .ub ∧
    ∀ ps asks, runCalls w period fuel c r mem calls = .ok (ps, asks) → SharedOut calls (w.delivered r asks) ps := by
  induction calls generalizing c r mem with
  | nil =>
    refine ⟨by simp [runCalls], fun ps asks h => ?_⟩
    cases h
    exact .nil
  | cons call calls ih =>
    simp only [List.mem_cons, forall_eq_or_imp] at hf
    -- one call
    have one : call.run w period fuel c r mem ≠ .ub ∧ ∀ n m clocks asked,
        call.run w period fuel c r mem = .ok (n, m, clocks, asked) → mem.length ≤ m.length ∧
          ∀ s ps, SharedOut calls s ps → SharedOut (call :: calls) (w.delivered r asked ++ s) (m.take n :: ps) := by
      cases call with
      | packet pc =>
        have hfit : pc.Fits mem.length latest := hf.1
        have single := Esp.stream_shared_out fuel (w.env c r) mem [pc] latest (fun k => hl _) (by simpa using hfit)
        have hlen : ∀ n s, pc.run (w.env c r) fuel mem = .ok (n, s) → mem.length ≤ s.mem.length := by
          intro n s h
          cases pc with
          | «until» size e timeout =>
            obtain ⟨k1, k2, k3, -⟩ := (receiveUntil_exact (w.env c r) fuel mem size e timeout hfit).2 n s h
            rw [k3]; simp; omega
          | between size sb e timeout =>
            have hlt : ((w.env c r).clock 0).toNat + timeout < 4294967296 := by
              have := hl (c + 0); have := hfit.2; simp only [World.env]; omega
            exact (between_length hfit.1 hlt h).2
        cases hr : pc.run (w.env c r) fuel mem with
        | ub => exact absurd (by simp [Esp.runCalls, hr]) single.1
        | hang => exact ⟨by simp [Call.run, hr], by simp [Call.run, hr]⟩
        | ok x =>
          obtain ⟨n, s⟩ := x
          refine ⟨by simp [Call.run, hr], fun n' m clocks asked h => ?_⟩
          simp only [Call.run, hr, Res.bind_ok, Res.ok.injEq, Prod.mk.injEq] at h
          obtain ⟨rfl, rfl, rfl, rfl⟩ := h
          refine ⟨hlen n s hr, fun st ps hs => .packet pc _ st _ calls ps ?_ hs⟩
          have := single.2 [s.mem.take n] s.log.length (by simp [Esp.runCalls, hr])
          rw [List.map_const', delivered_singles w hw c r]
          exact this
      | receive size timeout =>
        obtain ⟨h1, h2, h3⟩ := hf.1
        obtain ⟨bs, hbs⟩ := Option.ne_none_iff_exists'.1 (hb size timeout (by simp) r)
        obtain ⟨ticks, n, m, s', k1, -, -, -, -, k6⟩ := Device.packetReceive_exact_partial (w.driver r size) period hp 0
          size timeout h2 h3 mem h1 ⟨[], fun _ => true⟩ ⟨fun b hb => hw r size b hb, .inr ⟨0, by omega, rfl⟩⟩
        have e : (w.driver r size).received [] = some bs := hbs
        rw [e] at k6
        obtain ⟨rfl, k7, rfl⟩ := k6
        refine ⟨by simp [Call.run, k1], fun n' m clocks asked h => ?_⟩
        simp only [Call.run, k1, Res.bind_ok, Res.ok.injEq, Prod.mk.injEq] at h
        obtain ⟨rfl, rfl, rfl, rfl⟩ := h
        refine ⟨by simp; omega, fun st ps hs => ?_⟩
        simp only [World.delivered, hbs, List.append_nil, List.take_left]
        exact .receive size timeout bs calls st ps k7 hs
    cases hr : call.run w period fuel c r mem with
    | ub => exact absurd hr one.1
    | hang => exact ⟨by simp [runCalls, hr], by simp [runCalls, hr]⟩
    | ok x =>
      obtain ⟨n, m, clocks, asked⟩ := x
      obtain ⟨hm, hstep⟩ := one.2 n m clocks asked hr
      have fits : ∀ c' ∈ calls, c'.Fits m.length latest := by
        intro c' hc'
        have := hf.2 c' hc'
        match c' with
        | .packet (.until size e timeout) => simp only [Call.Fits, Esp.Call.Fits] at this ⊢; omega
        | .packet (.between size sb e timeout) => simp only [Call.Fits, Esp.Call.Fits] at this ⊢; omega
        | .receive size timeout => simp only [Call.Fits] at this ⊢; omega
      obtain ⟨h1, h2⟩ := ih (c + clocks) (r + asked.length) m fits
        (fun size timeout hmem k => hb size timeout (List.mem_cons_of_mem _ hmem) k)
      cases hq : runCalls w period fuel (c + clocks) (r + asked.length) m calls with
      | ub => exact absurd hq h1
      | hang => exact ⟨by simp [runCalls, hr, hq], by simp [runCalls, hr, hq]⟩
      | ok y =>
        obtain ⟨ps, asks⟩ := y
        refine ⟨by simp [runCalls, hr, hq], fun ps' asks' h => ?_⟩
        simp only [runCalls, hr, hq, Res.bind_ok, Res.ok.injEq, Prod.mk.injEq] at h
        obtain ⟨rfl, rfl⟩ := h
        rw [delivered_append]
        exact hstep _ _ (h2 ps asks hq)

/-- **C84**: the condition on bulk reads is needed: after a failed one the caller is told that the whole buffer - whose
bytes are old ones - was received. -/
theorem failed_read_repeats (w : World) (period : Nat) (hp : 0 < period) (fuel c r size timeout : Nat) (mem : List Byte)
    (h1 : size ≤ mem.length) (h2 : size < 65536) (h3 : timeout < 65536) (h : w.read r size = none)
    (hl : mem.length ≤ 65535) :
    runCalls w period fuel c r mem [.receive size timeout] = .ok ([mem], [size]) ∧ w.delivered r [size] = [] := by
  obtain ⟨ticks, n, m, s', k1, -, -, -, -, k6⟩ := Device.packetReceive_exact_partial (w.driver r size) period hp 0
    size timeout h2 h3 mem h1 ⟨[], fun _ => true⟩ ⟨fun b hb => by simp [World.driver, h] at hb, .inr ⟨0, by omega, rfl⟩⟩
  have e : (w.driver r size).received [] = none := h
  rw [e] at k6
  obtain ⟨rfl, rfl⟩ := k6
  refine ⟨?_, by simp [World.delivered, h]⟩
  simp only [runCalls, Call.run, k1, Res.bind_ok]
  rw [List.take_of_length_le (by omega)]
  rfl

/-- A header of two bytes and a line after it, delivered in pieces. -/
def sample : World :=
  ⟨fun _ => 0, fun k n => if k = 0 then some ([1, 2].take n) else if k = 1 ∧ n = 1 then none else some ([3 + 7 * (BitVec.ofNat 8 k - 2)].take n)⟩

example : runCalls sample 10 10 0 0 [0, 0, 0] [.receive 2 100, .packet (.until 3 10 0)] =
    .ok ([[1, 2], [3, 10]], [2, 1, 1, 1]) ∧ sample.delivered 0 [2, 1, 1, 1] = [1, 2, 3, 10] := by decide

example : sample.Documented := by
  intro k n bs h
  simp only [sample] at h
  split at h
  · cases h; simp; omega
  · split at h
    · cases h
    · cases h; simp; omega

example : ∀ k, sample.read k 2 ≠ none := by
  intro k
  simp only [sample]
  split <;> simp

end Verif.Uart.Esp.Mixed
