import Verif.Uart.DeviceProps
import Verif.Uart.EspProps
/-!
# C66: the counts reported by `Receive` and `Send` on ESP32

`esp32-esp-idf/PacketUart.cpp` lines 10-18 on top of the device of C75, over an arbitrary driver.
-/
namespace Verif.Uart.Device
open Verif

/-! ## The code -/

/-- PacketUart.cpp:10-13 `Receive`: `bufferSize` and `timeout` are 16-bit, the result is converted to 16 bits. -/
def packetReceive (drv : Driver) (period : Nat) (port : Int) (bufferSize timeout : Nat) (mem : List Byte) (s : St) :
    Res (Nat × List Byte × St) := do
  let (r, mem, s) ← receiveBlocking drv period port bufferSize (BitVec.ofNat 32 timeout) mem s
  .ok (Esp.countResult r, mem, s)

/-- PacketUart.cpp:15-18 `Send`: the time-out is ignored. -/
def packetSend (drv : Driver) (port : Int) (data : List Byte) (bufferSize : Nat) (_timeout : BitVec 32) (s : St) :
    Res (Nat × St) := do
  let (r, s) ← sendBlocking drv port data bufferSize s
  .ok (Esp.countResult r, s)

/-! ## Specification -/

/-- What a bulk transfer has done: it failed, or it has transferred so many bytes. -/
inductive Outcome where
  | failed
  | moved (n : Nat)
deriving DecidableEq, Repr

/-- The outcome of the read made after some calls. -/
def readOutcome (drv : Driver) (calls : List Ev) : Outcome :=
  match drv.received calls with
  | none => .failed
  | some bs => .moved bs.length

/-- A driver as the vendor documents it: a read stores at most the bytes asked for; a write accepts at most the bytes
given, or fails with -1. -/
structure Documented (drv : Driver) (size : Nat) (calls : List Ev) : Prop where
  reads : ∀ bs, drv.received calls = some bs → bs.length ≤ size
  writes : drv.written calls = -1 ∨ ∃ n : Nat, n ≤ size ∧ drv.written calls = n

/-! ## Theorems -/

/-- **C66**: `Receive` makes one read of the whole buffer, with the time-out in whole ticks; what was read is at the
front of the buffer and the rest of the buffer is as before; the result is the number of bytes read - except that a
failure, which stores nothing, is reported as 65535 bytes. -/
theorem packetReceive_exact_partial (drv : Driver) (period : Nat) (hp : 0 < period) (port : Int) (size timeout : Nat)
    (hs : size < 65536) (ht : timeout < 65536) (mem : List Byte) (hm : size ≤ mem.length) (s : St)
    (hd : Documented drv size s.calls) :
    ∃ ticks n mem' s', packetReceive drv period port size timeout mem s = .ok (n, mem', s') ∧
      s'.calls = s.calls ++ [.read port size ticks] ∧ s'.installed = s.installed ∧
      ticks * period ≤ timeout ∧ timeout < (ticks + 1) * period ∧
      match drv.received s.calls with
      | some bs => n = bs.length ∧ n ≤ size ∧ mem' = bs ++ mem.drop n
      | none => n = 65535 ∧ mem' = mem := by
  obtain ⟨ticks, n, mem', s', k1, k2, k3, k4, k5, k6, k7⟩ :=
    receive_exact drv period hp port size (BitVec.ofNat 32 timeout) mem s hm hd.reads
  have et : (BitVec.ofNat 32 timeout).toNat = timeout := by
    rw [BitVec.toNat_ofNat]; exact Nat.mod_eq_of_lt (by omega)
  rw [et] at k4 k5
  refine ⟨ticks, Esp.countResult n, mem', s', ?_, k2, k3, k4, k5, ?_⟩
  · unfold packetReceive; rw [k1]; rfl
  · cases hr : drv.received s.calls with
    | none =>
      obtain ⟨rfl, rfl⟩ := k7 hr
      exact ⟨Esp.error_reported_as_count, rfl⟩
    | some bs =>
      obtain ⟨rfl, rfl⟩ := k6 bs hr
      have := hd.reads bs hr
      have e := Esp.count_passed_on bs.length (by omega)
      exact ⟨e, by omega, by rw [e]⟩

/-- **C66**: `Send` makes one write of exactly the data, waits for the end of the transmission if something was accepted,
and returns the number of bytes accepted - except that a failure is reported as 65535 bytes.  The time-out has no
influence. -/
theorem packetSend_exact_partial (drv : Driver) (port : Int) (data : List Byte) (size : Nat) (hs : size < 65536)
    (hl : size ≤ data.length) (timeout : BitVec 32) (s : St) (hd : Documented drv size s.calls) :
    ∃ n s', packetSend drv port data size timeout s = .ok (n, s') ∧ s'.installed = s.installed ∧
      ((drv.written s.calls = -1 ∧ n = 65535 ∧ s'.calls = s.calls ++ [.write port (data.take size)]) ∨
       (drv.written s.calls = n ∧ n ≤ size ∧
        s'.calls = s.calls ++ .write port (data.take size) :: if n = 0 then [] else [.waitTxDone port])) := by
  obtain ⟨s', k1, k2, k3, k4⟩ := send_exact drv port data size s hl
  refine ⟨Esp.countResult (drv.written s.calls), s', ?_, k2, ?_⟩
  · unfold packetSend; rw [k1]; rfl
  · rcases hd.writes with hw | ⟨n, hn, hw⟩
    · refine .inl ⟨hw, by rw [hw]; exact Esp.error_reported_as_count, k4 (by omega)⟩
    · have e : Esp.countResult (drv.written s.calls) = n := by rw [hw]; exact Esp.count_passed_on n (by omega)
      refine .inr ⟨by rw [e, hw], by omega, ?_⟩
      rw [e]
      by_cases h0 : n = 0
      · rw [if_pos h0]; exact k4 (by omega)
      · rw [if_neg h0]; exact k3 (by omega)

/-- **C66** is false of the code: whenever the driver fails, the count `Receive` reports is larger than the buffer (one of
65535 bytes apart), and nothing was received. -/
theorem receive_overreports (drv : Driver) (period : Nat) (hp : 0 < period) (port : Int) (size timeout : Nat)
    (hs : size < 65535) (ht : timeout < 65536) (mem : List Byte) (hm : size ≤ mem.length) (s : St)
    (hd : Documented drv size s.calls) :
    ∃ n mem' s', packetReceive drv period port size timeout mem s = .ok (n, mem', s') ∧
      (size < n ↔ readOutcome drv s.calls = .failed) ∧ (n ≤ size → readOutcome drv s.calls = .moved n) := by
  obtain ⟨ticks, n, mem', s', k1, -, -, -, -, k⟩ :=
    packetReceive_exact_partial drv period hp port size timeout (by omega) ht mem hm s hd
  refine ⟨n, mem', s', k1, ?_⟩
  unfold readOutcome
  cases hr : drv.received s.calls with
  | none =>
    rw [hr] at k
    obtain ⟨rfl, -⟩ := k
    exact ⟨⟨fun _ => rfl, fun _ => by omega⟩, fun h => by omega⟩
  | some bs =>
    rw [hr] at k
    obtain ⟨rfl, h2, -⟩ := k
    exact ⟨⟨fun h => by omega, fun h => by simp at h⟩, fun _ => rfl⟩

/-- The only ambiguity: with a buffer of 65535 bytes the caller cannot tell a failure from a full buffer. -/
theorem receive_ambiguous (drv drv' : Driver) (period : Nat) (hp : 0 < period) (port : Int) (timeout : Nat)
    (ht : timeout < 65536) (mem : List Byte) (hm : 65535 ≤ mem.length) (s : St)
    (h : drv.received s.calls = none) (bs : List Byte) (hb : bs.length = 65535) (h' : drv'.received s.calls = some bs)
    (hd : Documented drv 65535 s.calls) (hd' : Documented drv' 65535 s.calls) :
    ∃ m m' s1 s2, packetReceive drv period port 65535 timeout mem s = .ok (65535, m, s1) ∧
      packetReceive drv' period port 65535 timeout mem s = .ok (65535, m', s2) := by
  obtain ⟨_, n, m, s1, k1, -, -, -, -, k⟩ :=
    packetReceive_exact_partial drv period hp port 65535 timeout (by omega) ht mem hm s hd
  obtain ⟨_, n', m', s2, k1', -, -, -, -, k'⟩ :=
    packetReceive_exact_partial drv' period hp port 65535 timeout (by omega) ht mem hm s hd'
  rw [h] at k
  rw [h'] at k'
  obtain ⟨rfl, -⟩ := k
  obtain ⟨e, -, -⟩ := k'
  refine ⟨m, m', s1, s2, k1, ?_⟩
  rw [k1', e, hb]

/-! ### Concrete cases -/

example : (packetReceive good 10 1 4 25 [9, 9, 9, 9, 9] ⟨[], fun _ => true⟩).bind
    (fun r => .ok (r.1, r.2.1, r.2.2.calls)) =
    .ok (2, [1, 2, 9, 9, 9], [.read 1 4 2]) := by decide

example : (packetReceive { good with received := fun _ => none } 10 1 4 25 [9, 9, 9, 9] ⟨[], fun _ => true⟩).bind
    (fun r => .ok (r.1, r.2.1)) = .ok (65535, [9, 9, 9, 9]) := by decide

example : (packetSend good 1 [7, 8, 9] 2 0 ⟨[], fun _ => true⟩).bind
    (fun r => .ok (r.1, r.2.calls)) =
    .ok (2, [.write 1 [7, 8], .waitTxDone 1]) := by decide

example : Documented good 2 [] := ⟨fun bs h => by cases h; decide, .inr ⟨2, by omega, rfl⟩⟩

end Verif.Uart.Device
