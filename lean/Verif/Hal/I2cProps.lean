import Verif.Hal.I2c
/-!
# C60: combined I2C transfers
-/
namespace Verif.Hal.I2c
open Verif

namespace Arduino

/-- The bytes read by `n` calls of `read` after the calls `before`. -/
def readBytes (bus : Bus) : List Ev → Nat → List Byte
  | _, 0 => []
  | before, n + 1 => BitVec.ofInt 8 (bus.byte before) :: readBytes bus (before ++ [.read]) n

theorem readBytes_length (bus : Bus) (before : List Ev) (n : Nat) : (readBytes bus before n).length = n := by
  induction n generalizing before with
  | zero => rfl
  | succ n ih => simp [readBytes, ih]

theorem readLoop_exact (bus : Bus) (rx0 : List Byte) (n : Nat) (calls : List Ev) (got : List Byte)
    (h : got.length + n ≤ rx0.length) :
    readLoop bus n got.length ⟨calls, got ++ rx0.drop got.length⟩ =
      .ok ⟨calls ++ List.replicate n .read, got ++ readBytes bus calls n ++ rx0.drop (got.length + n)⟩ := by
  induction n generalizing calls got with
  | zero => simp [readLoop, readBytes]
  | succ n ih =>
    unfold readLoop
    rw [if_pos (by simp; omega)]
    have hset : (rx0.drop got.length).set 0 (BitVec.ofInt 8 (bus.byte calls)) =
        BitVec.ofInt 8 (bus.byte calls) :: rx0.drop (got.length + 1) := by
      rw [List.drop_eq_getElem_cons (show got.length < rx0.length by omega), List.set_cons_zero]
    simp only
    rw [List.set_append_right _ _ (Nat.le_refl _), Nat.sub_self, hset]
    have := ih (calls ++ [.read]) (got ++ [BitVec.ofInt 8 (bus.byte calls)]) (by simp; omega)
    simp only [List.length_append, List.length_singleton, List.append_assoc, List.singleton_append] at this
    rw [this]
    simp [readBytes, List.replicate_succ, Nat.add_assoc, Nat.add_comm 1 n]

/-- A write succeeds iff all bytes were accepted and the transmission ended without error; exactly the `count` bytes
are handed over, in one transmission. -/
theorem sendSync_exact (bus : Bus) (address : BitVec 16) (data : List Byte) (count : Nat) (s : St)
    (h : count ≤ data.length) :
    ∃ ok, sendSync bus address data count s = .ok (ok, { s with calls :=
        s.calls ++ [.beginTransmission address, .write (data.take count), .endTransmission true] }) ∧
      (ok = true ↔ bus.written (s.calls ++ [.beginTransmission address]) = count ∧
        bus.ended (s.calls ++ [.beginTransmission address, .write (data.take count)]) = 0) := by
  refine ⟨_, by unfold sendSync; rw [if_neg (by omega)]; simp; rfl, ?_⟩
  simp [and_comm]

/-- A read either receives `count` bytes and stores exactly these, or fails and leaves the buffer untouched. -/
theorem receiveSync_exact (bus : Bus) (address : BitVec 16) (count : Nat) (s : St) (h : count ≤ s.rx.length) :
    receiveSync bus address count s =
      if bus.received s.calls = count then
        .ok (true, ⟨s.calls ++ [.requestFrom address.toNat count] ++ List.replicate count .read,
          readBytes bus (s.calls ++ [.requestFrom address.toNat count]) count ++ s.rx.drop count⟩)
      else .ok (false, ⟨s.calls ++ [.requestFrom address.toNat count], s.rx⟩) := by
  unfold receiveSync
  by_cases hr : bus.received s.calls = count
  · simp only [hr, ne_eq, not_true_eq_false, if_false, if_true]
    have := readLoop_exact bus s.rx count (s.calls ++ [.requestFrom address.toNat count]) [] (by simpa using h)
    simp only [List.length_nil, List.drop_zero, List.nil_append, Nat.zero_add] at this
    rw [this]; rfl
  · simp only [ne_eq, hr, not_false_eq_true, if_true, if_false]

/-- **C60** (Arduino): the read is issued iff the write succeeded; true is returned iff both succeeded; the buffer
changes only in that case. -/
theorem sendThenReceive_exact (bus : Bus) (address : BitVec 16) (tx : List Byte) (txCount rxCount : Nat) (s : St)
    (htx : txCount ≤ tx.length) (hrx : rxCount ≤ s.rx.length) :
    ∃ ok s', sendThenReceive (sendSync bus address tx txCount) (receiveSync bus address rxCount) s = .ok (ok, s') ∧
      (let c1 := s.calls ++ [.beginTransmission address]
       let c2 := c1 ++ [.write (tx.take txCount)]
       let c3 := c2 ++ [.endTransmission true]
       let c4 := c3 ++ [.requestFrom address.toNat rxCount]
       let wrote := bus.written c1 = txCount ∧ bus.ended c2 = 0
       (ok = true ↔ wrote ∧ bus.received c3 = rxCount) ∧
       (¬ wrote → s'.calls = c3) ∧
       (wrote → ∃ rest, s'.calls = c4 ++ rest ∧ ∀ e ∈ rest, e = .read) ∧
       (ok = true → s'.rx = readBytes bus c4 rxCount ++ s.rx.drop rxCount) ∧
       (ok = false → s'.rx = s.rx)) := by
  obtain ⟨ok, h1, h2⟩ := sendSync_exact bus address tx txCount s htx
  unfold sendThenReceive
  rw [h1]
  simp only [Res.bind_ok]
  cases ok with
  | false =>
    refine ⟨false, _, rfl, ?_⟩
    have hw : ¬ (bus.written (s.calls ++ [.beginTransmission address]) = txCount ∧
        bus.ended (s.calls ++ [.beginTransmission address] ++ [.write (tx.take txCount)]) = 0) := by
      simp only [Bool.false_eq_true, false_iff] at h2
      simpa using h2
    simp only
    refine ⟨by simp only [Bool.false_eq_true, false_iff]; intro h; exact hw h.1, ?_, fun h => absurd h hw, by simp,
      by simp⟩
    intro _; simp
  | true =>
    have hw : bus.written (s.calls ++ [.beginTransmission address]) = txCount ∧
        bus.ended (s.calls ++ [.beginTransmission address] ++ [.write (tx.take txCount)]) = 0 := by
      simpa using h2
    have h3 := receiveSync_exact bus address rxCount
      ⟨s.calls ++ [.beginTransmission address, .write (tx.take txCount), .endTransmission true], s.rx⟩ hrx
    simp only [if_true]
    rw [h3]
    have hc : s.calls ++ [.beginTransmission address, .write (tx.take txCount), .endTransmission true] =
        s.calls ++ [.beginTransmission address] ++ [.write (tx.take txCount)] ++ [.endTransmission true] := by simp
    simp only [hc]
    by_cases hr : bus.received (s.calls ++ [.beginTransmission address] ++ [.write (tx.take txCount)] ++
        [.endTransmission true]) = rxCount
    · rw [if_pos hr]
      refine ⟨true, _, rfl, ⟨fun _ => ⟨hw, hr⟩, fun _ => rfl⟩, fun h => absurd hw h,
        fun _ => ⟨_, rfl, fun e he => (List.mem_replicate.1 he).2⟩, fun _ => rfl, by simp⟩
    · rw [if_neg hr]
      refine ⟨false, _, rfl, ⟨by simp, fun h => absurd h.2 hr⟩, fun h => absurd hw h,
        fun _ => ⟨[], by simp, by simp⟩, by simp, fun _ => rfl⟩

/-- A register read of two bytes. -/
example : sendThenReceive (sendSync ⟨fun _ => 1, fun _ => 0, fun _ => 2, fun l => l.length⟩ 0x76 [0xD0] 1)
    (receiveSync ⟨fun _ => 1, fun _ => 0, fun _ => 2, fun l => l.length⟩ 0x76 2) ⟨[], [9, 9, 9]⟩ =
    .ok (true, ⟨[.beginTransmission 0x76, .write [0xD0], .endTransmission true, .requestFrom 0x76 2, .read, .read],
      [4, 5, 9]⟩) := by decide

/-- The device does not acknowledge: nothing is read. -/
example : sendThenReceive (sendSync ⟨fun _ => 1, fun _ => 2, fun _ => 2, fun l => l.length⟩ 0x76 [0xD0] 1)
    (receiveSync ⟨fun _ => 1, fun _ => 2, fun _ => 2, fun l => l.length⟩ 0x76 2) ⟨[], [9, 9, 9]⟩ =
    .ok (false, ⟨[.beginTransmission 0x76, .write [0xD0], .endTransmission true], [9, 9, 9]⟩) := by decide

end Arduino

namespace Esp

/-- **C60** (ESP32). -/
theorem sendThenReceive_exact (bus : Bus) (period : Nat) (address : BitVec 16) (timeout : BitVec 32) (tx : List Byte)
    (txCount rxCount : Nat) (s : St) (htx : txCount ≤ tx.length) (hrx : rxCount ≤ s.rx.length) :
    ∃ ok s', sendThenReceive (sendSync bus period address timeout tx txCount)
        (receiveSync bus period address timeout rxCount) s = .ok (ok, s') ∧
      (let w := Ev.write address (tx.take txCount) (timeout.toNat / period)
       let r := Ev.read address rxCount (timeout.toNat / period)
       (ok = true ↔ bus.write s.calls = true ∧ bus.read (s.calls ++ [w]) ≠ none) ∧
       (s'.calls = if bus.write s.calls then s.calls ++ [w] ++ [r] else s.calls ++ [w]) ∧
       (ok = true → ∃ f, bus.read (s.calls ++ [w]) = some f ∧ s'.rx = (List.range rxCount).map f ++ s.rx.drop rxCount) ∧
       (ok = false → s'.rx = s.rx)) := by
  unfold sendThenReceive sendSync
  rw [if_neg (by omega)]
  simp only [Res.bind_ok]
  cases hw : bus.write s.calls with
  | false =>
    refine ⟨false, _, rfl, ?_⟩
    simp
  | true =>
    simp only [if_true, receiveSync]
    cases hr : bus.read (s.calls ++ [.write address (tx.take txCount) (timeout.toNat / period)]) with
    | none => exact ⟨false, _, rfl, by simp⟩
    | some f =>
      simp only
      rw [if_pos hrx]
      exact ⟨true, _, rfl, by simp⟩

/-- The probe addresses exactly the seven-bit address, for writing; the eighth bit of the argument is lost. -/
theorem addressByte_exact (address : BitVec 8) :
    (addressByte address).toNat = 2 * (address.toNat % 128) := by
  revert address; decide +kernel

example : sendThenReceive (sendSync ⟨fun _ => true, fun _ => some (fun i => BitVec.ofNat 8 (7 + i))⟩ 10 0x76 200 [0xD0] 1)
    (receiveSync ⟨fun _ => true, fun _ => some (fun i => BitVec.ofNat 8 (7 + i))⟩ 10 0x76 200 2) ⟨[], [9, 9, 9]⟩ =
    .ok (true, ⟨[.write 0x76 [0xD0] 20, .read 0x76 2 20], [7, 8, 9]⟩) := by decide

end Esp

end Verif.Hal.I2c
