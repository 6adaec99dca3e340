import Verif.Spi.Device
import Verif.Spi.ArduinoProps
import Verif.Spi.EspProps
/-!
# C78: the SPI device on both platforms
-/
namespace Verif.Spi.Device
open Verif

namespace Arduino
open Verif.Spi.Arduino

/-- **C78** (Arduino): the three functions, for every peer, data and length. -/
theorem device_exact (peer : Peer) (tx rx : List Byte) (n : BitVec 16) (bus : List Ev) (ht : n.toNat ≤ tx.length)
    (hr : n.toNat ≤ rx.length) :
    sendSync peer tx n bus = .ok (true, bus ++ [.beginTransaction] ++
      exchanges peer (sentBytes bus) (tx.take n.toNat) ++ [.endTransaction]) ∧
    receiveSync peer rx n bus = .ok (true,
      some (answers peer (sentBytes bus) (List.replicate n.toNat 0xFF) ++ rx.drop n.toNat),
      bus ++ [.beginTransaction] ++ exchanges peer (sentBytes bus) (List.replicate n.toNat 0xFF) ++ [.endTransaction]) ∧
    sendAndReceive peer tx rx n bus = .ok (true,
      some (answers peer (sentBytes bus) (tx.take n.toNat) ++ rx.drop n.toNat),
      bus ++ [.beginTransaction] ++ exchanges peer (sentBytes bus) (tx.take n.toNat) ++ [.endTransaction]) := by
  have rt : Room (some tx) n.toNat := by intro l h; cases h; exact ht
  have rr : Room (some rx) n.toNat := by intro l h; cases h; exact hr
  have rn : Room none n.toNat := by intro l h; cases h
  refine ⟨?_, ?_, ?_⟩
  · unfold sendSync
    rw [transfer_exact peer (some tx) none n.toNat bus (by simp) rt rn]
    rfl
  · unfold receiveSync
    rw [transfer_exact peer none (some rx) n.toNat bus (by simp) rn rr]
    rfl
  · unfold sendAndReceive
    rw [transfer_exact peer (some tx) (some rx) n.toNat bus (by simp) rt rr]
    rfl

theorem bytesInPlace_eq (peer : Peer) (tx : List Byte) (n i : Nat) (m : List Byte) (bus : List Ev)
    (hl : m.length = tx.length) (hi : ∀ j, i ≤ j → m[j]? = tx[j]?) (hn : i + n ≤ tx.length) :
    ∃ m' bus', bytesInPlace peer n i m bus = .ok (m', bus') ∧ bytes peer (some tx) n i (some m) bus = .ok (some m', bus') ∧
      m'.length = tx.length ∧ ∀ j, i + n ≤ j → m'[j]? = tx[j]? := by
  induction n generalizing i m bus with
  | zero => exact ⟨m, bus, rfl, rfl, hl, fun j hj => hi j (by omega)⟩
  | succ n ih =>
    have hb : m[i]? = some (tx[i]'(by omega)) := by rw [hi i (Nat.le_refl _)]; simp
    have hb2 : tx[i]? = some (tx[i]'(by omega)) := by simp
    obtain ⟨m', bus', k1, k2, k3, k4⟩ := ih (i + 1) (m.set i (exchange peer bus (tx[i]'(by omega))).1)
      (exchange peer bus (tx[i]'(by omega))).2 (by simpa using hl)
      (fun j hj => by rw [List.getElem?_set_ne (by omega)]; exact hi j (by omega)) (by omega)
    refine ⟨m', bus', ?_, ?_, k3, fun j hj => k4 j (by omega)⟩
    · unfold bytesInPlace; rw [hb]; exact k1
    · unfold bytes
      simp only [source, hb2, Res.ofOption, Res.bind_ok, sink]
      rw [if_pos (by omega)]
      exact k2

/-- **C78** (Arduino): with one buffer for both directions the same bytes are sent and received as with two. -/
theorem in_place_exact (peer : Peer) (data : List Byte) (n : BitVec 16) (bus : List Ev) (h : n.toNat ≤ data.length) :
    sendAndReceiveInPlace peer data n bus = .ok (true,
      answers peer (sentBytes bus) (data.take n.toNat) ++ data.drop n.toNat,
      bus ++ [.beginTransaction] ++ exchanges peer (sentBytes bus) (data.take n.toNat) ++ [.endTransaction]) := by
  have rt : Room (some data) n.toNat := by intro l hh; cases hh; exact h
  have hs : sentBytes (bus ++ [.beginTransaction]) = sentBytes bus := by
    rw [sentBytes_append]; simp [sentBytes]
  have key := move_ok peer (some data) (some data) n.toNat (bus ++ [.beginTransaction]) rt rt
  rw [hs] at key
  have hin : incoming (some data) (answers peer (sentBytes bus) (outgoing (some data) n.toNat)) =
      some (answers peer (sentBytes bus) (data.take n.toNat) ++ data.drop n.toNat) := by
    unfold incoming
    rw [answers_length, outgoing_length rt]; rfl
  rw [hin] at key
  unfold sendAndReceiveInPlace
  unfold move at key
  by_cases h3 : n.toNat ≤ 3
  · simp only [h3, if_true] at key ⊢
    obtain ⟨m', bus', k1, k2, -, -⟩ := bytesInPlace_eq peer data n.toNat 0 data (bus ++ [.beginTransaction]) rfl
      (fun _ _ => rfl) (by omega)
    rw [k2] at key
    simp only [Res.ok.injEq, Prod.mk.injEq, Option.some.injEq] at key
    rw [k1, Res.bind_ok, key.1, key.2]
    rfl
  · simp only [h3, if_false] at key ⊢
    obtain ⟨m1, bus1, k1, k2, k3, k4⟩ := bytesInPlace_eq peer data (n.toNat / 4 * 4) 0 data (bus ++ [.beginTransaction]) rfl
      (fun _ _ => rfl) (by omega)
    rw [k2, Res.bind_ok] at key
    rw [k1, Res.bind_ok]
    simp only at key ⊢
    by_cases h4 : n.toNat % 4 ≠ 0
    · rw [if_pos h4] at key ⊢
      obtain ⟨m2, bus2, j1, j2, -, -⟩ := bytesInPlace_eq peer data (n.toNat % 4) (n.toNat / 4 * 4) m1 bus1 k3
        (fun j hj => k4 j (by omega)) (by omega)
      rw [j2] at key
      simp only [Res.ok.injEq, Prod.mk.injEq, Option.some.injEq] at key
      rw [j1, Res.bind_ok, key.1, key.2]
      rfl
    · rw [if_neg h4] at key ⊢
      simp only [Res.ok.injEq, Prod.mk.injEq, Option.some.injEq] at key
      rw [Res.bind_ok, key.1, key.2]
      rfl

end Arduino

namespace Esp
open Verif.Spi.Esp

/-- A bus after a successful `init`. -/
structure Ready (b : Bus) : Prop where
  size : b.maxSize = lldescMax
  handle : b.handle = true
  device : b.hw.device = true

theorem Ready.transfer {b : Bus} (h : Ready b) (drv : Driver) (tx : List Byte) (send recv : Bool) (length : BitVec 32)
    (s : St) : b.transfer drv tx send recv length s = Esp.transfer drv b.maxSize tx send recv length s := by
  unfold Bus.transfer Bus.answers
  rw [if_neg (by simp [h.device]), if_pos h.handle]

theorem init_ready (hw : Hw) (ok1 ok2 : Bool) (h : ((Bus.new hw).init ok1 ok2).1 = true) :
    Ready ((Bus.new hw).init ok1 ok2).2 := by
  unfold Bus.init at h ⊢
  simp only at h ⊢
  split
  · rename_i hc; rw [if_pos hc] at h; cases h
  · rename_i hc
    rw [if_neg hc] at h
    split
    · rename_i hc2; rw [if_pos hc2] at h; cases h
    · exact ⟨rfl, rfl, rfl⟩

/-- The driver answers each byte as `peer` does, knowing all bytes sent before. -/
def Answers (drv : Driver) (peer : List Byte → Byte) (tx : List Byte) : Prop :=
  ∀ k, ∃ f, drv k = some f ∧ ∀ j, f j = peer (tx.take (4092 * k + j))

theorem answered_peer (drv : Driver) (peer : List Byte → Byte) (tx : List Byte) (h : Answers drv peer tx) (n k : Nat)
    (hn : 4092 * k + n ≤ tx.length) :
    answered drv k (pieces 4092 n) = Verif.Spi.Arduino.answers peer (tx.take (4092 * k)) ((tx.drop (4092 * k)).take n) ∧
    allAccepted drv k (pieces 4092 n) = true := by
  induction n using Nat.strongRecOn generalizing k with
  | _ n ih =>
    have piece : ∀ (c off : Nat) (f : Nat → Byte), off + c ≤ tx.length → (∀ j, f j = peer (tx.take (off + j))) →
        (List.range c).map f = Verif.Spi.Arduino.answers peer (tx.take off) ((tx.drop off).take c) := by
      intro c off f hc hf
      apply List.ext_getElem?
      intro i
      by_cases hi : i < c
      · rw [Verif.Spi.Arduino.answers_get _ _ _ i (by simp; omega)]
        rw [List.getElem?_map, List.getElem?_range hi, Option.map_some, hf]
        congr 2
        rw [List.take_take, Nat.min_eq_left (by omega), ← List.take_add]
      · rw [List.getElem?_eq_none (by simp; omega), List.getElem?_eq_none (by
          rw [Verif.Spi.Arduino.answers_length]; simp; omega)]
    obtain ⟨f, hf1, hf2⟩ := h k
    by_cases h0 : n = 0
    · subst h0
      simp [pieces_zero, answered, allAccepted, Verif.Spi.Arduino.answers]
    · rw [pieces_pos (by decide) (by omega)]
      unfold answered allAccepted
      rw [hf1]
      by_cases hle : n ≤ 4092
      · rw [Nat.min_eq_left hle, Nat.sub_self, pieces_zero]
        refine ⟨?_, by simp [allAccepted]⟩
        simp only [answered, List.append_nil]
        exact piece n (4092 * k) f hn hf2
      · rw [Nat.min_eq_right (by omega)]
        obtain ⟨i1, i2⟩ := ih (n - 4092) (by omega) (k + 1) (by omega)
        refine ⟨?_, by simp [i2]⟩
        simp only
        rw [i1, piece 4092 (4092 * k) f (by omega) hf2]
        have e1 : (tx.drop (4092 * k)).take n =
            (tx.drop (4092 * k)).take 4092 ++ (tx.drop (4092 * (k + 1))).take (n - 4092) := by
          rw [show n = 4092 + (n - 4092) by omega, List.take_add, List.drop_drop,
            show 4092 * k + 4092 = 4092 * (k + 1) by omega, Nat.add_sub_cancel_left]
        have e2 : tx.take (4092 * (k + 1)) = tx.take (4092 * k) ++ (tx.drop (4092 * k)).take 4092 := by
          rw [show 4092 * (k + 1) = 4092 * k + 4092 by omega, List.take_add]
        rw [e1, Verif.Spi.Arduino.answers_append, e2]

/-- **C78** (ESP32): the three functions, for every driver, data and length: the data sent is submitted in pieces,
the answers are stored from the start of the receive buffer, success means that the driver accepted every piece. -/
theorem device_exact (drv : Driver) (b : Bus) (hb : Ready b) (tx rx : List Byte) (n : BitVec 16)
    (ht : n.toNat ≤ tx.length) (hr : n.toNat ≤ rx.length) (log : List Submission) :
    sendSync drv b tx n log = .ok (allAccepted drv log.length (pieces 4092 n.toNat),
      log ++ submitted drv tx true false log.length 0 (pieces 4092 n.toNat)) ∧
    receiveSync drv b rx n log = .ok (allAccepted drv log.length (pieces 4092 n.toNat),
      ⟨answered drv log.length (pieces 4092 n.toNat) ++ rx.drop (answered drv log.length (pieces 4092 n.toNat)).length,
        log ++ submitted drv [] false true log.length 0 (pieces 4092 n.toNat)⟩) ∧
    sendAndReceive drv b tx rx n log = .ok (allAccepted drv log.length (pieces 4092 n.toNat),
      ⟨answered drv log.length (pieces 4092 n.toNat) ++ rx.drop (answered drv log.length (pieces 4092 n.toNat)).length,
        log ++ submitted drv tx true true log.length 0 (pieces 4092 n.toNat)⟩) := by
  have hl : b.maxSize.toNat = 4092 := by rw [hb.size]; rfl
  have hn : (n.setWidth 32).toNat = n.toNat := by
    rw [BitVec.toNat_setWidth]; exact Nat.mod_eq_of_lt (by have := n.isLt; omega)
  have e := fun tx' rx' s r h1 h2 => transfer_exact drv b.maxSize (by omega) (by omega) tx' rx' s r (n.setWidth 32) h1 h2 log
  rw [hl, hn] at e
  refine ⟨?_, ?_, ?_⟩
  · unfold sendSync
    rw [hb.transfer, hn, e tx [] true false (fun _ => ht) (by simp)]
    rfl
  · unfold receiveSync
    rw [hb.transfer, hn, e [] rx false true (by simp) (fun _ => hr)]
    rfl
  · unfold sendAndReceive
    rw [hb.transfer, hn, e tx rx true true (fun _ => ht) (fun _ => hr)]
    rfl

/-- **C78**: connected to the same device, both platforms put the same bytes on the wire, in the same order, deliver the
same answers and report success – although one sends byte by byte and the other in pieces of 4092 bytes. -/
theorem platforms_agree (drv : Driver) (peer : List Byte → Byte) (b : Bus) (hb : Ready b) (tx rx : List Byte)
    (n : BitVec 16) (ht : n.toNat ≤ tx.length) (hr : n.toNat ≤ rx.length) (hd : Answers drv peer tx) :
    ∃ rx' s busA, sendAndReceive drv b tx rx n [] = .ok (true, s) ∧
      Arduino.sendAndReceive peer tx rx n [] = .ok (true, some rx', busA) ∧
      s.rx = rx' ∧ wire s.log = Verif.Spi.Arduino.sentBytes busA ∧ wire s.log = tx.take n.toNat := by
  have hl : b.maxSize.toNat = 4092 := by rw [hb.size]; rfl
  have hn : (n.setWidth 32).toNat = n.toNat := by
    rw [BitVec.toNat_setWidth]; exact Nat.mod_eq_of_lt (by have := n.isLt; omega)
  obtain ⟨ok, s, k1, k2, -, -⟩ := transfer_wire drv b.maxSize (by omega) (by omega) tx rx true (n.setWidth 32)
    (by omega) (fun _ => by omega)
  have e := transfer_exact drv b.maxSize (by omega) (by omega) tx rx true true (n.setWidth 32) (fun _ => by omega)
    (fun _ => by omega) []
  rw [hl, hn] at e
  obtain ⟨a1, a2⟩ := answered_peer drv peer tx hd n.toNat 0 (by omega)
  simp only [List.length_nil, List.nil_append, if_true, Nat.mul_zero, List.take_zero, List.drop_zero] at e a1
  rw [a2] at e
  rw [hn, e] at k1
  simp only [Res.ok.injEq, Prod.mk.injEq] at k1
  obtain ⟨rfl, rfl⟩ := k1
  rw [hn] at k2
  refine ⟨_, _, _, by unfold sendAndReceive; rw [hb.transfer, hn]; exact e, (Arduino.device_exact peer tx rx n [] ht hr).2.2, ?_, ?_, k2 rfl⟩
  · simp only [a1, Verif.Spi.Arduino.sentBytes]
    rw [Verif.Spi.Arduino.answers_length]
    simp [Nat.min_eq_left ht]
  · rw [k2 rfl]
    simp [Verif.Spi.Arduino.sentBytes_append, Verif.Spi.Arduino.sentBytes_exchanges, Verif.Spi.Arduino.sentBytes]

/-- **C78** (ESP32): through an object without a device handle – never initialised, initialised without success, or whose
release failed – nothing is transferred, and every call with something to transfer reports failure. -/
theorem no_handle_refused (drv : Driver) (b : Bus) (h : b.handle = false) (tx rx : List Byte) (n : BitVec 16) (hn : n ≠ 0)
    (log : List Submission) :
    (∃ t, sendSync drv b tx n log = .ok (false, log ++ [⟨t, [], false⟩])) ∧
    (∃ t, receiveSync drv b rx n log = .ok (false, ⟨rx, log ++ [⟨t, [], false⟩]⟩)) ∧
    (∃ t, sendAndReceive drv b tx rx n log = .ok (false, ⟨rx, log ++ [⟨t, [], false⟩]⟩)) := by
  have h0 : n.setWidth 32 ≠ 0 := by
    intro h
    apply hn
    apply BitVec.eq_of_toNat_eq
    have := congrArg BitVec.toNat h
    rw [BitVec.toNat_setWidth, Nat.mod_eq_of_lt (by have := n.isLt; omega)] at this
    simpa using this
  refine ⟨?_, ?_, ?_⟩
  · obtain ⟨t, e⟩ := Bus.transfer_no_handle drv b h tx true false _ h0 ⟨[], log⟩
    exact ⟨t, by unfold sendSync; rw [e]; rfl⟩
  · exact Bus.transfer_no_handle drv b h [] false true _ h0 ⟨rx, log⟩
  · exact Bus.transfer_no_handle drv b h tx true true _ h0 ⟨rx, log⟩

example : (Bus.new ⟨false, false⟩).handle = false := rfl

/-- A driver connected to a device answering with the number of bytes it has seen. -/
example : Answers (fun k => some (fun j => BitVec.ofNat 8 (min (4092 * k + j) 3))) (fun l => BitVec.ofNat 8 l.length)
    [10, 20, 30] := by
  intro k
  exact ⟨_, rfl, fun j => by simp⟩

end Esp

end Verif.Spi.Device
