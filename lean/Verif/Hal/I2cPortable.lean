import Verif.Hal.I2cProps
/-!
# C92: programs using I2C devices on both platforms

`I2CDevice` (I2CDevice.h:10-33) is one interface with two implementations.  Both are connected to the same, arbitrary,
devices: what a device acknowledges and answers may depend on all messages addressed to it before.  `TwoWire` holds the
data of a message in a buffer of `cap` bytes (32 on AVR, 128 on ESP32): `write` accepts what fits, `requestFrom` asks for
no more than fits.
-/
namespace Verif.Hal.I2c.Portable
open Verif Verif.Hal.I2c

/-! ### The devices -/

/-- A message on the bus. -/
inductive Msg where
  | write (data : List Byte)
  | read (n : Nat)
deriving DecidableEq

/-- A device, depending on the messages it has seen: whether it acknowledges all of the data written to it, whether it
answers to being read, and the bytes it answers. -/
structure Dev where
  ack : List Msg → List Byte → Bool
  reads : List Msg → Bool
  answer : List Msg → Nat → Byte

/-- The devices by their addresses; a device which is not there acknowledges nothing. -/
abbrev Net := BitVec 16 → Dev

/-- All messages so far, with the addresses they were sent to. -/
abbrev World := List (BitVec 16 × Msg)

/-- The messages which the device at address `a` has seen. -/
def view (a : BitVec 16) (w : World) : List Msg := (w.filter (·.1 == a)).map (·.2)

/-! ### The calls on both platforms -/

/-- A call of `I2CDevice`; the counts are those of the data and of the receive buffer, cut to 16 bits. -/
inductive Op where
  | send (tx : List Byte)
  | receive (n : BitVec 16)
  | sendThenReceive (tx : List Byte) (n : BitVec 16)
deriving DecidableEq

/-- The count argument. -/
def count (tx : List Byte) : Nat := (BitVec.ofNat 16 tx.length).toNat

/-- The number of bytes sent by a call. -/
def Op.sends : Op → Nat
  | .send tx | .sendThenReceive tx _ => count tx
  | .receive _ => 0

/-- The number of bytes received by a call. -/
def Op.receives : Op → Nat
  | .send _ => 0
  | .receive n | .sendThenReceive _ n => n.toNat

namespace Arduino
open Verif.Hal.I2c.Arduino

/-- The messages caused by calls of `TwoWire`. -/
def messages (cap : Nat) : List Ev → World
  | .beginTransmission a :: .write d :: .endTransmission _ :: es => (a, .write (d.take cap)) :: messages cap es
  | .requestFrom a c :: es => (BitVec.ofInt 16 a, .read (min c.toNat cap)) :: messages cap es
  | _ :: es => messages cap es
  | [] => []

/-- `TwoWire` (vendor) during a call with the given numbers of bytes to the device at address `a`. -/
def wire (net : Net) (cap : Nat) (w : World) (a : BitVec 16) (o : Op) : Bus where
  written _ := min o.sends cap
  ended calls :=
    match calls.reverse with
    | .write d :: .beginTransmission a :: before =>
      if (net a).ack (view a (w ++ messages cap before.reverse)) (d.take cap) then 0 else 2
    | _ => 4
  received calls := if (net a).reads (view a (w ++ messages cap calls)) then min o.receives cap else 0
  byte calls :=
    match calls.reverse.dropWhile (· == .read) with
    | .requestFrom a _ :: before =>
      ((net (BitVec.ofInt 16 a)).answer (view (BitVec.ofInt 16 a) (w ++ messages cap before.reverse))
        (calls.reverse.takeWhile (· == .read)).length).toNat
    | _ => -1

/-- The calls on Arduino: the model of `arduino/I2CDevice.cpp` connected to the devices; the result is `none` when the
call returned false, otherwise the contents of the receive buffer. -/
def call (net : Net) (cap : Nat) (a : BitVec 16) (o : Op) (w : World) : Res (Option (List Byte) × World) := do
  let s : St := ⟨[], List.replicate o.receives 0⟩
  let bus := wire net cap w a o
  let (ok, s) ← (match o with
    | .send tx => sendSync bus a tx (count tx) s
    | .receive n => receiveSync bus a n.toNat s
    | .sendThenReceive tx n =>
      I2c.sendThenReceive (sendSync bus a tx (count tx)) (receiveSync bus a n.toNat) s : Res (Bool × St))
  .ok (if ok then some s.rx else none, w ++ messages cap s.calls)

end Arduino

namespace Esp
open Verif.Hal.I2c.Esp

/-- The messages caused by calls of the driver. -/
def messages : List Ev → World
  | [] => []
  | .write a d _ :: es => (a, .write d) :: messages es
  | .read a n _ :: es => (a, .read n) :: messages es

/-- The driver (vendor) during a call to the device at address `a`. -/
def drv (net : Net) (w : World) (a : BitVec 16) (o : Op) : Bus where
  write calls :=
    match o with
    | .send tx | .sendThenReceive tx _ => (net a).ack (view a (w ++ messages calls)) (tx.take (count tx))
    | .receive _ => false
  read calls :=
    if (net a).reads (view a (w ++ messages calls)) then some ((net a).answer (view a (w ++ messages calls))) else none

/-- The calls on ESP32: the model of `esp32-esp-idf/I2CDevice.cpp` connected to the devices. -/
def call (net : Net) (period : Nat) (timeout : BitVec 32) (a : BitVec 16) (o : Op) (w : World) :
    Res (Option (List Byte) × World) := do
  let s : St := ⟨[], List.replicate o.receives 0⟩
  let bus := drv net w a o
  let (ok, s) ← (match o with
    | .send tx => sendSync bus period a timeout tx (count tx) s
    | .receive n => receiveSync bus period a timeout n.toNat s
    | .sendThenReceive tx n =>
      I2c.sendThenReceive (sendSync bus period a timeout tx (count tx)) (receiveSync bus period a timeout n.toNat) s :
    Res (Bool × St))
  .ok (if ok then some s.rx else none, w ++ messages s.calls)

end Esp

/-- A program: calls to devices, depending on the results of earlier calls. -/
inductive Prog (α : Type) where
  | ret (x : α)
  | call (a : BitVec 16) (o : Op) (k : Option (List Byte) → Prog α)

/-- Execution on a platform. -/
def Prog.run {α : Type} (plat : BitVec 16 → Op → World → Res (Option (List Byte) × World)) :
    Prog α → World → Res (α × World)
  | .ret x, w => .ok (x, w)
  | .call a o k, w => do
    let (r, w) ← plat a o w
    (k r).run plat w

/-! ### Specification -/

/-- Writing to a device over a bus carrying at most `cap` bytes in a message. -/
def sendIdeal (net : Net) (cap : Nat) (a : BitVec 16) (tx : List Byte) (w : World) : Bool × World :=
  let d := tx.take (min (tx.length % 65536) cap)
  (decide (tx.length % 65536 ≤ cap) && (net a).ack (view a w) d, w ++ [(a, .write d)])

/-- Reading from a device over a bus carrying at most `cap` bytes in a message. -/
def receiveIdeal (net : Net) (cap : Nat) (a : BitVec 16) (n : Nat) (w : World) : Option (List Byte) × World :=
  (if n ≤ cap ∧ (net a).reads (view a w) then some ((List.range n).map ((net a).answer (view a w)))
    else if n = 0 then some [] else none, w ++ [(a, .read (min n cap))])

/-- What a call should do. -/
def ideal (net : Net) (cap : Nat) (a : BitVec 16) (o : Op) (w : World) : Option (List Byte) × World :=
  match o with
  | .send tx => (if (sendIdeal net cap a tx w).1 then some [] else none, (sendIdeal net cap a tx w).2)
  | .receive n => receiveIdeal net cap a n.toNat w
  | .sendThenReceive tx n =>
    if (sendIdeal net cap a tx w).1 then receiveIdeal net cap a n.toNat (sendIdeal net cap a tx w).2
    else (none, (sendIdeal net cap a tx w).2)

/-! ### Proofs -/

theorem count_eq (tx : List Byte) : count tx = tx.length % 65536 := by simp [count]

theorem count_le (tx : List Byte) : count tx ≤ tx.length := by rw [count_eq]; exact Nat.mod_le _ _

namespace Arduino
open Verif.Hal.I2c.Arduino

theorem ofInt_toNat (a : BitVec 16) : BitVec.ofInt 16 (a.toNat : Int) = a := by
  apply BitVec.eq_of_toNat_eq
  simp

theorem messages_reads (cap n : Nat) : messages cap (List.replicate n .read) = [] := by
  induction n with
  | zero => rfl
  | succ n ih => rw [List.replicate_succ]; simpa [messages] using ih

theorem readBytes_wire (net : Net) (cap : Nat) (w : World) (a : BitVec 16) (o : Op) (before : List Ev) (c : Int) (n k : Nat)
    : readBytes (wire net cap w a o) (before ++ [.requestFrom a.toNat c] ++ List.replicate k .read) n =
      (List.range n).map fun i => (net a).answer (view a (w ++ messages cap before)) (k + i) := by
  induction n generalizing k with
  | zero => rfl
  | succ n ih =>
    rw [readBytes, List.range_succ_eq_map, List.map_cons, List.map_map]
    have hb : (wire net cap w a o).byte (before ++ [.requestFrom a.toNat c] ++ List.replicate k .read) =
        ((net a).answer (view a (w ++ messages cap before)) k).toNat := by
      have h1 : (before ++ [Ev.requestFrom a.toNat c] ++ List.replicate k Ev.read).reverse =
          List.replicate k Ev.read ++ (.requestFrom a.toNat c :: before.reverse) := by simp
      have h2 : (List.replicate k Ev.read ++ (.requestFrom a.toNat c :: before.reverse)).dropWhile (· == .read) =
          .requestFrom a.toNat c :: before.reverse := by
        rw [List.dropWhile_append_of_pos (by intro x hx; simp [List.eq_of_mem_replicate hx])]
        simp
      have h3 : (List.replicate k Ev.read ++ (.requestFrom a.toNat c :: before.reverse)).takeWhile (· == .read) =
          List.replicate k Ev.read := by
        rw [List.takeWhile_append_of_pos (by intro x hx; simp [List.eq_of_mem_replicate hx])]
        simp
      simp only [wire]
      rw [h1, h2, h3]
      simp only [List.reverse_reverse, List.length_replicate, ofInt_toNat]
    rw [hb]
    have hs : before ++ [.requestFrom a.toNat c] ++ List.replicate k Ev.read ++ [.read] =
        before ++ [.requestFrom a.toNat c] ++ List.replicate (k + 1) Ev.read := by
      rw [List.replicate_succ']; simp
    rw [hs, ih (k + 1)]
    congr 1
    · apply BitVec.eq_of_toNat_eq
      simp
    · apply List.map_congr_left
      intro i _
      simp only [Function.comp]
      congr 1
      omega

theorem send_exact (net : Net) (cap : Nat) (w : World) (a : BitVec 16) (o : Op) (tx : List Byte) (ho : o.sends = count tx)
    (rx : List Byte) :
    ∃ s, sendSync (wire net cap w a o) a tx (count tx) ⟨[], rx⟩ = .ok ((sendIdeal net cap a tx w).1, s) ∧ s.rx = rx ∧
      w ++ messages cap s.calls = (sendIdeal net cap a tx w).2 ∧
      s.calls = [.beginTransmission a, .write (tx.take (count tx)), .endTransmission true] := by
  have hle := count_le tx
  have hd : (tx.take (count tx)).take cap = tx.take (min (tx.length % 65536) cap) := by
    rw [List.take_take, count_eq, Nat.min_comm]
  unfold sendSync
  rw [if_neg (by omega)]
  refine ⟨⟨[.beginTransmission a, .write (tx.take (count tx)), .endTransmission true], rx⟩, ?_, rfl, ?_, rfl⟩
  · simp only [wire, List.nil_append, List.reverse_cons, List.reverse_nil, List.cons_append, messages,
      List.append_nil, hd, sendIdeal, ho, Res.ok.injEq, Prod.mk.injEq, and_true]
    rw [count_eq]
    by_cases hk : (net a).ack (view a w) (tx.take (min (tx.length % 65536) cap)) = true
    · simp only [hk, if_true, Bool.and_true, beq_self_eq_true, Bool.true_and]
      by_cases hc : tx.length % 65536 ≤ cap
      · simp [hc, Nat.min_eq_left hc]
      · have : min (tx.length % 65536) cap ≠ tx.length % 65536 := by omega
        simp [hc, this]
    · simp [hk]
  · simp [messages, hd, sendIdeal]

theorem receive_exact (net : Net) (cap : Nat) (w : World) (a : BitVec 16) (o : Op) (n : Nat) (ho : o.receives = n)
    (calls : List Ev) (hm : ∀ es, messages cap (calls ++ es) = messages cap calls ++ messages cap es) :
    ∃ ok s, receiveSync (wire net cap w a o) a n ⟨calls, List.replicate n 0⟩ = .ok (ok, s) ∧
      (if ok then some s.rx else none, w ++ messages cap s.calls) = receiveIdeal net cap a n (w ++ messages cap calls) := by
  have hr := receiveSync_exact (wire net cap w a o) a n ⟨calls, List.replicate n 0⟩ (by simp)
  rw [hr]
  have hmin : ((n : Int).toNat) = n := by omega
  have hb := readBytes_wire net cap w a o calls n n 0
  simp only [List.replicate_zero, List.append_nil, Nat.zero_add] at hb
  have hmsg : messages cap [.requestFrom (a.toNat : Int) (n : Int)] = [(a, .read (min n cap))] := by
    simp only [messages, ofInt_toNat, hmin]
  have hmsg2 : messages cap (.requestFrom (a.toNat : Int) (n : Int) :: List.replicate n .read) = [(a, .read (min n cap))] := by
    simp only [messages, ofInt_toNat, hmin, messages_reads]
  have hrecv : (wire net cap w a o).received calls =
      if (net a).reads (view a (w ++ messages cap calls)) then min n cap else 0 := by simp only [wire, ho]
  simp only [hrecv]
  by_cases hrd : (net a).reads (view a (w ++ messages cap calls)) = true
  · by_cases hc : n ≤ cap
    · rw [if_pos (by rw [if_pos hrd]; exact Nat.min_eq_left hc)]
      refine ⟨_, _, rfl, ?_⟩
      simp only [if_true, List.append_assoc, List.singleton_append, hm, hmsg2, receiveIdeal, hc, hrd, and_self]
      simp [hb]
    · have hn0 : n ≠ 0 := by omega
      rw [if_neg (by rw [if_pos hrd]; omega)]
      refine ⟨_, _, rfl, ?_⟩
      simp [hm, hmsg, receiveIdeal, hc, hn0]
  · by_cases hn0 : n = 0
    · subst hn0
      rw [if_pos (by simp)]
      refine ⟨_, _, rfl, ?_⟩
      have hmsg0 : messages cap [.requestFrom (a.toNat : Int) 0] = [(a, .read (min 0 cap))] := hmsg
      simp [hm, hmsg0, receiveIdeal, readBytes]
    · rw [if_neg (by rw [if_neg hrd]; omega)]
      refine ⟨_, _, rfl, ?_⟩
      simp [hm, hmsg, receiveIdeal, hrd, hn0]

/-- **C92** (Arduino): every call does what it should, over a bus carrying at most `cap` bytes in a message. -/
theorem call_exact (net : Net) (cap : Nat) (a : BitVec 16) (o : Op) (w : World) :
    call net cap a o w = .ok (ideal net cap a o w) := by
  unfold call
  cases o with
  | send tx =>
    obtain ⟨s, h1, h2, h3, -⟩ := send_exact net cap w a (.send tx) tx rfl (List.replicate 0 0)
    simp only [Op.receives]
    rw [h1, Res.bind_ok]
    simp only [h2, h3, ideal, List.replicate_zero]
  | receive n =>
    obtain ⟨ok, s, h1, h2⟩ := receive_exact net cap w a (.receive n) n.toNat rfl [] (by intro es; rfl)
    simp only [Op.receives]
    rw [h1, Res.bind_ok]
    simp only [messages, List.append_nil] at h2
    simp only [ideal]
    rw [← h2]
  | sendThenReceive tx n =>
    obtain ⟨s, h1, h2, h3, h4⟩ := send_exact net cap w a (.sendThenReceive tx n) tx rfl (List.replicate n.toNat 0)
    simp only [Op.receives, I2c.sendThenReceive, ideal]
    rw [h1, Res.bind_ok]
    cases hok : (sendIdeal net cap a tx w).1 with
    | false =>
      simp only [Bool.false_eq_true, if_false, Res.bind_ok, h3]
    | true =>
      obtain ⟨ok, s', k1, k2⟩ := receive_exact net cap w a (.sendThenReceive tx n) n.toNat rfl s.calls
        (by intro es; rw [h4]; simp [messages])
      have hs : s = ⟨s.calls, List.replicate n.toNat 0⟩ := by rw [← h2]
      simp only [if_true]
      rw [hs, k1, Res.bind_ok, ← h3, ← k2]

end Arduino

namespace Esp
open Verif.Hal.I2c.Esp

theorem messages_append (l m : List Ev) : messages (l ++ m) = messages l ++ messages m := by
  induction l with
  | nil => rfl
  | cons e l ih => cases e <;> simp [messages, ih]

/-- **C92** (ESP32): every call which reads at least a byte does what it should, over a bus without a limit. -/
theorem call_exact (net : Net) (period : Nat) (timeout : BitVec 32) (a : BitVec 16) (o : Op) (w : World)
    (hn : o.receives ≠ 0 ∨ ∃ tx, o = .send tx) :
    call net period timeout a o w = .ok (ideal net 65535 a o w) := by
  have hc : ∀ tx : List Byte, min (tx.length % 65536) 65535 = count tx := by intro tx; rw [count_eq]; omega
  have hc2 : ∀ tx : List Byte, tx.length % 65536 ≤ 65535 := by intro tx; omega
  have hc3 : ∀ n : BitVec 16, n.toNat ≤ 65535 := by intro n; have := n.isLt; omega
  have hc4 : ∀ n : BitVec 16, min n.toNat 65535 = n.toNat := fun n => Nat.min_eq_left (hc3 n)
  unfold call
  cases o with
  | send tx =>
    have hle := count_le tx
    simp only [sendSync]
    rw [if_neg (by omega), Res.bind_ok]
    simp [ideal, sendIdeal, drv, messages, hc, hc2, Op.receives]
  | receive n =>
    have hn0 : n.toNat ≠ 0 := by
      rcases hn with h | ⟨_, h⟩
      · exact h
      · cases h
    simp only [receiveSync, drv, messages, List.append_nil, ideal, receiveIdeal, hc3, hc4, true_and, Op.receives]
    by_cases hr : (net a).reads (view a w) = true
    · simp [hr, messages]
    · simp [hr, messages, hn0]
  | sendThenReceive tx n =>
    have hn0 : n.toNat ≠ 0 := by
      rcases hn with h | ⟨_, h⟩
      · exact h
      · cases h
    have hle := count_le tx
    simp only [I2c.sendThenReceive, sendSync]
    rw [if_neg (by omega), Res.bind_ok]
    simp only [drv, messages, List.append_nil, ideal, sendIdeal, hc, hc2, decide_true, Bool.true_and]
    cases hw : (net a).ack (view a w) (tx.take (count tx)) with
    | false => simp [messages]
    | true =>
      simp only [if_true, receiveSync, List.nil_append, messages, receiveIdeal, hc3, hc4, true_and, Op.receives]
      by_cases hr : (net a).reads (view a (w ++ [(a, .write (tx.take (count tx)))])) = true
      · simp [hr, messages]
      · simp [hr, messages, hn0]

end Esp

/-- All messages of the program, whatever the results of its calls, fit the buffer, and its reads are not empty. -/
def Prog.Fits {α : Type} (cap : Nat) : Prog α → Prop
  | .ret _ => True
  | .call _ o k => o.sends ≤ cap ∧ o.receives ≤ cap ∧ (o.receives ≠ 0 ∨ ∃ tx, o = .send tx) ∧ ∀ r, (k r).Fits cap

theorem ideal_cap (net : Net) (cap : Nat) (a : BitVec 16) (o : Op) (w : World) (h1 : o.sends ≤ cap) (h2 : o.receives ≤ cap) :
    ideal net cap a o w = ideal net 65535 a o w := by
  have hs : ∀ tx : List Byte, count tx ≤ cap → sendIdeal net cap a tx w = sendIdeal net 65535 a tx w := by
    intro tx h
    rw [count_eq] at h
    have h3 : tx.length % 65536 ≤ 65535 := by omega
    simp only [sendIdeal, Nat.min_eq_left h, Nat.min_eq_left h3, h, h3]
  have hr : ∀ (n : BitVec 16) w, n.toNat ≤ cap → receiveIdeal net cap a n.toNat w = receiveIdeal net 65535 a n.toNat w := by
    intro n w h
    have h3 : n.toNat ≤ 65535 := by have := n.isLt; omega
    simp only [receiveIdeal, Nat.min_eq_left h, Nat.min_eq_left h3, h, h3]
  cases o with
  | send tx => simp only [ideal, hs tx h1]
  | receive n => simp only [ideal, hr n w h2]
  | sendThenReceive tx n => simp only [ideal, hs tx h1, hr n _ h2]

/-- **C92**, what holds: a program whose messages fit the buffer of `TwoWire`, talking to arbitrary devices, gets the same
results and sends the same messages on both platforms. -/
theorem platforms_agree_partial {α : Type} (net : Net) (cap period : Nat) (timeout : BitVec 32) (p : Prog α)
    (hf : p.Fits cap) (w : World) :
    ∃ r, p.run (Arduino.call net cap) w = .ok r ∧ p.run (Esp.call net period timeout) w = .ok r := by
  induction p generalizing w with
  | ret x => exact ⟨(x, w), rfl, rfl⟩
  | call a o k ih =>
    obtain ⟨h1, h2, h3, h4⟩ := hf
    obtain ⟨r, k1, k2⟩ := ih (ideal net 65535 a o w).1 (h4 _) (ideal net 65535 a o w).2
    refine ⟨r, ?_, ?_⟩
    · rw [Prog.run, Arduino.call_exact, Res.bind_ok, ideal_cap net cap a o w h1 h2]
      exact k1
    · rw [Prog.run, Esp.call_exact net period timeout a o w h3, Res.bind_ok]
      exact k2

/-- **C92 is false** for longer messages: on Arduino the device is sent the beginning of the message – and may act on it –
and the call reports failure, while on ESP32 the message arrives. -/
theorem long_message_cut (net : Net) (cap period : Nat) (timeout : BitVec 32) (a : BitVec 16) (tx : List Byte)
    (w : World) (hl : cap < tx.length) (hs : tx.length < 65536) :
    Arduino.call net cap a (.send tx) w = .ok (none, w ++ [(a, .write (tx.take cap))]) ∧
    ∃ ok, Esp.call net period timeout a (.send tx) w = .ok (ok, w ++ [(a, .write tx)]) ∧
      (ok = some [] ↔ (net a).ack (view a w) tx = true) := by
  refine ⟨?_, ?_⟩
  · rw [Arduino.call_exact]
    have h1 : tx.length % 65536 = tx.length := Nat.mod_eq_of_lt hs
    simp only [ideal, sendIdeal, h1, Nat.min_eq_right (Nat.le_of_lt hl)]
    have : ¬ tx.length ≤ cap := by omega
    simp [this]
  · rw [Esp.call_exact net period timeout a _ w (Or.inr ⟨tx, rfl⟩)]
    have h1 : tx.length % 65536 = tx.length := Nat.mod_eq_of_lt hs
    have h2 : min tx.length 65535 = tx.length := by omega
    have h3 : tx.length ≤ 65535 := by omega
    refine ⟨_, by simp only [ideal, sendIdeal, h1, h2, List.take_length]; rfl, ?_⟩
    simp [h3]

/-- **C92 is false** for longer reads: on Arduino they fail, although the device was read. -/
theorem long_read_fails (net : Net) (cap period : Nat) (timeout : BitVec 32) (a : BitVec 16) (n : BitVec 16) (w : World)
    (hl : cap < n.toNat) (hr : (net a).reads (view a w) = true) :
    Arduino.call net cap a (.receive n) w = .ok (none, w ++ [(a, .read cap)]) ∧
    Esp.call net period timeout a (.receive n) w =
      .ok (some ((List.range n.toNat).map ((net a).answer (view a w))), w ++ [(a, .read n.toNat)]) := by
  have hn0 : n.toNat ≠ 0 := by omega
  have h3 : n.toNat ≤ 65535 := by have := n.isLt; omega
  refine ⟨?_, ?_⟩
  · rw [Arduino.call_exact]
    have : ¬ n.toNat ≤ cap := by omega
    simp only [ideal, receiveIdeal, this, false_and, if_false, hn0, Nat.min_eq_right (Nat.le_of_lt hl)]
  · rw [Esp.call_exact net period timeout a (.receive n) w (Or.inl hn0)]
    simp only [ideal, receiveIdeal, h3, hr, and_self, if_true, Nat.min_eq_left h3]

/-- **C92**, exactly: a call has the same effect on both platforms for all devices iff its messages fit the buffer. -/
theorem call_portable_iff (cap period : Nat) (timeout : BitVec 32) (a : BitVec 16) (o : Op)
    (h0 : o.receives ≠ 0 ∨ ∃ tx, o = .send tx) :
    (∀ net w, Arduino.call net cap a o w = Esp.call net period timeout a o w) ↔ o.sends ≤ cap ∧ o.receives ≤ cap := by
  constructor
  · intro h
    have h1 := fun net w => (Arduino.call_exact net cap a o w).symm.trans
      ((h net w).trans (Esp.call_exact net period timeout a o w h0))
    have h2 := h1 (fun _ => ⟨fun _ _ => true, fun _ => true, fun _ _ => 0⟩) []
    rw [Res.ok.injEq] at h2
    have h3 : ∀ tx : List Byte, tx.length % 65536 ≤ 65535 := by intro tx; omega
    have h4 : ∀ n : BitVec 16, n.toNat ≤ 65535 := by intro n; have := n.isLt; omega
    cases o with
    | send tx =>
      refine ⟨?_, Nat.zero_le _⟩
      simp only [ideal, sendIdeal, h3, decide_true, Bool.and_true, if_true, Prod.mk.injEq] at h2
      by_cases hc : tx.length % 65536 ≤ cap
      · simpa [Op.sends, count_eq] using hc
      · simp [hc] at h2
    | receive n =>
      refine ⟨Nat.zero_le _, ?_⟩
      simp only [ideal, receiveIdeal, h4, and_self, if_true, Prod.mk.injEq, and_true] at h2
      by_cases hc : n.toNat ≤ cap
      · exact hc
      · have : n.toNat ≠ 0 := by omega
        simp [hc, this] at h2
    | sendThenReceive tx n =>
      simp only [ideal, sendIdeal, receiveIdeal, h3, h4, decide_true, Bool.and_true, if_true, and_self, and_true] at h2
      by_cases hc : tx.length % 65536 ≤ cap
      · refine ⟨by simpa [Op.sends, count_eq] using hc, ?_⟩
        by_cases hc2 : n.toNat ≤ cap
        · exact hc2
        · have : n.toNat ≠ 0 := by omega
          simp [hc, hc2, this] at h2
      · simp [hc] at h2
  · rintro ⟨h1, h2⟩ net w
    rw [Arduino.call_exact, Esp.call_exact net period timeout a o w h0, ideal_cap net cap a o w h1 h2]

/-- **C92**, devices do not interfere: a call tells the devices at other addresses nothing, and its result, as well as what
its own device is told, depends only on the messages sent to that device. -/
theorem call_isolated (net : Net) (cap period : Nat) (timeout : BitVec 32) (a : BitVec 16) (o : Op) :
    (∀ w r w', (Arduino.call net cap a o w = .ok (r, w') ∨
        ((o.receives ≠ 0 ∨ ∃ tx, o = .send tx) ∧ Esp.call net period timeout a o w = .ok (r, w'))) →
      (∀ b, b ≠ a → ∀ l, view b (w' ++ l) = view b (w ++ l)) ∧ ∃ ms, ms ≠ [] ∧ view a w' = view a w ++ ms) ∧
    (∀ w₁ w₂ r₁ r₂ w₁' w₂', view a w₁ = view a w₂ → Arduino.call net cap a o w₁ = .ok (r₁, w₁') →
      Arduino.call net cap a o w₂ = .ok (r₂, w₂') → r₁ = r₂ ∧ view a w₁' = view a w₂') ∧
    (∀ w₁ w₂ r₁ r₂ w₁' w₂', (o.receives ≠ 0 ∨ ∃ tx, o = .send tx) → view a w₁ = view a w₂ →
      Esp.call net period timeout a o w₁ = .ok (r₁, w₁') → Esp.call net period timeout a o w₂ = .ok (r₂, w₂') →
      r₁ = r₂ ∧ view a w₁' = view a w₂') := by
  have key : ∀ cap w, (∃ ms, ms ≠ [] ∧ (∀ m ∈ ms, m.1 = a) ∧ (ideal net cap a o w).2 = w ++ ms) := by
    intro cap w
    cases o with
    | send tx => exact ⟨[_], by simp, by simp, rfl⟩
    | receive n => exact ⟨[_], by simp, by simp, rfl⟩
    | sendThenReceive tx n =>
      simp only [ideal]
      split
      · exact ⟨[(a, .write (tx.take (min (tx.length % 65536) cap))), (a, .read (min n.toNat cap))], by simp, by simp,
          by simp [receiveIdeal, sendIdeal]⟩
      · exact ⟨[_], by simp, by simp, rfl⟩
  have app : ∀ (w v : World), view a (w ++ v) = view a w ++ view a v := by intro w v; simp [view]
  have two : ∀ cap w₁ w₂, view a w₁ = view a w₂ → (ideal net cap a o w₁).1 = (ideal net cap a o w₂).1 ∧
      view a (ideal net cap a o w₁).2 = view a (ideal net cap a o w₂).2 := by
    intro cap w₁ w₂ h
    have hs : ∀ tx, (sendIdeal net cap a tx w₁).1 = (sendIdeal net cap a tx w₂).1 ∧
        view a (sendIdeal net cap a tx w₁).2 = view a (sendIdeal net cap a tx w₂).2 := by
      intro tx; simp only [sendIdeal, h, app, and_self]
    have hr : ∀ n w₁ w₂, view a w₁ = view a w₂ → (receiveIdeal net cap a n w₁).1 = (receiveIdeal net cap a n w₂).1 ∧
        view a (receiveIdeal net cap a n w₁).2 = view a (receiveIdeal net cap a n w₂).2 := by
      intro n w₁ w₂ h
      refine ⟨?_, by simp only [receiveIdeal, h, app]⟩
      simp only [receiveIdeal]
      rw [h]
    cases o with
    | send tx =>
      refine ⟨?_, (hs tx).2⟩
      simp only [ideal]
      rw [(hs tx).1]
    | receive n => exact hr _ _ _ h
    | sendThenReceive tx n =>
      simp only [ideal]
      rw [(hs tx).1]
      split
      · exact hr _ _ _ (hs tx).2
      · exact ⟨rfl, (hs tx).2⟩
  refine ⟨?_, ?_, ?_⟩
  · intro w r w' hc
    obtain ⟨cap', hi⟩ : ∃ cap', ideal net cap' a o w = (r, w') := by
      rcases hc with hc | ⟨h0, hc⟩
      · rw [Arduino.call_exact, Res.ok.injEq] at hc; exact ⟨_, hc⟩
      · rw [Esp.call_exact _ _ _ _ _ _ h0, Res.ok.injEq] at hc; exact ⟨_, hc⟩
    obtain ⟨ms, h0, h1, h2⟩ := key cap' w
    rw [hi] at h2
    simp only at h2
    subst h2
    refine ⟨fun b hb l => ?_, ms.map (·.2), by simpa using h0, ?_⟩
    · have : ms.filter (·.1 == b) = [] := by
        rw [List.filter_eq_nil_iff]
        intro m hm
        simp [h1 m hm, Ne.symm hb]
      simp [view, this]
    · have : ms.filter (·.1 == a) = ms := by
        rw [List.filter_eq_self]
        intro m hm
        simp [h1 m hm]
      simp [view, this]
  · intro w₁ w₂ r₁ r₂ w₁' w₂' h h1 h2
    rw [Arduino.call_exact, Res.ok.injEq] at h1 h2
    have := two cap w₁ w₂ h
    rwa [h1, h2] at this
  · intro w₁ w₂ r₁ r₂ w₁' w₂' h0 h h1 h2
    rw [Esp.call_exact _ _ _ _ _ _ h0, Res.ok.injEq] at h1 h2
    have := two 65535 w₁ w₂ h
    rwa [h1, h2] at this

/-- A register device at address 0x76: it answers to a read with the number of the register written last, counting up; a
program reading two registers, the second one depending on the first. -/
def exampleNet : Net := fun a => ⟨fun _ _ => a == 0x76, fun _ => a == 0x76, fun l i =>
  (match l.getLast? with | some (.write (r :: _)) => r | _ => 0) + BitVec.ofNat 8 i⟩

def exampleProg : Prog (List Byte) :=
  .call 0x76 (.sendThenReceive [0xD0] 2) fun r => .call 0x76 (.sendThenReceive (r.getD [] ++ [1]) 1) fun r2 =>
    .call 0x77 (.send [1]) fun r3 => .ret (r.getD [] ++ r2.getD [] ++ r3.getD [9])

example : (exampleProg.run (Arduino.call exampleNet 32) []) = .ok ([0xD0, 0xD1, 0xD0, 9],
    [(0x76, .write [0xD0]), (0x76, .read 2), (0x76, .write [0xD0, 0xD1, 1]), (0x76, .read 1), (0x77, .write [1])]) := by
  decide

end Verif.Hal.I2c.Portable
