import Verif.Uart.ArduinoStream
import Verif.Uart.EspEvents
/-!
# C90: the packet interface on both platforms

`PacketUart` is one interface with two implementations.  Fed with the same bytes, the two deliver the same packets as long
as every packet is shorter than the buffer by one byte at least and arrives in time; in all other cases they differ, which is
shown case by case.
-/
namespace Verif.Uart.Portable
open Verif
open Verif.Uart.Esp (Env St tick)

/-! ## Specification -/

/-- A message on the wire and the call which is to receive it: `p` and the terminator for `ReceiveUntil`; other bytes, the
start byte, `p` and the terminator for `ReceiveBetween`. -/
inductive Msg where
  | «until» (size : Nat) (e : Byte) (timeout : Nat) (p : List Byte)
  | between (size : Nat) (sb e : Byte) (timeout : Nat) (noise p : List Byte)

/-- The bytes on the wire. -/
def Msg.wire : Msg → List Byte
  | .until _ e _ p => p ++ [e]
  | .between _ sb e _ noise p => noise ++ (sb :: p ++ [e])

/-- The packet to be delivered. -/
def Msg.packet : Msg → List Byte
  | .until _ e _ p => p ++ [e]
  | .between _ sb e _ _ p => sb :: p ++ [e]

/-- The call on ESP32. -/
def Msg.espCall : Msg → Esp.Call
  | .until size e timeout _ => .until size e timeout
  | .between size sb e timeout _ _ => .between size sb e timeout

/-- The call on Arduino. -/
def Msg.arduinoCall : Msg → Arduino.Call
  | .until size e timeout _ => .until size e timeout
  | .between size sb e timeout _ _ => .between size sb e timeout

/-- The packet is shorter than the buffer by one byte at least; the time-outs are `T` at least (for `ReceiveUntil` there
may be none).  `room` is the memory of the caller, `W` bounds the length of the message. -/
def Msg.Fine (room W T : Nat) : Msg → Prop
  | .until size e timeout p => e ∉ p ∧ p.length + 1 < size ∧ size ≤ room ∧ size < 65536 ∧ p.length + 1 ≤ W ∧
      (timeout = 0 ∨ T ≤ timeout) ∧ timeout < 65536
  | .between size sb e timeout noise p => sb ∉ noise ∧ e ∉ p ∧ p.length + 2 < size ∧ size ≤ room ∧ size < 65536 ∧
      noise.length + p.length + 2 ≤ W ∧ T ≤ timeout ∧ timeout < 65536

/-- The reads deliver these bytes. -/
def Feeds (env : Env) (bytes : List Byte) : Prop := ∀ k < bytes.length, env.rx k = bytes[k]?

/-- Between readings of the clock which are `W` readings apart at most, less than `T` milliseconds pass; and the counter is
not about to wrap. -/
def Quick (env : Env) (W T : Nat) : Prop :=
  ∀ i j, i ≤ j → j ≤ i + W → (env.clock i).toNat ≤ (env.clock j).toNat ∧
    (env.clock j).toNat < (env.clock i).toNat + T ∧ (env.clock i).toNat + 65536 < 2 ^ 32

/-! ## ESP32 -/

theorem set_split (m : List Byte) (pos : Nat) (b : Byte) (h : pos < m.length) :
    (m.set pos b).take (pos + 1) = m.take pos ++ [b] ∧ ∀ k, pos < k → (m.set pos b).drop k = m.drop k := by
  constructor
  · rw [List.take_set, List.take_succ_eq_append_getElem h, List.set_append_right _ _ (by simp; omega)]
    simp [Nat.min_eq_left (Nat.le_of_lt h)]
  · intro k hk
    rw [List.drop_set, if_pos hk]

theorem untilLoop_fed (env : Env) (size : Nat) (e : Byte) (timeout : Nat) (maxTime : BitVec 32) (q : List Byte)
    (he : e ∉ q) (fuel pos : Nat) (start : BitVec 32) (s : St) (hf : q.length < fuel)
    (hrx : ∀ k ≤ q.length, env.rx (s.log.length + k) = (q ++ [e])[k]?) (hsz : pos + q.length < size)
    (hm : size ≤ s.mem.length) (hc : timeout ≠ 0 → ∀ k ≤ q.length, env.clock (s.clocks + k) < maxTime) :
    ∃ s', Esp.untilLoop env size e timeout maxTime fuel pos start s = .ok (pos + q.length + 1, s') ∧
      s'.mem = s.mem.take pos ++ (q ++ [e]) ++ s.mem.drop (pos + q.length + 1) ∧
      s'.log.length = s.log.length + q.length + 1 := by
  induction q generalizing fuel pos start s with
  | nil =>
    obtain ⟨fuel, rfl⟩ : ∃ f, fuel = f + 1 := ⟨fuel - 1, by simp at hf; omega⟩
    have h0 := hrx 0 (by simp)
    simp only [Nat.add_zero, List.nil_append, List.getElem?_cons_zero] at h0
    simp only [List.length_nil, Nat.add_zero] at hsz hc
    obtain ⟨hs1, hs2⟩ := set_split s.mem pos e (by omega)
    have hmem : s.mem.set pos e = s.mem.take pos ++ ([] ++ [e]) ++ s.mem.drop (pos + 0 + 1) := by
      rw [← List.take_append_drop (pos + 1) (s.mem.set pos e), hs1, hs2 _ (by omega)]
      simp
    unfold Esp.untilLoop
    rw [if_pos hsz]
    by_cases ht : timeout = 0
    · simp only [ht, if_true, true_or, Esp.readByte, h0, show pos < s.mem.length by omega, Res.bind_ok]
      rw [List.getElem?_set_self (by omega)]
      simp only [if_true]
      exact ⟨_, rfl, by rw [hmem]; rfl, by simp⟩
    · have hlt := hc ht 0 (Nat.le_refl _)
      simp only [Nat.add_zero] at hlt
      simp only [ht, if_false, tick, false_or, hlt, if_true, Esp.readByte, h0, show pos < s.mem.length by omega, Res.bind_ok]
      rw [List.getElem?_set_self (by omega)]
      simp only [if_true]
      exact ⟨_, rfl, by rw [hmem]; rfl, by simp⟩
  | cons b q ih =>
    obtain ⟨fuel, rfl⟩ : ∃ f, fuel = f + 1 := ⟨fuel - 1, by simp at hf; omega⟩
    simp only [List.mem_cons, not_or, List.length_cons] at he hf hsz hc
    have h0 := hrx 0 (by simp)
    simp only [Nat.add_zero, List.cons_append, List.getElem?_cons_zero] at h0
    obtain ⟨hs1, hs2⟩ := set_split s.mem pos b (by omega)
    have step : ∀ (start' : BitVec 32) (c : Nat) (to : BitVec 32), (timeout ≠ 0 → c = s.clocks + 1) →
        ∃ s', Esp.untilLoop env size e timeout maxTime fuel (pos + 1) start'
            ⟨s.mem.set pos b, c, s.log ++ [(to, some b)]⟩ = .ok (pos + (b :: q).length + 1, s') ∧
          s'.mem = s.mem.take pos ++ (b :: q ++ [e]) ++ s.mem.drop (pos + (b :: q).length + 1) ∧
          s'.log.length = s.log.length + (b :: q).length + 1 := by
      intro start' c to hcl
      obtain ⟨s', i1, i2, i3⟩ := ih he.2 fuel (pos + 1) start' ⟨s.mem.set pos b, c, s.log ++ [(to, some b)]⟩ (by omega)
        (by
          intro k hk
          have := hrx (k + 1) (by simpa using hk)
          simpa [Nat.add_assoc, Nat.add_comm 1 k] using this)
        (by omega) (by simpa using hm)
        (by
          intro ht k hk
          have := hc ht (k + 1) (by omega)
          rw [hcl ht]
          rwa [show s.clocks + (k + 1) = s.clocks + 1 + k by omega] at this)
      refine ⟨s', by rw [i1]; simp; omega, ?_, by rw [i3]; simp; omega⟩
      rw [i2, hs1, hs2 _ (by omega), List.length_cons, show pos + 1 + q.length + 1 = pos + (q.length + 1) + 1 by omega]
      simp
    unfold Esp.untilLoop
    rw [if_pos (by omega)]
    by_cases ht : timeout = 0
    · simp only [ht, if_true, true_or, Esp.readByte, h0, show pos < s.mem.length by omega, Res.bind_ok]
      rw [List.getElem?_set_self (by omega)]
      simp only [show ¬ b = e from fun h => he.1 h.symm, if_false]
      have := step start s.clocks (maxTime - start) (fun h => absurd ht h)
      rwa [ht] at this
    · have hlt := hc ht 0 (Nat.zero_le _)
      simp only [Nat.add_zero] at hlt
      simp only [ht, if_false, tick, false_or, hlt, if_true, Esp.readByte, h0, show pos < s.mem.length by omega, Res.bind_ok]
      rw [List.getElem?_set_self (by omega)]
      simp only [show ¬ b = e from fun h => he.1 h.symm, if_false]
      exact step _ (s.clocks + 1) _ (fun _ => rfl)

theorem restLoop_fed (env : Env) (size : Nat) (e : Byte) (maxTime : BitVec 32) (q : List Byte)
    (he : e ∉ q) (fuel pos : Nat) (s : St) (hf : q.length < fuel)
    (hrx : ∀ k ≤ q.length, env.rx (s.log.length + k) = (q ++ [e])[k]?) (hsz : pos + q.length < size)
    (hm : size ≤ s.mem.length) (hc : ∀ k ≤ q.length, env.clock (s.clocks + k) ≤ maxTime) :
    ∃ s', Esp.restLoop env size e maxTime fuel pos s = .ok (pos + q.length + 1, s') ∧
      s'.mem = s.mem.take pos ++ (q ++ [e]) ++ s.mem.drop (pos + q.length + 1) ∧
      s'.log.length = s.log.length + q.length + 1 := by
  induction q generalizing fuel pos s with
  | nil =>
    obtain ⟨fuel, rfl⟩ : ∃ f, fuel = f + 1 := ⟨fuel - 1, by simp at hf; omega⟩
    have h0 := hrx 0 (by simp)
    have hlt := hc 0 (by simp)
    simp only [Nat.add_zero, List.nil_append, List.getElem?_cons_zero] at h0 hlt
    simp only [List.length_nil, Nat.add_zero] at hsz
    obtain ⟨hs1, hs2⟩ := set_split s.mem pos e (by omega)
    have hmem : s.mem.set pos e = s.mem.take pos ++ ([] ++ [e]) ++ s.mem.drop (pos + 0 + 1) := by
      rw [← List.take_append_drop (pos + 1) (s.mem.set pos e), hs1, hs2 _ (by omega)]
      simp
    unfold Esp.restLoop
    simp only [tick, hlt, if_true, show ¬ pos = size by omega, if_false, Esp.readByte, h0, show pos < s.mem.length by omega,
      Res.bind_ok]
    rw [List.getElem?_set_self (by omega)]
    simp only [if_true]
    exact ⟨_, rfl, by rw [hmem]; rfl, by simp⟩
  | cons b q ih =>
    obtain ⟨fuel, rfl⟩ : ∃ f, fuel = f + 1 := ⟨fuel - 1, by simp at hf; omega⟩
    simp only [List.mem_cons, not_or, List.length_cons] at he hf hsz hc
    have h0 := hrx 0 (by simp)
    have hlt := hc 0 (by simp)
    simp only [Nat.add_zero, List.cons_append, List.getElem?_cons_zero] at h0 hlt
    obtain ⟨hs1, hs2⟩ := set_split s.mem pos b (by omega)
    unfold Esp.restLoop
    simp only [tick, hlt, if_true, show ¬ pos = size by omega, if_false, Esp.readByte, h0, show pos < s.mem.length by omega,
      Res.bind_ok]
    rw [List.getElem?_set_self (by omega)]
    simp only [show ¬ b = e from fun h => he.1 h.symm, if_false]
    obtain ⟨s', i1, i2, i3⟩ := ih he.2 fuel (pos + 1)
      ⟨s.mem.set pos b, s.clocks + 1, s.log ++ [(maxTime - env.clock s.clocks, some b)]⟩ (by omega)
      (by
        intro k hk
        have := hrx (k + 1) (by simpa using hk)
        simpa [Nat.add_assoc, Nat.add_comm 1 k] using this)
      (by omega) (by simpa using hm)
      (by
        intro k hk
        have := hc (k + 1) (by omega)
        rwa [show s.clocks + (k + 1) = s.clocks + 1 + k by omega] at this)
    refine ⟨s', by rw [i1, Nat.add_right_comm pos 1 q.length]; rfl, ?_, by rw [i3]; simp; omega⟩
    rw [i2, hs1, hs2 _ (by omega), List.length_cons, show pos + 1 + q.length + 1 = pos + (q.length + 1) + 1 by omega]
    simp

theorem startLoop_fed (env : Env) (sb : Byte) (start maxTime : BitVec 32) (hle : start ≤ maxTime) (q : List Byte)
    (hq : sb ∉ q) (fuel : Nat) (s : St) (hf : q.length < fuel)
    (hrx : ∀ k ≤ q.length, env.rx (s.log.length + k) = (q ++ [sb])[k]?) (hm : 0 < s.mem.length) :
    ∃ s', Esp.startLoop env sb start maxTime fuel s = .ok (true, s') ∧ s'.mem = sb :: s.mem.drop 1 ∧
      s'.clocks = s.clocks ∧ s'.log.length = s.log.length + q.length + 1 := by
  induction q generalizing fuel s with
  | nil =>
    obtain ⟨fuel, rfl⟩ : ∃ f, fuel = f + 1 := ⟨fuel - 1, by simp at hf; omega⟩
    have h0 := hrx 0 (by simp)
    simp only [Nat.add_zero, List.nil_append, List.getElem?_cons_zero] at h0
    unfold Esp.startLoop
    simp only [hle, if_true, Esp.readByte, h0, hm, Res.bind_ok]
    rw [List.getElem?_set_self hm]
    simp only [if_true]
    refine ⟨_, rfl, ?_, rfl, by simp⟩
    obtain ⟨x, m, hx⟩ := List.exists_cons_of_length_pos hm
    rw [hx]; rfl
  | cons b q ih =>
    obtain ⟨fuel, rfl⟩ : ∃ f, fuel = f + 1 := ⟨fuel - 1, by simp at hf; omega⟩
    simp only [List.mem_cons, not_or, List.length_cons] at hq hf
    have h0 := hrx 0 (by simp)
    simp only [Nat.add_zero, List.cons_append, List.getElem?_cons_zero] at h0
    unfold Esp.startLoop
    simp only [hle, if_true, Esp.readByte, h0, hm, Res.bind_ok]
    rw [List.getElem?_set_self hm]
    simp only [show ¬ b = sb from fun h => hq.1 h.symm, if_false]
    obtain ⟨s', i1, i2, i3, i4⟩ := ih hq.2 fuel ⟨s.mem.set 0 b, s.clocks, s.log ++ [(maxTime - start, some b)]⟩ (by omega)
      (by
        intro k hk
        have := hrx (k + 1) (by simpa using hk)
        simpa [Nat.add_assoc, Nat.add_comm 1 k] using this)
      (by simpa using hm)
    refine ⟨s', i1, ?_, i3, by rw [i4]; simp; omega⟩
    rw [i2]
    obtain ⟨x, m, hx⟩ := List.exists_cons_of_length_pos hm
    rw [hx]; rfl

/-- One message on ESP32.  Here the packet may also fill the buffer. -/
theorem esp_message (env : Env) (W T fuel : Nat) (mem : List Byte) (m : Msg) (hm : m.Fine mem.length W T)
    (hq : Quick env W T) (hfeed : ∀ k < m.wire.length, env.rx k = m.wire[k]?) (hfuel : m.wire.length ≤ fuel) :
    ∃ s, m.espCall.run env fuel mem = .ok (m.packet.length, s) ∧ s.mem = m.packet ++ mem.drop m.packet.length ∧
      s.log.length = m.wire.length := by
  cases m with
  | «until» size e timeout p =>
    obtain ⟨h1, h2, h3, h4, h5, h6, h7⟩ := hm
    simp only [Msg.wire, List.length_append, List.length_singleton] at hfeed hfuel
    have hmax : (env.clock 0 + BitVec.ofNat 32 timeout).toNat = (env.clock 0).toNat + timeout := by
      have := (hq 0 0 (by omega) (by omega)).2.2
      rw [BitVec.toNat_add, BitVec.toNat_ofNat]; omega
    obtain ⟨s, k1, k2, k3⟩ := untilLoop_fed env size e timeout (env.clock 0 + BitVec.ofNat 32 timeout) p h1 fuel 0
      (env.clock 0) ⟨mem, 1, []⟩ (by omega) (by intro k hk; simpa using hfeed k (by omega)) (by omega) h3
      (by
        intro ht k hk
        have := hq 0 (1 + k) (by omega) (by omega)
        rw [BitVec.lt_def, hmax]
        simp only
        omega)
    refine ⟨s, ?_, ?_, by simpa [Msg.wire] using k3⟩
    · simp only [Msg.espCall, Esp.Call.run, Esp.receiveUntil, tick, Msg.packet, List.length_append, List.length_singleton]
      simpa using k1
    · simpa [Msg.packet] using k2
  | between size sb e timeout noise p =>
    obtain ⟨h1, h2, h3, h4, h5, h6, h7, h8⟩ := hm
    simp only [Msg.wire, List.length_append, List.length_nil, List.length_cons] at hfeed hfuel
    have hmax : (env.clock 0 + BitVec.ofNat 32 timeout).toNat = (env.clock 0).toNat + timeout := by
      have := (hq 0 0 (by omega) (by omega)).2.2
      rw [BitVec.toNat_add, BitVec.toNat_ofNat]; omega
    obtain ⟨s1, k1, k2, k3, k4⟩ := startLoop_fed env sb (env.clock 0) (env.clock 0 + BitVec.ofNat 32 timeout)
      (by rw [BitVec.le_def, hmax]; omega) noise h1 fuel ⟨mem, 1, []⟩ (by omega)
      (by
        intro k hk
        have := hfeed k (by omega)
        simp only [List.length_nil, Nat.zero_add]
        rw [this, show noise ++ (sb :: p ++ [e]) = (noise ++ [sb]) ++ (p ++ [e]) by simp,
          List.getElem?_append_left (by simp; omega)])
      (by simp only; omega)
    simp only at k2 k3 k4
    obtain ⟨s2, j1, j2, j3⟩ := restLoop_fed env size e (env.clock 0 + BitVec.ofNat 32 timeout) p h2 fuel 1 s1 (by omega)
      (by
        intro k hk
        rw [k4]
        have := hfeed (noise.length + 1 + k) (by omega)
        simp only [List.length_nil, Nat.zero_add]
        rw [this, show noise ++ (sb :: p ++ [e]) = (noise ++ [sb]) ++ (p ++ [e]) by simp,
          List.getElem?_append_right (by simp)]
        simp only [List.length_append, List.length_singleton, Nat.add_sub_cancel_left])
      (by omega) (by rw [k2]; simp; omega)
      (by
        intro k hk
        rw [k3]
        have := hq 0 (1 + k) (by omega) (by omega)
        rw [BitVec.le_def, hmax]
        omega)
    refine ⟨s2, ?_, ?_, ?_⟩
    · simp only [Msg.espCall, Esp.Call.run, Esp.receiveBetween, if_neg (show ¬ size < 2 by omega), tick, k1, Res.bind_ok,
        if_true, j1, Msg.packet, List.length_append, List.length_nil, List.length_cons]
      rw [Nat.add_comm 1 p.length]
    · rw [j2, k2]
      simp only [Msg.packet, List.take_succ_cons, List.take_zero, List.length_append, List.length_nil,
        List.length_cons]
      rw [show 1 + p.length + 1 = (1 + p.length) + 1 by omega, List.drop_succ_cons, List.drop_drop,
        show 1 + (1 + p.length) = p.length + 1 + 1 by omega]
      simp
    · rw [j3, k4]
      simp [Msg.wire]; omega

theorem feeds_after {env : Env} {a b : List Byte} {s : St} (h : Feeds env (a ++ b)) (hs : s.log.length = a.length) :
    (∀ k < a.length, env.rx k = a[k]?) ∧ Feeds (env.after s) b := by
  constructor
  · intro k hk
    rw [h k (by simp; omega), List.getElem?_append_left hk]
  · intro k hk
    simp only [Env.after, hs]
    rw [h (a.length + k) (by simp; omega), List.getElem?_append_right (by omega), Nat.add_sub_cancel_left]

theorem quick_after {env : Env} {W T : Nat} (h : Quick env W T) (s : St) : Quick (env.after s) W T := by
  intro i j hij hj
  exact h (s.clocks + i) (s.clocks + j) (by omega) (by omega)

/-- **C90**: on ESP32 the messages are delivered one by one. -/
theorem esp_messages (env : Env) (W T fuel : Nat) (mem : List Byte) (ms : List Msg)
    (hm : ∀ m ∈ ms, m.Fine mem.length W T) (hq : Quick env W T) (hfeed : Feeds env (ms.flatMap Msg.wire))
    (hfuel : ∀ m ∈ ms, m.wire.length ≤ fuel) :
    Esp.runCalls fuel env mem (ms.map Msg.espCall) = .ok (ms.map Msg.packet, (ms.flatMap Msg.wire).length) := by
  induction ms generalizing env mem with
  | nil => rfl
  | cons m ms ih =>
    simp only [List.mem_cons, forall_eq_or_imp] at hm hfuel
    have hfirst : ∀ k < m.wire.length, env.rx k = m.wire[k]? :=
      (feeds_after (s := ⟨[], 0, m.wire.map fun b => (0, some b)⟩) hfeed (by simp)).1
    obtain ⟨s, h1, h2, h3⟩ := esp_message env W T fuel mem m hm.1 hq hfirst hfuel.1
    have hlen : mem.length ≤ s.mem.length := by rw [h2]; simp; omega
    have hrest := ih (env.after s) s.mem
      (by
        intro m' hm'
        have := hm.2 m' hm'
        cases m' with
        | «until» => obtain ⟨a, b, c, d⟩ := this; exact ⟨a, b, by omega, d⟩
        | between => obtain ⟨a, b, c, d, d'⟩ := this; exact ⟨a, b, c, by omega, d'⟩)
      (quick_after hq s) (feeds_after hfeed h3).2 hfuel.2
    simp only [List.map_cons, Esp.runCalls, h1, Res.bind_ok, hrest, List.flatMap_cons, List.length_append, h3]
    rw [h2, List.take_left]

/-! ## Arduino -/

theorem readUntil_fed (env : Env) (e : Byte) (base : Nat) (q : List Byte) (he : e ∉ q) (n i : Nat) (s : St)
    (hn : q.length < n) (hrx : ∀ k ≤ q.length, env.rx (s.log.length + k) = (q ++ [e])[k]?)
    (hm : base + i + q.length ≤ s.mem.length) :
    ∃ s', Arduino.readUntil env e base n i s = .ok (i + q.length, s') ∧
      s'.mem = s.mem.take (base + i) ++ q ++ s.mem.drop (base + i + q.length) ∧ s'.clocks = s.clocks ∧
      s'.log.length = s.log.length + q.length + 1 := by
  induction q generalizing n i s with
  | nil =>
    obtain ⟨n, rfl⟩ : ∃ f, n = f + 1 := ⟨n - 1, by simp at hn; omega⟩
    have h0 := hrx 0 (by simp)
    simp only [Nat.add_zero, List.nil_append, List.getElem?_cons_zero] at h0
    unfold Arduino.readUntil
    simp only [h0, if_true]
    exact ⟨_, rfl, by simp, rfl, by simp⟩
  | cons b q ih =>
    obtain ⟨n, rfl⟩ : ∃ f, n = f + 1 := ⟨n - 1, by simp at hn; omega⟩
    simp only [List.mem_cons, not_or, List.length_cons] at he hn hm
    have h0 := hrx 0 (by simp)
    simp only [Nat.add_zero, List.cons_append, List.getElem?_cons_zero] at h0
    obtain ⟨hs1, hs2⟩ := set_split s.mem (base + i) b (by omega)
    unfold Arduino.readUntil
    simp only [h0, show ¬ b = e from fun h => he.1 h.symm, if_false, show base + i < s.mem.length by omega, if_true]
    obtain ⟨s', i1, i2, i3, i4⟩ := ih he.2 n (i + 1) ⟨s.mem.set (base + i) b, s.clocks, s.log ++ [(0, some b)]⟩ (by omega)
      (by
        intro k hk
        have := hrx (k + 1) (by simpa using hk)
        simpa [Nat.add_assoc, Nat.add_comm 1 k] using this)
      (by simp; omega)
    refine ⟨s', by rw [i1, Nat.add_right_comm i 1 q.length]; rfl, ?_, i3, by rw [i4]; simp; omega⟩
    rw [i2, ← Nat.add_assoc, hs1, hs2 _ (by omega), List.length_cons,
      show base + i + 1 + q.length = base + i + (q.length + 1) by omega]
    simp

theorem startS_fed (env : Env) (sb : Byte) (timeout : Nat) (maxTime : BitVec 32) (q : List Byte)
    (hq : sb ∉ q) (fuel : Nat) (s : St) (hf : q.length < fuel)
    (hrx : ∀ k ≤ q.length, env.rx (s.log.length + k) = (q ++ [sb])[k]?)
    (hc : timeout ≠ 0 → ∀ k ≤ q.length, env.clock (s.clocks + k) < maxTime) :
    ∃ s', Arduino.startS env sb timeout maxTime fuel s = .ok (true, s') ∧ s'.mem = s.mem ∧
      s'.log.length = s.log.length + q.length + 1 := by
  induction q generalizing fuel s with
  | nil =>
    obtain ⟨fuel, rfl⟩ : ∃ f, fuel = f + 1 := ⟨fuel - 1, by simp at hf; omega⟩
    have h0 := hrx 0 (by simp)
    simp only [Nat.add_zero, List.nil_append, List.getElem?_cons_zero] at h0
    unfold Arduino.startS
    by_cases ht : timeout = 0
    · simp only [ht, if_true, h0]
      exact ⟨_, rfl, rfl, by simp⟩
    · have hlt := hc ht 0 (by simp)
      simp only [Nat.add_zero] at hlt
      simp only [ht, if_false, hlt, decide_true, if_true, tick, h0]
      exact ⟨_, rfl, rfl, by simp⟩
  | cons b q ih =>
    obtain ⟨fuel, rfl⟩ : ∃ f, fuel = f + 1 := ⟨fuel - 1, by simp at hf; omega⟩
    simp only [List.mem_cons, not_or, List.length_cons] at hq hf hc
    have h0 := hrx 0 (by simp)
    simp only [Nat.add_zero, List.cons_append, List.getElem?_cons_zero] at h0
    have step : ∀ c : Nat, (timeout ≠ 0 → c = s.clocks + 1) →
        ∃ s', Arduino.startS env sb timeout maxTime fuel ⟨s.mem, c, s.log ++ [(0, some b)]⟩ = .ok (true, s') ∧
          s'.mem = s.mem ∧ s'.log.length = s.log.length + (b :: q).length + 1 := by
      intro c hcl
      obtain ⟨s', i1, i2, i3⟩ := ih hq.2 fuel ⟨s.mem, c, s.log ++ [(0, some b)]⟩ (by omega)
        (by
          intro k hk
          have := hrx (k + 1) (by simpa using hk)
          simpa [Nat.add_assoc, Nat.add_comm 1 k] using this)
        (by
          intro ht k hk
          have := hc ht (k + 1) (by omega)
          rw [hcl ht]
          rwa [show s.clocks + (k + 1) = s.clocks + 1 + k by omega] at this)
      exact ⟨s', i1, i2, by rw [i3]; simp; omega⟩
    have hne : ¬ some b = some sb := by
      simp only [Option.some.injEq]
      exact fun h => hq.1 h.symm
    unfold Arduino.startS
    by_cases ht : timeout = 0
    · simp only [ht, if_true, h0, hne, if_false]
      have := step s.clocks (fun h => absurd ht h)
      rwa [ht] at this
    · have hlt := hc ht 0 (Nat.zero_le _)
      simp only [Nat.add_zero] at hlt
      simp only [ht, if_false, hlt, decide_true, if_true, tick, h0, hne]
      exact step (s.clocks + 1) (fun _ => rfl)

/-- One message on Arduino. -/
theorem arduino_message (env : Env) (W T fuel : Nat) (mem : List Byte) (m : Msg) (hm : m.Fine mem.length W T)
    (hq : Quick env W T) (hfeed : ∀ k < m.wire.length, env.rx k = m.wire[k]?) (hfuel : m.wire.length ≤ fuel) :
    ∃ s, m.arduinoCall.run env fuel mem = .ok (m.packet.length, s) ∧ s.mem = m.packet ++ mem.drop m.packet.length ∧
      s.log.length = m.wire.length := by
  cases m with
  | «until» size e timeout p =>
    obtain ⟨h1, h2, h3, h4, h5, h6, h7⟩ := hm
    simp only [Msg.wire, List.length_append, List.length_singleton] at hfeed hfuel
    have hsz : Arduino.toSize ((size : Int) - 1) = size - 1 := by unfold Arduino.toSize; omega
    obtain ⟨s, k1, k2, k3, k4⟩ := readUntil_fed env e 0 p h1 (size - 1) 0 ⟨mem, 0, []⟩ (by omega)
      (by intro k hk; simpa using hfeed k (by omega)) (by simp only; omega)
    simp only [Nat.zero_add, List.take_zero, List.nil_append, List.length_nil] at k1 k2 k4
    have hst : Arduino.store s.mem p.length [e] = .ok (p ++ [e] ++ mem.drop (p.length + 1)) := by
      rw [k2, Arduino.store_ok _ _ _ (by simp; omega), List.take_left, List.length_singleton, ← List.drop_drop,
        List.drop_left]
      simp [List.drop_drop]
    refine ⟨{ s with mem := p ++ [e] ++ mem.drop (p.length + 1) }, ?_, by simp [Msg.packet], by simp [Msg.wire, k4]⟩
    simp only [Msg.arduinoCall, Arduino.Call.run, Arduino.receiveUntilS, hsz, k1, Res.bind_ok,
      Nat.mod_eq_of_lt (show p.length < 65536 by omega), hst, Nat.mod_eq_of_lt (show p.length + 1 < 65536 by omega),
      Msg.packet, List.length_append, List.length_singleton]
  | between size sb e timeout noise p =>
    obtain ⟨h1, h2, h3, h4, h5, h6, h7, h8⟩ := hm
    simp only [Msg.wire, List.length_append, List.length_nil, List.length_cons] at hfeed hfuel
    have hsz : Arduino.toSize ((size : Int) - 1 - 1) = size - 2 := by unfold Arduino.toSize; omega
    have hmax : (env.clock 0 + BitVec.ofNat 32 timeout).toNat = (env.clock 0).toNat + timeout := by
      have := (hq 0 0 (by omega) (by omega)).2.2
      rw [BitVec.toNat_add, BitVec.toNat_ofNat]; omega
    obtain ⟨s1, k1, k2, k4⟩ := startS_fed env sb timeout (env.clock 0 + BitVec.ofNat 32 timeout) noise h1 fuel
      ⟨mem, 1, []⟩ (by omega)
      (by
        intro k hk
        have := hfeed k (by omega)
        simp only [List.length_nil, Nat.zero_add]
        rw [this, show noise ++ (sb :: p ++ [e]) = (noise ++ [sb]) ++ (p ++ [e]) by simp,
          List.getElem?_append_left (by simp; omega)])
      (by
        intro ht k hk
        have := hq 0 (1 + k) (by omega) (by omega)
        rw [BitVec.lt_def, hmax]
        simp only
        omega)
    simp only [List.length_nil, Nat.zero_add] at k2 k4
    have hm1 : Arduino.store s1.mem 0 [sb] = .ok (sb :: mem.drop 1) := by
      rw [k2, Arduino.store_ok _ _ _ (by simp; omega)]
      simp
    obtain ⟨s2, j1, j2, j3, j4⟩ := readUntil_fed env e 1 p h2 (size - 2) 0 { s1 with mem := sb :: mem.drop 1 } (by omega)
      (by
        intro k hk
        simp only [k4]
        have := hfeed (noise.length + 1 + k) (by omega)
        rw [this, show noise ++ (sb :: p ++ [e]) = (noise ++ [sb]) ++ (p ++ [e]) by simp,
          List.getElem?_append_right (by simp)]
        simp only [List.length_append, List.length_singleton, Nat.add_sub_cancel_left])
      (by simp; omega)
    simp only [Nat.zero_add, Nat.add_zero] at j1 j2
    have j2 : s2.mem = sb :: p ++ mem.drop (1 + p.length) := by
      rw [j2, List.take_succ_cons, List.take_zero, Nat.add_comm 1 p.length, List.drop_succ_cons, List.drop_drop]
      simp [Nat.add_comm]
    have hst2 : Arduino.store s2.mem (1 + p.length) [e] = .ok (sb :: p ++ [e] ++ mem.drop (p.length + 2)) := by
      rw [j2, Arduino.store_ok _ _ _ (by simp; omega)]
      congr 1
      rw [List.take_append_of_le_length (by simp; omega), List.take_of_length_le (by simp; omega),
        List.length_singleton, List.drop_append, List.drop_of_length_le (by rw [List.length_cons]; omega)]
      simp [List.drop_drop]
      congr 1
      omega
    refine ⟨{ s2 with mem := sb :: p ++ [e] ++ mem.drop (p.length + 2) }, ?_, by simp [Msg.packet], ?_⟩
    · simp only [Msg.arduinoCall, Arduino.Call.run, Arduino.receiveBetweenS, tick, k1, Res.bind_ok, if_true, hm1, hsz, j1,
        Nat.mod_eq_of_lt (show 1 + p.length < 65536 by omega), hst2,
        Nat.mod_eq_of_lt (show 1 + p.length + 1 < 65536 by omega), Msg.packet, List.length_append, List.length_nil,
        List.length_cons]
      rw [Nat.add_comm 1 p.length]
    · simp [Msg.wire, j4, k4]; omega

/-- **C90**: on Arduino the messages are delivered one by one. -/
theorem arduino_messages (env : Env) (W T fuel : Nat) (mem : List Byte) (ms : List Msg)
    (hm : ∀ m ∈ ms, m.Fine mem.length W T) (hq : Quick env W T) (hfeed : Feeds env (ms.flatMap Msg.wire))
    (hfuel : ∀ m ∈ ms, m.wire.length ≤ fuel) :
    Arduino.runCalls fuel env mem (ms.map Msg.arduinoCall) = .ok (ms.map Msg.packet, (ms.flatMap Msg.wire).length) := by
  induction ms generalizing env mem with
  | nil => rfl
  | cons m ms ih =>
    simp only [List.mem_cons, forall_eq_or_imp] at hm hfuel
    have hfirst : ∀ k < m.wire.length, env.rx k = m.wire[k]? :=
      (feeds_after (s := ⟨[], 0, m.wire.map fun b => (0, some b)⟩) hfeed (by simp)).1
    obtain ⟨s, h1, h2, h3⟩ := arduino_message env W T fuel mem m hm.1 hq hfirst hfuel.1
    have hlen : mem.length ≤ s.mem.length := by rw [h2]; simp; omega
    have hrest := ih (env.after s) s.mem
      (by
        intro m' hm'
        have := hm.2 m' hm'
        cases m' with
        | «until» => obtain ⟨a, b, c, d⟩ := this; exact ⟨a, b, by omega, d⟩
        | between => obtain ⟨a, b, c, d, d'⟩ := this; exact ⟨a, b, c, by omega, d'⟩)
      (quick_after hq s) (feeds_after hfeed h3).2 hfuel.2
    simp only [List.map_cons, Arduino.runCalls, h1, Res.bind_ok, hrest, List.flatMap_cons, List.length_append, h3]
    rw [h2, List.take_left]

/-- **C90**, what holds: with the same bytes on the wire, and clocks of their own, both platforms deliver the same packets
(those which were sent) and leave the same bytes to be read. -/
theorem platforms_agree_partial (clockE clockA : Nat → BitVec 32) (rx : Nat → Option Byte) (W T fuel : Nat)
    (memE memA : List Byte) (ms : List Msg) (hm : ∀ m ∈ ms, m.Fine memE.length W T ∧ m.Fine memA.length W T)
    (hE : Quick ⟨clockE, rx⟩ W T) (hA : Quick ⟨clockA, rx⟩ W T)
    (hfeed : ∀ k < (ms.flatMap Msg.wire).length, rx k = (ms.flatMap Msg.wire)[k]?)
    (hfuel : ∀ m ∈ ms, m.wire.length ≤ fuel) :
    Esp.runCalls fuel ⟨clockE, rx⟩ memE (ms.map Msg.espCall) =
      Arduino.runCalls fuel ⟨clockA, rx⟩ memA (ms.map Msg.arduinoCall) ∧
    Esp.runCalls fuel ⟨clockE, rx⟩ memE (ms.map Msg.espCall) =
      .ok (ms.map Msg.packet, (ms.flatMap Msg.wire).length) := by
  have h1 := esp_messages ⟨clockE, rx⟩ W T fuel memE ms (fun m h => (hm m h).1) hE hfeed hfuel
  have h2 := arduino_messages ⟨clockA, rx⟩ W T fuel memA ms (fun m h => (hm m h).2) hA hfeed hfuel
  exact ⟨by rw [h1, h2], h1⟩

/-! ## Differences -/

/-- **C90 is false** on an idle line: when nothing arrives, `ReceiveUntil` returns nothing on ESP32 (`j` is the first reading
of the clock at or after the deadline) and the terminator, which was not received, on Arduino. -/
theorem idle_line (env : Env) (hidle : ∀ k, env.rx k = none) (mem : List Byte) (size : Nat) (e : Byte) (timeout j : Nat)
    (h1 : 1 ≤ size) (h2 : size < 65536) (hs : size ≤ mem.length) (ht : timeout ≠ 0)
    (hj : ∀ k, 1 ≤ k → k < j → env.clock k < env.clock 0 + BitVec.ofNat 32 timeout)
    (hj1 : 1 ≤ j) (hjd : env.clock 0 + BitVec.ofNat 32 timeout ≤ env.clock j) :
    (∃ s, Esp.receiveUntil env j mem size e timeout = .ok (0, s) ∧ s.mem = mem) ∧
    ∃ s, Arduino.receiveUntilS env mem size e = .ok (1, s) ∧ s.mem = e :: mem.drop 1 := by
  constructor
  · have key : ∀ fuel c l st, 1 ≤ c → fuel + c = j + 1 → c ≤ j →
        ∃ s, Esp.untilLoop env size e timeout (env.clock 0 + BitVec.ofNat 32 timeout) fuel 0 st ⟨mem, c, l⟩ = .ok (0, s) ∧
          s.mem = mem := by
      intro fuel
      induction fuel with
      | zero => intro c l st hc hf hle; omega
      | succ fuel ih =>
        intro c l st hc hf hle
        unfold Esp.untilLoop
        rw [if_pos (by omega)]
        simp only [ht, if_false, tick, false_or]
        by_cases hcj : c = j
        · have hn : ¬ env.clock c < env.clock 0 + BitVec.ofNat 32 timeout := by
            rw [hcj, BitVec.not_lt]; exact hjd
          rw [if_neg hn]
          exact ⟨_, rfl, rfl⟩
        · rw [if_pos (hj c hc (by omega))]
          simp only [Esp.readByte, hidle, Res.bind_ok, Bool.false_eq_true, if_false]
          exact ih (c + 1) _ _ (by omega) (by omega) (by omega)
    exact key j 1 [] (env.clock 0) (by omega) (by omega) hj1
  · obtain ⟨bs, t, s, k1, k2, k3, k4, k5, k6, k7⟩ := Arduino.receiveUntilS_ok env mem size e h1 h2 hs
    have hnone : bs = [] := by
      cases bs with
      | nil => rfl
      | cons b bs =>
        have : some b ∈ Arduino.outcomes env s.log.length := by rw [k7]; simp
        simp [Arduino.outcomes, hidle] at this
    subst hnone
    exact ⟨s, k1, by simpa using k5⟩

/-- The bytes before the terminator fill the buffer. -/
theorem readUntil_full (env : Env) (e : Byte) : ∀ (q : List Byte) (n i : Nat) (s : St), e ∉ q → n = q.length →
    (∀ k < q.length, env.rx (s.log.length + k) = q[k]?) → i + q.length ≤ s.mem.length →
    ∃ s', Arduino.readUntil env e 0 n i s = .ok (i + q.length, s') ∧
      s'.mem = s.mem.take i ++ q ++ s.mem.drop (i + q.length) ∧ s'.clocks = s.clocks ∧
      s'.log.length = s.log.length + q.length := by
  intro q
  induction q with
  | nil => intro n i s _ hn _ _; subst hn; exact ⟨s, rfl, by simp, rfl, rfl⟩
  | cons b q ih =>
    intro n i s he hn hrx hm
    subst hn
    simp only [List.mem_cons, not_or, List.length_cons] at he hm
    have h0 := hrx 0 (by simp)
    simp only [Nat.add_zero, List.getElem?_cons_zero] at h0
    obtain ⟨hs1, hs2⟩ := set_split s.mem i b (by omega)
    rw [List.length_cons]
    unfold Arduino.readUntil
    simp only [h0, show ¬ b = e from fun h => he.1 h.symm, if_false, Nat.zero_add, show i < s.mem.length by omega, if_true]
    obtain ⟨s', i1, i2, i3, i4⟩ := ih q.length (i + 1) ⟨s.mem.set i b, s.clocks, s.log ++ [(0, some b)]⟩ he.2 rfl
      (by
        intro k hk
        have := hrx (k + 1) (by simpa using hk)
        simpa [Nat.add_assoc, Nat.add_comm 1 k] using this)
      (by simp; omega)
    refine ⟨s', by rw [i1, Nat.add_right_comm i 1 q.length]; rfl, ?_, i3, by rw [i4]; simp; omega⟩
    rw [i2, hs1, hs2 _ (by omega), show i + 1 + q.length = i + (q.length + 1) by omega]
    simp

/-- **C90 is false** for a packet which exactly fills the buffer: ESP32 takes its terminator with it; Arduino leaves it on
the wire and delivers it as a packet of its own. -/
theorem full_buffer (env : Env) (p q : List Byte) (e : Byte) (hp : e ∉ p) (hq : e ∉ q) (mem : List Byte)
    (hs : p.length + 1 ≤ mem.length) (h2 : p.length + 1 < 65536) (hlen : q.length ≤ p.length) (hp1 : p ≠ [])
    (hfeed : Feeds env (p ++ [e] ++ (q ++ [e]))) (fuel : Nat) (hf : p.length < fuel) :
    Esp.runCalls fuel env mem [.until (p.length + 1) e 0, .until (p.length + 1) e 0] =
      .ok ([p ++ [e], q ++ [e]], (p ++ [e] ++ (q ++ [e])).length) ∧
    Arduino.runCalls fuel env mem [.until (p.length + 1) e 0, .until (p.length + 1) e 0] =
      .ok ([p ++ [e], [e]], p.length + 1) := by
  constructor
  · obtain ⟨s, k1, k2, k3⟩ := untilLoop_fed env (p.length + 1) e 0 (env.clock 0 + BitVec.ofNat 32 0) p hp fuel 0
      (env.clock 0) ⟨mem, 1, []⟩ hf
      (by
        intro k hk
        simp only [List.length_nil, Nat.zero_add]
        rw [hfeed k (by simp; omega), List.getElem?_append_left (by simp; omega)])
      (by omega) hs (fun h => absurd rfl h)
    simp only [Nat.zero_add, List.take_zero, List.nil_append, List.length_nil] at k1 k2 k3
    obtain ⟨s2, j1, j2, j3⟩ := untilLoop_fed (env.after s) (p.length + 1) e 0 ((env.after s).clock 0 + BitVec.ofNat 32 0) q hq
      fuel 0 ((env.after s).clock 0) ⟨s.mem, 1, []⟩ (by omega)
      (by
        intro k hk
        have := (feeds_after hfeed (s := s) (by rw [k3]; simp)).2 k (by simp; omega)
        simpa using this)
      (by omega) (by rw [k2]; simp) (fun h => absurd rfl h)
    simp only [Nat.zero_add, List.take_zero, List.nil_append, List.length_nil] at j1 j2 j3
    simp only [Esp.runCalls, Esp.Call.run, Esp.receiveUntil, tick, k1, Res.bind_ok, j1, k3, j3]
    rw [k2, j2, show p.length + 1 = (p ++ [e]).length by simp, List.take_left,
      show q.length + 1 = (q ++ [e]).length by simp, List.take_left]
    simp
    omega
  · have hsz : Arduino.toSize (((p.length + 1 : Nat) : Int) - 1) = p.length := by unfold Arduino.toSize; omega
    obtain ⟨s, k1, k2, k3, k4⟩ := readUntil_full env e p p.length 0 ⟨mem, 0, []⟩ hp rfl
      (by
        intro k hk
        simp only [List.length_nil, Nat.zero_add]
        rw [hfeed k (by simp; omega), List.append_assoc, List.getElem?_append_left hk])
      (by simp only; omega)
    simp only [Nat.zero_add, List.take_zero, List.nil_append, List.length_nil] at k1 k2 k4
    have hst : Arduino.store s.mem p.length [e] = .ok (p ++ [e] ++ mem.drop (p.length + 1)) := by
      rw [k2, Arduino.store_ok _ _ _ (by simp; omega), List.take_left, List.length_singleton, ← List.drop_drop,
        List.drop_left]
      simp [List.drop_drop]
    have hr1 : Arduino.receiveUntilS env mem (p.length + 1) e =
        .ok (p.length + 1, { s with mem := p ++ [e] ++ mem.drop (p.length + 1) }) := by
      simp only [Arduino.receiveUntilS, hsz, k1, Res.bind_ok, Nat.mod_eq_of_lt (show p.length < 65536 by omega), hst,
        Nat.mod_eq_of_lt h2]
    -- the second call finds the terminator
    have hnext : (env.after { s with mem := p ++ [e] ++ mem.drop (p.length + 1) }).rx 0 = some e := by
      simp only [Env.after, k4, Nat.add_zero]
      rw [hfeed p.length (by simp), List.append_assoc, List.getElem?_append_right (Nat.le_refl _)]
      simp
    obtain ⟨l, hl⟩ : ∃ l, p.length = l + 1 := ⟨p.length - 1, by
      have := List.length_pos_iff.2 hp1; omega⟩
    have hst2 : Arduino.store (p ++ [e] ++ mem.drop (p.length + 1)) 0 [e] =
        .ok (e :: (p ++ [e] ++ mem.drop (p.length + 1)).drop 1) := by
      rw [Arduino.store_ok _ _ _ (by simp; omega)]
      simp
    have hr2 : Arduino.receiveUntilS (env.after { s with mem := p ++ [e] ++ mem.drop (p.length + 1) })
        (p ++ [e] ++ mem.drop (p.length + 1)) (p.length + 1) e =
        .ok (1, ⟨e :: (p ++ [e] ++ mem.drop (p.length + 1)).drop 1, 0, [(0, some e)]⟩) := by
      simp only [Arduino.receiveUntilS, hsz]
      rw [hl]
      unfold Arduino.readUntil
      rw [← hl]
      simp only [List.length_nil, hnext, if_true, Res.bind_ok, Nat.zero_mod, hst2, List.nil_append]
    simp only [Arduino.runCalls, Arduino.Call.run, hr1, hr2, Res.bind_ok, k4, List.length_singleton]
    rw [show p.length + 1 = (p ++ [e]).length by simp, List.take_left]
    simp

theorem untilLoop_full (env : Env) (size : Nat) (e : Byte) (maxTime : BitVec 32) (q : List Byte)
    (he : e ∉ q) (fuel pos : Nat) (start : BitVec 32) (s : St) (hf : q.length < fuel)
    (hrx : ∀ k < q.length, env.rx (s.log.length + k) = q[k]?) (hsz : pos + q.length = size) (hm : size ≤ s.mem.length) :
    ∃ s', Esp.untilLoop env size e 0 maxTime fuel pos start s = .ok (size, s') ∧
      s'.mem = s.mem.take pos ++ q ++ s.mem.drop size ∧ s'.log.length = s.log.length + q.length := by
  induction q generalizing fuel pos start s with
  | nil =>
    obtain ⟨fuel, rfl⟩ : ∃ f, fuel = f + 1 := ⟨fuel - 1, by simp at hf; omega⟩
    simp only [List.length_nil, Nat.add_zero] at hsz
    unfold Esp.untilLoop
    rw [if_neg (by omega), hsz]
    exact ⟨s, rfl, by simp, rfl⟩
  | cons b q ih =>
    obtain ⟨fuel, rfl⟩ : ∃ f, fuel = f + 1 := ⟨fuel - 1, by simp at hf; omega⟩
    simp only [List.mem_cons, not_or, List.length_cons] at he hf hsz
    have h0 := hrx 0 (by simp)
    simp only [Nat.add_zero, List.getElem?_cons_zero] at h0
    obtain ⟨hs1, hs2⟩ := set_split s.mem pos b (by omega)
    unfold Esp.untilLoop
    rw [if_pos (by omega)]
    simp only [if_true, true_or, Esp.readByte, h0, show pos < s.mem.length by omega, Res.bind_ok]
    rw [List.getElem?_set_self (by omega)]
    simp only [show ¬ b = e from fun h => he.1 h.symm, if_false]
    obtain ⟨s', i1, i2, i3⟩ := ih he.2 fuel (pos + 1) start
      ⟨s.mem.set pos b, s.clocks, s.log ++ [(maxTime - start, some b)]⟩ (by omega)
      (by
        intro k hk
        have := hrx (k + 1) (by simpa using hk)
        simpa [Nat.add_assoc, Nat.add_comm 1 k] using this)
      (by omega) (by simpa using hm)
    refine ⟨s', i1, ?_, by rw [i3]; simp; omega⟩
    rw [i2, hs1, hs2 _ (by omega)]
    simp

/-- **C90 is false** for a packet which is too long for the buffer: ESP32 delivers as many of its bytes as the buffer holds,
Arduino one less, and a terminator which was not received. -/
theorem too_long (env : Env) (p q : List Byte) (b e : Byte) (hp : e ∉ p) (hb : b ≠ e) (mem : List Byte)
    (hs : p.length + 1 ≤ mem.length) (h2 : p.length + 1 < 65536) (hfeed : Feeds env (p ++ b :: q)) (fuel : Nat)
    (hf : p.length + 1 < fuel) :
    Esp.runCalls fuel env mem [.until (p.length + 1) e 0] = .ok ([p ++ [b]], p.length + 1) ∧
    Arduino.runCalls fuel env mem [.until (p.length + 1) e 0] = .ok ([p ++ [e]], p.length) := by
  have hf' : ∀ k < p.length + 1, env.rx k = (p ++ [b])[k]? := by
    intro k hk
    rw [hfeed k (by simp; omega), show p ++ b :: q = p ++ [b] ++ q by simp, List.getElem?_append_left (by simp; omega)]
  constructor
  · obtain ⟨s, k1, k2, k3⟩ := untilLoop_full env (p.length + 1) e (env.clock 0 + BitVec.ofNat 32 0) (p ++ [b])
      (by simp [hp, Ne.symm hb]) fuel 0 (env.clock 0) ⟨mem, 1, []⟩ (by simpa using hf)
      (by intro k hk; simpa using hf' k (by simpa using hk)) (by simp) hs
    simp only [List.take_zero, List.nil_append, List.length_nil, Nat.zero_add, List.length_append,
      List.length_cons] at k2 k3
    simp only [Esp.runCalls, Esp.Call.run, Esp.receiveUntil, tick, k1, Res.bind_ok, k3]
    rw [k2, List.take_left' (by simp)]
  · have hsz : Arduino.toSize (((p.length + 1 : Nat) : Int) - 1) = p.length := by unfold Arduino.toSize; omega
    obtain ⟨s, k1, k2, k3, k4⟩ := readUntil_full env e p p.length 0 ⟨mem, 0, []⟩ hp rfl
      (by
        intro k hk
        simp only [List.length_nil, Nat.zero_add]
        rw [hf' k (by omega), List.getElem?_append_left hk])
      (by simp only; omega)
    simp only [Nat.zero_add, List.take_zero, List.nil_append, List.length_nil] at k1 k2 k4
    have hst : Arduino.store s.mem p.length [e] = .ok (p ++ [e] ++ mem.drop (p.length + 1)) := by
      rw [k2, Arduino.store_ok _ _ _ (by simp; omega), List.take_left, List.length_singleton, ← List.drop_drop,
        List.drop_left]
      simp [List.drop_drop]
    have hr1 : Arduino.receiveUntilS env mem (p.length + 1) e =
        .ok (p.length + 1, { s with mem := p ++ [e] ++ mem.drop (p.length + 1) }) := by
      simp only [Arduino.receiveUntilS, hsz, k1, Res.bind_ok, Nat.mod_eq_of_lt (show p.length < 65536 by omega), hst,
        Nat.mod_eq_of_lt h2]
    simp only [Arduino.runCalls, Arduino.Call.run, hr1, Res.bind_ok, k4]
    rw [List.take_left' (by simp)]
    rfl

/-- **C90 is false** of a time-out of zero: on ESP32 `ReceiveBetween` gives up at once if nothing is there, on Arduino it
waits for ever. -/
theorem zero_timeout (env : Env) (hidle : ∀ k, env.rx k = none) (mem : List Byte) (size : Nat) (sb e : Byte) (fuel : Nat) :
    (∃ s, Esp.receiveBetween env (fuel + 1) mem size sb e 0 = .ok (0, s) ∧ s.mem = mem) ∧
    Arduino.receiveBetweenS env fuel mem size sb e 0 = .hang := by
  refine ⟨Esp.receiveBetween_zero_timeout env (hidle 0) fuel mem size sb e, ?_⟩
  have key : ∀ m fuel s, Arduino.startS env sb 0 m fuel s = .hang := by
    intro m fuel
    induction fuel with
    | zero => intro s; rfl
    | succ fuel ih =>
      intro s
      unfold Arduino.startS
      simp only [if_true, hidle, reduceCtorEq, if_false]
      exact ih _
  unfold Arduino.receiveBetweenS
  simp only [key, Res.bind_hang]

/-- Noise, a packet, and one without start byte, on both platforms. -/
example : let rx := fun k => [9, 2, 5, 6, 3, 7, 8, 3][k]?
    let env : Env := ⟨fun k => BitVec.ofNat 32 (100 + k), rx⟩
    Esp.runCalls 9 env [0, 0, 0, 0, 0] [.between 5 2 3 20, .until 5 3 0] = .ok ([[2, 5, 6, 3], [7, 8, 3]], 8) ∧
    Arduino.runCalls 9 env [0, 0, 0, 0, 0] [.between 5 2 3 20, .until 5 3 0] = .ok ([[2, 5, 6, 3], [7, 8, 3]], 8) := by
  decide

/-- The hypotheses of `platforms_agree_partial` for these messages. -/
example : (∀ m ∈ [Msg.between 5 2 3 20 [9] [5, 6], .until 5 3 0 [7, 8]], m.Fine 5 10 20) ∧
    Quick ⟨fun k => BitVec.ofNat 32 (min k 1000), fun _ => none⟩ 10 20 := by
  constructor
  · intro m hm
    simp only [List.mem_cons, List.not_mem_nil, or_false] at hm
    rcases hm with rfl | rfl <;> simp [Msg.Fine]
  · intro i j h1 h2
    simp only [BitVec.toNat_ofNat]
    omega

end Verif.Uart.Portable
