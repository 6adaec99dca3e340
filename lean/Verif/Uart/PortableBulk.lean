import Verif.Uart.Portable
import Verif.Uart.EspMixed
/-!
# C90: bulk and packet receptions on both platforms

`Receive` together with the two packet functions.
-/
namespace Verif.Uart.Portable.Bulk
open Verif
open Verif.Uart.Esp (Env St tick)

/-! ## Specification -/

/-- A message and the call which is to receive it; for `Receive` it has the size asked for. -/
inductive Msg where
  | packet (m : Portable.Msg)
  | bulk (timeout : Nat) (p : List Byte)

/-- The bytes on the wire. -/
def Msg.wire : Msg → List Byte
  | .packet m => m.wire
  | .bulk _ p => p

/-- What is to be delivered. -/
def Msg.packetOf : Msg → List Byte
  | .packet m => m.packet
  | .bulk _ p => p

/-- The call on ESP32. -/
def Msg.espCall : Msg → Esp.Mixed.Call
  | .packet m => .packet m.espCall
  | .bulk timeout p => .receive p.length timeout

/-- The call on Arduino. -/
def Msg.arduinoCall : Msg → Arduino.Call
  | .packet m => m.arduinoCall
  | .bulk timeout p => .all p.length timeout

/-- As for packets (`Portable.Msg.Fine`); a bulk message may fill the buffer, but there must be a time-out. -/
def Msg.Fine (room W T : Nat) : Msg → Prop
  | .packet m => m.Fine room W T
  | .bulk timeout p => p.length ≤ room ∧ p.length < 65536 ∧ p.length + 1 ≤ W ∧ T ≤ timeout ∧ timeout < 65536

/-- The driver on ESP32 has the bytes of the messages in time: from its `r`-th read on it delivers them one by one, or all
those asked for at once. -/
def Supplies (w : Esp.Mixed.World) : Nat → List Msg → Prop
  | _, [] => True
  | r, .packet m :: ms => (∀ k < m.wire.length, w.read (r + k) 1 = m.wire[k]?.map ([·])) ∧ Supplies w (r + m.wire.length) ms
  | r, .bulk _ p :: ms => w.read r p.length = some p ∧ Supplies w (r + 1) ms

/-! ## ESP32 -/

theorem fine_mono {m : Portable.Msg} {a b W T : Nat} (hab : a ≤ b) (h : m.Fine a W T) : m.Fine b W T := by
  cases m with
  | «until» => obtain ⟨a, b, c, d⟩ := h; exact ⟨a, b, by omega, d⟩
  | between => obtain ⟨a, b, c, d, d'⟩ := h; exact ⟨a, b, c, by omega, d'⟩

theorem Msg.Fine.mono {m : Msg} {a b W T : Nat} (hab : a ≤ b) (h : m.Fine a W T) : m.Fine b W T := by
  cases m with
  | packet m => exact fine_mono hab h
  | bulk timeout p => obtain ⟨a, b⟩ := h; exact ⟨by omega, b⟩

/-- **C90**: on ESP32 all messages are delivered one by one, and nothing else is read. -/
theorem esp_messages (w : Esp.Mixed.World) (period : Nat) (hp : 0 < period) (W T fuel c r : Nat) (mem : List Byte)
    (ms : List Msg) (hm : ∀ m ∈ ms, m.Fine mem.length W T) (hq : Quick ⟨w.clock, fun _ => none⟩ W T)
    (hs : Supplies w r ms) (hfuel : ∀ m ∈ ms, m.wire.length ≤ fuel) :
    ∃ asks, Esp.Mixed.runCalls w period fuel c r mem (ms.map Msg.espCall) = .ok (ms.map Msg.packetOf, asks) ∧
      w.delivered r asks = ms.flatMap Msg.wire := by
  induction ms generalizing c r mem with
  | nil => exact ⟨[], rfl, rfl⟩
  | cons m ms ih =>
    simp only [List.mem_cons, forall_eq_or_imp] at hm hfuel
    cases m with
    | packet m =>
      obtain ⟨hs1, hs2⟩ := hs
      have hq' : Quick (w.env c r) W T := fun i j h1 h2 => hq (c + i) (c + j) (by omega) (by omega)
      have hfeed : ∀ k < m.wire.length, (w.env c r).rx k = m.wire[k]? := by
        intro k hk
        simp only [Esp.Mixed.World.env, hs1 k hk]
        rw [List.getElem?_eq_getElem hk]
        rfl
      obtain ⟨s, k1, k2, k3⟩ := esp_message (w.env c r) W T fuel mem m hm.1 hq' hfeed hfuel.1
      have hlen : mem.length ≤ s.mem.length := by rw [k2]; simp; omega
      obtain ⟨asks, j1, j2⟩ := ih (c + s.clocks) (r + m.wire.length) s.mem (fun m' h => (hm.2 m' h).mono hlen) hs2 hfuel.2
      refine ⟨s.log.map (fun _ => 1) ++ asks, ?_, ?_⟩
      · simp only [List.map_cons, Msg.espCall, Esp.Mixed.runCalls, Esp.Mixed.Call.run, k1, Res.bind_ok, List.length_map,
          k3, j1, Msg.packetOf]
        rw [k2, List.take_left]
      · rw [Esp.Mixed.delivered_append, List.length_map, k3, j2, List.map_const', k3]
        simp only [List.flatMap_cons, Msg.wire, List.append_cancel_right_eq]
        -- reads of single bytes
        have key : ∀ (l : List Byte) r, (∀ k < l.length, w.read (r + k) 1 = l[k]?.map ([·])) →
            w.delivered r (List.replicate l.length 1) = l := by
          intro l
          induction l with
          | nil => intro r _; rfl
          | cons b l ihl =>
            intro r h
            have h0 := h 0 (by simp)
            simp only [Nat.add_zero, List.getElem?_cons_zero, Option.map_some] at h0
            rw [List.length_cons, List.replicate_succ, Esp.Mixed.World.delivered, h0, ihl (r + 1)]
            · rfl
            · intro k hk
              have := h (k + 1) (by simpa using hk)
              rw [show r + 1 + k = r + (k + 1) by omega, this, List.getElem?_cons_succ]
        exact key _ r hs1
    | bulk timeout p =>
      obtain ⟨hs1, hs2⟩ := hs
      obtain ⟨h1, h2, h3, h4, h5⟩ := hm.1
      obtain ⟨ticks, n, m', s', k1, -, -, -, -, k6⟩ := Device.packetReceive_exact_partial (w.driver r p.length) period hp 0
        p.length timeout h2 h5 mem h1 ⟨[], fun _ => true⟩
        ⟨fun b hb => by simp only [Esp.Mixed.World.driver, hs1] at hb; cases hb; exact Nat.le_refl _, .inr ⟨0, by omega, rfl⟩⟩
      have e : (w.driver r p.length).received [] = some p := hs1
      rw [e] at k6
      obtain ⟨rfl, -, rfl⟩ := k6
      have hlen : mem.length ≤ (p ++ mem.drop p.length).length := by simp; omega
      obtain ⟨asks, j1, j2⟩ := ih c (r + 1) _ (fun m' h => (hm.2 m' h).mono hlen) hs2 hfuel.2
      refine ⟨[p.length] ++ asks, ?_, ?_⟩
      · simp only [List.map_cons, Msg.espCall, Esp.Mixed.runCalls, Esp.Mixed.Call.run, k1, Res.bind_ok, List.length_singleton,
          Nat.add_zero, j1, Msg.packetOf, List.take_left]
      · rw [Esp.Mixed.delivered_append, List.length_singleton, j2]
        simp [Esp.Mixed.World.delivered, hs1, Msg.wire]

/-! ## Arduino -/

theorem receiveLoop_fed (env : Env) (size : Nat) (maxTime : BitVec 32) (q : List Byte) (fuel pos : Nat) (s : St)
    (hf : q.length < fuel) (hrx : ∀ k < q.length, env.rx (s.log.length + k) = q[k]?) (hp : pos + q.length = size)
    (hm : size ≤ s.mem.length) (hc : ∀ k < q.length, env.clock (s.clocks + k) < maxTime) :
    ∃ s', Arduino.receiveLoop env size maxTime fuel pos s = .ok (size, s') ∧
      s'.mem = s.mem.take pos ++ q ++ s.mem.drop size ∧ s'.log.length = s.log.length + q.length := by
  induction q generalizing fuel pos s with
  | nil =>
    obtain ⟨fuel, rfl⟩ : ∃ f, fuel = f + 1 := ⟨fuel - 1, by simp at hf; omega⟩
    simp only [List.length_nil, Nat.add_zero] at hp
    subst hp
    refine ⟨{ s with clocks := s.clocks + 1 }, ?_, by simp, by simp⟩
    unfold Arduino.receiveLoop
    simp only [tick, Nat.lt_irrefl, and_false, if_false]
  | cons b q ih =>
    obtain ⟨fuel, rfl⟩ : ∃ f, fuel = f + 1 := ⟨fuel - 1, by simp at hf; omega⟩
    simp only [List.length_cons] at hf hp hrx hc
    have h0 := hrx 0 (by omega)
    simp only [Nat.add_zero, List.getElem?_cons_zero] at h0
    have hc0 := hc 0 (by omega)
    rw [Nat.add_zero] at hc0
    obtain ⟨hs1, hs2⟩ := set_split s.mem pos b (by omega)
    unfold Arduino.receiveLoop
    simp only [tick, hc0, show pos < size by omega, and_self, if_true]
    simp only [Esp.readByte, h0, show pos < s.mem.length by omega, if_true, Res.bind_ok]
    obtain ⟨s', i1, i2, i3⟩ := ih fuel (pos + 1) ⟨s.mem.set pos b, s.clocks + 1, s.log ++ [(0, some b)]⟩ (by omega)
      (by
        intro k hk
        have := hrx (k + 1) (by omega)
        simpa [Nat.add_assoc, Nat.add_comm 1 k] using this)
      (by omega) (by simpa using hm)
      (by
        intro k hk
        have := hc (k + 1) (by omega)
        rwa [show s.clocks + 1 + k = s.clocks + (k + 1) by omega])
    refine ⟨s', i1, ?_, by rw [i3]; simp; omega⟩
    rw [i2]
    simp only
    rw [hs1, hs2 size (by omega)]
    simp

theorem arduino_message (env : Env) (W T fuel : Nat) (mem : List Byte) (m : Msg) (hm : m.Fine mem.length W T)
    (hq : Quick env W T) (hfeed : ∀ k < m.wire.length, env.rx k = m.wire[k]?) (hfuel : m.wire.length < fuel) :
    ∃ s, m.arduinoCall.run env fuel mem = .ok (m.packetOf.length, s) ∧
      s.mem = m.packetOf ++ mem.drop m.packetOf.length ∧ s.log.length = m.wire.length := by
  cases m with
  | packet m => exact Portable.arduino_message env W T fuel mem m hm hq hfeed (Nat.le_of_lt hfuel)
  | bulk timeout p =>
    obtain ⟨h1, h2, h3, h4, h5⟩ := hm
    have hmax : (env.clock 0 + BitVec.ofNat 32 timeout).toNat = (env.clock 0).toNat + timeout := by
      have := (hq 0 0 (by omega) (by omega)).2.2
      rw [BitVec.toNat_add, BitVec.toNat_ofNat]; omega
    obtain ⟨s, k1, k2, k3⟩ := receiveLoop_fed env p.length (env.clock 0 + BitVec.ofNat 32 timeout) p fuel 0
      ⟨mem, 1, []⟩ hfuel (by intro k hk; simpa [Msg.wire] using hfeed k hk) (by omega) h1
      (by
        intro k hk
        have := hq 0 (1 + k) (by omega) (by omega)
        rw [BitVec.lt_def, hmax]
        simp only
        omega)
    exact ⟨s, k1, by simpa [Msg.packetOf] using k2, by simpa [Msg.wire] using k3⟩

/-- **C90**: on Arduino all messages are delivered one by one, and nothing else is read. -/
theorem arduino_messages (env : Env) (W T fuel : Nat) (mem : List Byte) (ms : List Msg)
    (hm : ∀ m ∈ ms, m.Fine mem.length W T) (hq : Quick env W T) (hfeed : Feeds env (ms.flatMap Msg.wire))
    (hfuel : ∀ m ∈ ms, m.wire.length < fuel) :
    Arduino.runCalls fuel env mem (ms.map Msg.arduinoCall) = .ok (ms.map Msg.packetOf, (ms.flatMap Msg.wire).length) := by
  induction ms generalizing env mem with
  | nil => rfl
  | cons m ms ih =>
    simp only [List.mem_cons, forall_eq_or_imp] at hm hfuel
    have hfirst : ∀ k < m.wire.length, env.rx k = m.wire[k]? :=
      (feeds_after (s := ⟨[], 0, m.wire.map fun b => (0, some b)⟩) hfeed (by simp)).1
    obtain ⟨s, h1, h2, h3⟩ := arduino_message env W T fuel mem m hm.1 hq hfirst hfuel.1
    have hlen : mem.length ≤ s.mem.length := by rw [h2]; simp; omega
    have hrest := ih (env.after s) s.mem (fun m' h => (hm.2 m' h).mono hlen) (quick_after hq s) (feeds_after hfeed h3).2
      hfuel.2
    simp only [List.map_cons, Arduino.runCalls, h1, Res.bind_ok, hrest, List.flatMap_cons, List.length_append, h3]
    rw [h2, List.take_left]

/-- **C90**, what holds with bulk receptions: fed with the same messages, both platforms deliver the same and leave the
same bytes to be read. -/
theorem platforms_agree_partial (w : Esp.Mixed.World) (env : Env) (period : Nat) (hp : 0 < period) (W T fuel : Nat)
    (memE memA : List Byte) (ms : List Msg) (hm : ∀ m ∈ ms, m.Fine memE.length W T ∧ m.Fine memA.length W T)
    (hE : Quick ⟨w.clock, fun _ => none⟩ W T) (hA : Quick env W T) (hs : Supplies w 0 ms)
    (hfeed : Feeds env (ms.flatMap Msg.wire)) (hfuel : ∀ m ∈ ms, m.wire.length < fuel) :
    ∃ asks n, Esp.Mixed.runCalls w period fuel 0 0 memE (ms.map Msg.espCall) = .ok (ms.map Msg.packetOf, asks) ∧
      Arduino.runCalls fuel env memA (ms.map Msg.arduinoCall) = .ok (ms.map Msg.packetOf, n) ∧
      w.delivered 0 asks = ms.flatMap Msg.wire ∧ Esp.received env n = ms.flatMap Msg.wire := by
  obtain ⟨asks, h1, h2⟩ := esp_messages w period hp W T fuel 0 0 memE ms (fun m h => (hm m h).1) hE hs
    (fun m h => Nat.le_of_lt (hfuel m h))
  refine ⟨asks, _, h1, arduino_messages env W T fuel memA ms (fun m h => (hm m h).2) hA hfeed hfuel, h2, ?_⟩
  generalize ms.flatMap Msg.wire = l at hfeed
  have key : ∀ j ≤ l.length, Esp.received env j = l.take j := by
    intro j
    induction j with
    | zero => intro _; simp [Esp.received]
    | succ j ih =>
      intro hj
      rw [Esp.received_succ, ih (by omega), hfeed j (by omega), List.getElem?_eq_getElem (by omega),
        List.take_succ_eq_append_getElem (by omega)]
      rfl
  rw [key _ (Nat.le_refl _), List.take_of_length_le (Nat.le_refl _)]

/-- **C90 is false** of `Receive` without a time-out: on ESP32 it delivers the bytes which are there, on Arduino none is read,
as long as the clock does not run backwards between two readings. -/
theorem receive_zero_timeout (w : Esp.Mixed.World) (env : Env) (period : Nat) (hp : 0 < period) (fuel : Nat)
    (mem p : List Byte) (h1 : p.length ≤ mem.length) (h2 : p.length < 65536) (hr : w.read 0 p.length = some p)
    (hc : env.clock 0 ≤ env.clock 1) :
    Esp.Mixed.runCalls w period fuel 0 0 mem [.receive p.length 0] = .ok ([p], [p.length]) ∧
    Arduino.runCalls (fuel + 1) env mem [.all p.length 0] = .ok ([[]], 0) := by
  constructor
  · obtain ⟨ticks, n, m', s', k1, -, -, -, -, k6⟩ := Device.packetReceive_exact_partial (w.driver 0 p.length) period hp 0
      p.length 0 h2 (by omega) mem h1 ⟨[], fun _ => true⟩
      ⟨fun b hb => by simp only [Esp.Mixed.World.driver, hr] at hb; cases hb; exact Nat.le_refl _, .inr ⟨0, by omega, rfl⟩⟩
    have e : (w.driver 0 p.length).received [] = some p := hr
    rw [e] at k6
    obtain ⟨rfl, -, rfl⟩ := k6
    simp only [Esp.Mixed.runCalls, Esp.Mixed.Call.run, k1, Res.bind_ok, List.take_left]
    rfl
  · have hz : env.clock 0 + BitVec.ofNat 32 0 = env.clock 0 := by simp
    have hn : ¬ (env.clock 1 < env.clock 0 ∧ 0 < p.length) := fun h => BitVec.not_lt.2 hc h.1
    simp only [Arduino.runCalls, Arduino.Call.run, Arduino.receive, tick, hz, Arduino.receiveLoop, hn, if_false, Res.bind_ok,
      List.take_zero, List.length_nil]

/-- **C90 is false** of failing drivers: a read which fails on ESP32 is reported as a buffer full of old bytes, on Arduino
there is no such report and nothing is delivered. -/
theorem receive_failure (w : Esp.Mixed.World) (env : Env) (period : Nat) (hp : 0 < period) (fuel size timeout j : Nat)
    (mem : List Byte) (h1 : size ≤ mem.length) (h2 : size < 65536) (h3 : timeout < 65536) (hl : mem.length ≤ 65535)
    (hr : w.read 0 size = none) (hidle : ∀ k, env.rx k = none)
    (hj1 : 1 ≤ j)
    (hjd : env.clock 0 + BitVec.ofNat 32 timeout ≤ env.clock j) :
    Esp.Mixed.runCalls w period fuel 0 0 mem [.receive size timeout] = .ok ([mem], [size]) ∧
    ∃ n, Arduino.runCalls j env mem [.all size timeout] = .ok ([[]], n) := by
  refine ⟨(Esp.Mixed.failed_read_repeats w period hp fuel 0 0 size timeout mem h1 h2 h3 hr hl).1, ?_⟩
  have key : ∀ f c l, 1 ≤ c → f + c = j + 1 → c ≤ j →
      ∃ s, Arduino.receiveLoop env size (env.clock 0 + BitVec.ofNat 32 timeout) f 0 ⟨mem, c, l⟩ = .ok (0, s) := by
    intro f
    induction f with
    | zero => intro c l _ _ _; omega
    | succ f ih =>
      intro c l hc hf hle
      unfold Arduino.receiveLoop
      by_cases hcj : c = j
      · have hn : ¬ (env.clock c < env.clock 0 + BitVec.ofNat 32 timeout ∧ 0 < size) := by
          rintro ⟨h, -⟩
          rw [hcj] at h
          exact BitVec.not_lt.2 hjd h
        simp only [tick, hn, if_false]
        exact ⟨_, rfl⟩
      · by_cases hn : env.clock c < env.clock 0 + BitVec.ofNat 32 timeout ∧ 0 < size
        · simp only [tick, hn, and_self, if_true, Esp.readByte, hidle, Res.bind_ok, Bool.false_eq_true, if_false]
          exact ih (c + 1) _ (by omega) (by omega) (by omega)
        · simp only [tick, hn, if_false]
          exact ⟨_, rfl⟩
  obtain ⟨s, hs⟩ := key j 1 [] (by omega) (by omega) hj1
  refine ⟨s.log.length + 0, ?_⟩
  simp only [Arduino.runCalls, Arduino.Call.run, Arduino.receive, tick, hs, Res.bind_ok, List.take_zero]

/-! ### Concrete cases -/

/-- A header of two bytes, then a line. -/
def stream : Esp.Mixed.World :=
  ⟨fun _ => 5, fun k n => if k = 0 then some ([1, 2].take n) else ([7, 8, 10][k - 1]?).map ([·])⟩

example : Supplies stream 0 [.bulk 30 [1, 2], .packet (.until 5 10 0 [7, 8])] := by
  refine ⟨rfl, ⟨?_, trivial⟩⟩
  intro k hk
  simp only [Portable.Msg.wire, List.cons_append, List.nil_append, List.length_cons, List.length_nil] at hk ⊢
  simp only [stream, show ¬ 0 + 1 + k = 0 by omega, if_false, show 0 + 1 + k - 1 = k by omega]

example : Esp.Mixed.runCalls stream 10 9 0 0 [0, 0, 0, 0, 0] [.receive 2 30, .packet (.until 5 10 0)] =
      .ok ([[1, 2], [7, 8, 10]], [2, 1, 1, 1]) ∧
    Arduino.runCalls 9 ⟨fun _ => 5, fun k => [1, 2, 7, 8, 10][k]?⟩ [0, 0, 0, 0, 0] [.all 2 30, .until 5 10 0] =
      .ok ([[1, 2], [7, 8, 10]], 5) := by decide

example : ∀ m ∈ [Msg.bulk 30 [1, 2], .packet (.until 5 10 0 [7, 8])], m.Fine 5 10 20 := by
  intro m hm
  simp only [List.mem_cons, List.not_mem_nil, or_false] at hm
  rcases hm with rfl | rfl <;> simp [Msg.Fine, Portable.Msg.Fine]

end Verif.Uart.Portable.Bulk
