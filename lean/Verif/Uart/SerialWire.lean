import Verif.Out.SerialFull
import Verif.Uart.DeviceProps
/-!
# C87: what is printed reaches the UART driver

The serial output of C85 over the UART of either platform: `SerialOut::flush` calls `PacketUart::Send`, which calls the
vendor driver.
-/
namespace Verif.Uart.Wire
open Verif Verif.Out

/-! ## The code -/

/-- SerialOut.h:105-106: the buffer and the UART; `σ` is the state of the driver. -/
structure WOut (σ : Type) where
  out : BOut
  dev : σ

variable {σ : Type}

/-- arduino/SerialOut.cpp:4-9 and esp32-esp-idf/SerialOut.cpp:4-9 `flush()`: the result of `Send` is ignored. -/
def WOut.flush (send : σ → List Byte → Res σ) (s : WOut σ) : Res (WOut σ) := do
  let d ← send s.dev s.out.data
  .ok ⟨s.out.clear, d⟩

/-- SerialOut.h:18-100: any operator (the insertions are those of SerialFull.lean). -/
def WOut.op (send : σ → List Byte → Res σ) (junk : Nat → Byte) (signed : Bool) (s : WOut σ) : SOp → Res (WOut σ)
  | .put i => do
    let r ← SOut.item junk signed ⟨s.out, []⟩ i
    .ok ⟨r.out, s.dev⟩
  | .end => s.flush send
  | .endl => do
    let s1 ← if s.out.size = s.out.capacity then s.flush send else .ok s
    let o ← s1.out.addChar 10
    WOut.flush send ⟨o, s1.dev⟩

/-- A sequence of operators. -/
def WOut.ops (send : σ → List Byte → Res σ) (junk : Nat → Byte) (signed : Bool) (s : WOut σ) : List SOp → Res (WOut σ)
  | [] => .ok s
  | p :: ps => do
    let s' ← s.op send junk signed p
    s'.ops send junk signed ps

/-- esp32-esp-idf/PacketUart.cpp:15-18 `Send` with SimpleUartDevice.cpp:63-71 `sendBlocking`; the size is a `uint16_t`. -/
def espSend (drv : Device.Driver) (port : Int) (d : Device.St) (data : List Byte) : Res Device.St := do
  let (_, d') ← Device.sendBlocking drv port data (data.length % 65536) d
  .ok d'

/-- Calls of the Arduino device which `Send` makes. -/
inductive ACall where
  | setTimeout (ms : Nat)
  | write (data : List Byte)
  | flush (txOnly : Bool)
deriving DecidableEq, Repr

/-- The Arduino device: its time-out setting, the bytes received and not read, the calls made. -/
structure ADev where
  timeout : Nat
  unread : List Byte
  calls : List ACall
deriving DecidableEq, Repr

/-- `HardwareSerial::setTimeout`. -/
def ADev.setTimeout (d : ADev) (ms : Nat) : ADev := { d with timeout := ms, calls := d.calls ++ [.setTimeout ms] }

/-- `HardwareSerial::write`; bytes may arrive meanwhile. -/
def ADev.write (arriving : List ACall → List Byte) (d : ADev) (data : List Byte) : ADev :=
  { d with unread := d.unread ++ arriving d.calls, calls := d.calls ++ [.write data] }

/-- `HardwareSerial::flush(txOnly)` of the vendor (ESP32 Arduino core): waits for the end of the transmission and, unless
`txOnly`, drops the bytes received. -/
def ADev.flush (d : ADev) (txOnly : Bool) : ADev :=
  { d with unread := if txOnly then d.unread else [], calls := d.calls ++ [.flush txOnly] }

/-- arduino/PacketUart.cpp:31-42 `Send`; the size is a `uint16_t`; more than the data is never handed over. -/
def arduinoSend (arriving : List ACall → List Byte) (timeout : Nat) (d : ADev) (data : List Byte) : ADev :=
  let oldTimeout := d.timeout
  let d1 := if timeout > 0 then d.setTimeout timeout else d
  let d2 := d1.write arriving (data.take (data.length % 65536))
  (d2.flush false).setTimeout oldTimeout

/-! ## Specification -/

/-- The packets handed to the driver of a port. -/
def packets (port : Int) : List Device.Ev → List (List Byte)
  | [] => []
  | .write p data :: es => if p = port then data :: packets port es else packets port es
  | _ :: es => packets port es

/-- The bytes the driver of a port has accepted, `before` being the calls made before. -/
def onWire (drv : Device.Driver) (port : Int) (before : List Device.Ev) : List Device.Ev → List Byte
  | [] => []
  | .write p data :: es =>
    (if p = port then data.take (drv.written before).toNat else []) ++ onWire drv port (before ++ [.write p data]) es
  | e :: es => onWire drv port (before ++ [e]) es

/-- The packets written to the Arduino device, each with the time-out setting it was written under. -/
def written : Nat → List ACall → List (Nat × List Byte)
  | _, [] => []
  | _, .setTimeout ms :: cs => written ms cs
  | t, .write data :: cs => (t, data) :: written t cs
  | t, .flush _ :: cs => written t cs

/-! ## Proof -/

/-- The packets of C85 are sent one after the other, whatever the driver does with them. -/
theorem wire_sends (send : σ → List Byte → Res σ) (f : σ → List Byte → σ) (hf : ∀ d p, p.length < 65536 → send d p = .ok (f d p))
    (junk : Nat → Byte) (signed : Bool) (ops : List SOp) (o : BOut) (sent : List (List Byte)) (d : σ) :
    (SOut.ops junk signed ⟨o, sent⟩ ops = .ub → WOut.ops send junk signed ⟨o, d⟩ ops = .ub) ∧
    (∀ s', SOut.ops junk signed ⟨o, sent⟩ ops = .ok s' →
      ∃ ps, s'.sent = sent ++ ps ∧ (∀ p ∈ ps, p.length < 65536) ∧
        WOut.ops send junk signed ⟨o, d⟩ ops = .ok ⟨s'.out, ps.foldl f d⟩) := by
  have hflush : ∀ (s : WOut σ), s.flush send = .ok ⟨s.out.clear, f s.dev s.out.data⟩ ∧ s.out.data.length < 65536 := by
    intro s
    have h : s.out.data.length < 65536 := by
      have := Nat.mod_lt s.out.pos (show 0 < 2 ^ 16 by decide)
      simp only [BOut.data, List.length_take]
      omega
    exact ⟨by rw [WOut.flush, hf _ _ h, Res.bind_ok], h⟩
  induction ops generalizing o sent d with
  | nil =>
    refine ⟨by simp [SOut.ops], ?_⟩
    intro s' h
    cases h
    exact ⟨[], by simp, by simp, rfl⟩
  | cons op ops ih =>
    cases op with
    | put i =>
      have hi : SOut.item junk signed ⟨o, sent⟩ i =
          (do let r ← SOut.item junk signed ⟨o, []⟩ i; .ok ⟨r.out, sent⟩) := by
        rw [item_op, item_op]
        cases BOut.op junk o (i.asked signed) <;> rfl
      simp only [SOut.ops, SOut.op, WOut.ops, WOut.op, hi]
      cases hr : SOut.item junk signed ⟨o, []⟩ i with
      | ub => exact ⟨fun _ => rfl, by simp⟩
      | hang => exact ⟨by simp, by simp⟩
      | ok r =>
        simp only [Res.bind_ok]
        exact ih r.out sent d
    | «end» =>
      obtain ⟨h1, h2⟩ := hflush ⟨o, d⟩
      simp only [SOut.ops, SOut.op, SOut.putEnd, WOut.ops, WOut.op, h1, Res.bind_ok, SOut.flush]
      obtain ⟨g1, g2⟩ := ih o.clear (sent ++ [o.data]) (f d o.data)
      refine ⟨g1, ?_⟩
      intro s' hs
      obtain ⟨ps, k1, k2, k3⟩ := g2 s' hs
      refine ⟨o.data :: ps, by rw [k1]; simp, ?_, k3⟩
      simp only [List.mem_cons, forall_eq_or_imp]
      exact ⟨h2, k2⟩
    | endl =>
      simp only [SOut.ops, SOut.op, SOut.putEndl, WOut.ops, WOut.op]
      by_cases hfull : o.size = o.capacity
      · obtain ⟨h1, h2⟩ := hflush ⟨o, d⟩
        simp only [hfull, if_true, h1, Res.bind_ok, SOut.flush]
        cases hr : o.clear.addChar 10 with
        | ub => exact ⟨fun _ => rfl, by simp⟩
        | hang => exact ⟨by simp, by simp⟩
        | ok o1 =>
          obtain ⟨h3, h4⟩ := hflush ⟨o1, f d o.data⟩
          simp only [Res.bind_ok, h3]
          obtain ⟨g1, g2⟩ := ih o1.clear (sent ++ [o.data] ++ [o1.data]) (f (f d o.data) o1.data)
          refine ⟨g1, ?_⟩
          intro s' hs
          obtain ⟨ps, k1, k2, k3⟩ := g2 s' hs
          refine ⟨o.data :: o1.data :: ps, by rw [k1]; simp, ?_, k3⟩
          simp only [List.mem_cons, forall_eq_or_imp]
          exact ⟨h2, h4, k2⟩
      · simp only [hfull, if_false, Res.bind_ok]
        cases hr : o.addChar 10 with
        | ub => exact ⟨fun _ => rfl, by simp⟩
        | hang => exact ⟨by simp, by simp⟩
        | ok o1 =>
          obtain ⟨h3, h4⟩ := hflush ⟨o1, d⟩
          simp only [Res.bind_ok, h3, SOut.flush]
          obtain ⟨g1, g2⟩ := ih o1.clear (sent ++ [o1.data]) (f d o1.data)
          refine ⟨g1, ?_⟩
          intro s' hs
          obtain ⟨ps, k1, k2, k3⟩ := g2 s' hs
          refine ⟨o1.data :: ps, by rw [k1]; simp, ?_, k3⟩
          simp only [List.mem_cons, forall_eq_or_imp]
          exact ⟨h4, k2⟩

/-- The state of the ESP32 driver after a packet. -/
def espNext (drv : Device.Driver) (port : Int) (d : Device.St) (p : List Byte) : Device.St :=
  { d with calls := d.calls ++ .write port p :: if 0 < drv.written d.calls then [.waitTxDone port] else [] }

theorem espSend_ok (drv : Device.Driver) (port : Int) (d : Device.St) (p : List Byte) (h : p.length < 65536) :
    espSend drv port d p = .ok (espNext drv port d p) := by
  obtain ⟨s', k1, k2, k3, k4⟩ := Device.send_exact drv port p (p.length % 65536) d (Nat.mod_le _ _)
  rw [espSend, k1, Res.bind_ok]
  rw [Nat.mod_eq_of_lt h, List.take_length] at k3 k4
  unfold espNext
  by_cases hw : 0 < drv.written d.calls
  · rw [if_pos hw, ← k3 hw, ← k2]
  · rw [if_neg hw, ← k4 (by omega), ← k2]

theorem packets_append (port : Int) (a b : List Device.Ev) : packets port (a ++ b) = packets port a ++ packets port b := by
  induction a with
  | nil => rfl
  | cons e a ih =>
    cases e with
    | write p data =>
      simp only [List.cons_append, packets]
      split
      · rw [ih]; rfl
      · exact ih
    | _ => exact ih

/-- The calls made by sending packets. -/
theorem esp_calls (drv : Device.Driver) (port : Int) (ps : List (List Byte)) (d : Device.St) :
    ∃ cs, (ps.foldl (espNext drv port) d).calls = d.calls ++ cs ∧ packets port cs = ps ∧
      (∀ c ∈ cs, c = .waitTxDone port ∨ ∃ p ∈ ps, c = .write port p) ∧
      ((∀ l, ∀ p ∈ ps, (p.length : Int) ≤ drv.written l) → onWire drv port d.calls cs = ps.flatten) := by
  induction ps generalizing d with
  | nil => exact ⟨[], by simp, rfl, by simp, fun _ => rfl⟩
  | cons p ps ih =>
    obtain ⟨cs, k1, k2, k3, k4⟩ := ih (espNext drv port d p)
    refine ⟨(.write port p :: if 0 < drv.written d.calls then [.waitTxDone port] else []) ++ cs, ?_, ?_, ?_, ?_⟩
    · rw [List.foldl_cons, k1, espNext, List.append_assoc]
    · rw [packets_append, k2]
      split <;> simp [packets]
    · intro c hc
      rw [List.mem_append] at hc
      rcases hc with hc | hc
      · simp only [List.mem_cons] at hc
        rcases hc with rfl | hc
        · exact .inr ⟨p, by simp, rfl⟩
        · split at hc
          · rw [List.mem_singleton] at hc; exact .inl hc
          · simp at hc
      · rcases k3 c hc with h | ⟨q, h1, h2⟩
        · exact .inl h
        · exact .inr ⟨q, by simp [h1], h2⟩
    · intro h
      have h4 := k4 (fun l q hq => h l q (by simp [hq]))
      have hp := h d.calls p (by simp)
      rw [espNext] at h4
      simp only [List.flatten_cons]
      rw [← h4, List.cons_append, onWire, if_pos rfl, List.take_of_length_le (by omega)]
      congr 1
      split
      · simp [onWire, List.append_assoc]
      · rfl

/-- **C87**, ESP32: a program printing through the serial output hands exactly the packets of C85 to the driver of its
port, in order; it makes no other calls than waiting for the transmission; if the driver accepts what it is given, the
bytes on the wire are the packets one after the other.  What is printed next never depends on the driver: it runs into
undefined behaviour exactly as specified in C85, and losses go unnoticed. -/
theorem esp_prints_partial (drv : Device.Driver) (port : Int) (junk : Nat → Byte) (signed : Bool) (o : BOut) (d : Device.St)
    (hw : o.WF) (h0 : 0 < o.capacity) (hc : o.capacity ≤ 65535) (ops : List SOp) (hv : ∀ op ∈ ops, op.Valid) :
    (WOut.ops (espSend drv port) junk signed ⟨o, d⟩ ops = .ub ∧ ∃ ps, Serial o.capacity signed o.shown ops ps none) ∨
    ∃ o' d' ps cs, WOut.ops (espSend drv port) junk signed ⟨o, d⟩ ops = .ok ⟨o', d'⟩ ∧
      Serial o.capacity signed o.shown ops ps (some o'.shown) ∧ d'.installed = d.installed ∧ d'.calls = d.calls ++ cs ∧
      packets port cs = ps ∧ (∀ c ∈ cs, c = .waitTxDone port ∨ ∃ p ∈ ps, c = .write port p) ∧
      ((∀ l, ∀ p ∈ ps, (p.length : Int) ≤ drv.written l) → onWire drv port d.calls cs = ps.flatten) := by
  obtain ⟨h1, h2⟩ := wire_sends (espSend drv port) (espNext drv port) (espSend_ok drv port) junk signed ops o [] d
  rcases serial_exact junk signed ⟨o, []⟩ hw h0 hc ops hv with ⟨g1, g2⟩ | ⟨s', ps, g1, -, -, g4, g5⟩
  · exact .inl ⟨h1 g1, g2⟩
  · obtain ⟨qs, k1, -, k3⟩ := h2 s' g1
    obtain rfl : ps = qs := by rw [g4] at k1; simpa using k1
    obtain ⟨cs, m1, m2, m3, m4⟩ := esp_calls drv port ps d
    refine .inr ⟨s'.out, _, ps, cs, k3, g5, ?_, m1, m2, m3, m4⟩
    clear m1 m2 m3 m4 k3 k1 g4 g5 h1 h2
    induction ps generalizing d with
    | nil => rfl
    | cons p ps ih => rw [List.foldl_cons, ih]; rfl

/-- Finding for **C87**: the program cannot tell: two drivers, whatever they accept, are given the same packets and the
program goes on in the same state. -/
theorem esp_losses_unnoticed (drv drv' : Device.Driver) (port : Int) (junk : Nat → Byte) (signed : Bool) (o o1 o2 : BOut)
    (d d1 d2 : Device.St) (hw : o.WF) (h0 : 0 < o.capacity) (hc : o.capacity ≤ 65535) (ops : List SOp)
    (hv : ∀ op ∈ ops, op.Valid)
    (h1 : WOut.ops (espSend drv port) junk signed ⟨o, d⟩ ops = .ok ⟨o1, d1⟩)
    (h2 : WOut.ops (espSend drv' port) junk signed ⟨o, d⟩ ops = .ok ⟨o2, d2⟩) :
    o1 = o2 ∧ packets port d1.calls = packets port d2.calls := by
  obtain ⟨a1, a2⟩ := wire_sends (espSend drv port) (espNext drv port) (espSend_ok drv port) junk signed ops o [] d
  obtain ⟨b1, b2⟩ := wire_sends (espSend drv' port) (espNext drv' port) (espSend_ok drv' port) junk signed ops o [] d
  rcases serial_exact junk signed ⟨o, []⟩ hw h0 hc ops hv with ⟨g1, g2⟩ | ⟨s', ps, g1, -, -, g4, g5⟩
  · rw [a1 g1] at h1; cases h1
  · obtain ⟨p1, k1, -, k3⟩ := a2 s' g1
    obtain ⟨p2, m1, -, m3⟩ := b2 s' g1
    obtain rfl : p1 = p2 := by rw [k1] at m1; simpa using m1
    rw [k3] at h1; rw [m3] at h2
    cases h1; cases h2
    obtain ⟨cs, e1, e2, -⟩ := esp_calls drv port p1 d
    obtain ⟨cs', f1, f2, -⟩ := esp_calls drv' port p1 d
    exact ⟨rfl, by rw [e1, f1, packets_append, packets_append, e2, f2]⟩

/-- The calls made by sending packets to the Arduino device. -/
theorem arduino_calls (arriving : List ACall → List Byte) (timeout : Nat) (ht : 0 < timeout) (ps : List (List Byte))
    (hp : ∀ p ∈ ps, p.length < 65536) (d : ADev) :
    ∃ cs, (ps.foldl (arduinoSend arriving timeout) d).calls = d.calls ++ cs ∧
      (ps.foldl (arduinoSend arriving timeout) d).timeout = d.timeout ∧
      (∀ t, written t cs = ps.map (fun p => (timeout, p))) ∧
      (ps.foldl (arduinoSend arriving timeout) d).unread = if ps = [] then d.unread else [] := by
  induction ps generalizing d with
  | nil => exact ⟨[], by simp, rfl, fun _ => rfl, rfl⟩
  | cons p ps ih =>
    simp only [List.mem_cons, forall_eq_or_imp] at hp
    have hs : arduinoSend arriving timeout d p =
        ⟨d.timeout, [], d.calls ++ [.setTimeout timeout, .write p, .flush false, .setTimeout d.timeout]⟩ := by
      unfold arduinoSend
      rw [if_pos ht, Nat.mod_eq_of_lt hp.1, List.take_length]
      simp [ADev.setTimeout, ADev.write, ADev.flush]
    obtain ⟨cs, k1, k2, k3, k4⟩ := ih hp.2 (arduinoSend arriving timeout d p)
    refine ⟨[.setTimeout timeout, .write p, .flush false, .setTimeout d.timeout] ++ cs, ?_, ?_, ?_, ?_⟩
    · rw [List.foldl_cons, k1, hs, List.append_assoc]
    · rw [List.foldl_cons, k2, hs]
    · intro t
      simp only [List.cons_append, List.nil_append, written, List.map_cons, k3]
    · rw [List.foldl_cons, k4, hs]
      simp

/-- **C87**, Arduino: a program printing through the serial output writes exactly the packets of C85 to the device, in
order, each under a time-out of 100 ms, and leaves the time-out setting of the device as it was.  But (finding) as soon as
it has sent a packet, all bytes received before and not yet read are gone. -/
theorem arduino_prints (arriving : List ACall → List Byte) (junk : Nat → Byte) (signed : Bool) (o : BOut) (d : ADev)
    (hw : o.WF) (h0 : 0 < o.capacity) (hc : o.capacity ≤ 65535) (ops : List SOp) (hv : ∀ op ∈ ops, op.Valid) :
    (WOut.ops (fun d p => .ok (arduinoSend arriving 100 d p)) junk signed ⟨o, d⟩ ops = .ub ∧
      ∃ ps, Serial o.capacity signed o.shown ops ps none) ∨
    ∃ o' d' ps cs, WOut.ops (fun d p => .ok (arduinoSend arriving 100 d p)) junk signed ⟨o, d⟩ ops = .ok ⟨o', d'⟩ ∧
      Serial o.capacity signed o.shown ops ps (some o'.shown) ∧ d'.calls = d.calls ++ cs ∧ d'.timeout = d.timeout ∧
      written d.timeout cs = ps.map (fun p => (100, p)) ∧ d'.unread = if ps = [] then d.unread else [] := by
  obtain ⟨h1, h2⟩ := wire_sends (fun d p => .ok (arduinoSend arriving 100 d p)) (arduinoSend arriving 100) (fun _ _ _ => rfl)
    junk signed ops o [] d
  rcases serial_exact junk signed ⟨o, []⟩ hw h0 hc ops hv with ⟨g1, g2⟩ | ⟨s', ps, g1, -, -, g4, g5⟩
  · exact .inl ⟨h1 g1, g2⟩
  · obtain ⟨qs, k1, k2, k3⟩ := h2 s' g1
    obtain rfl : ps = qs := by rw [g4] at k1; simpa using k1
    obtain ⟨cs, m1, m2, m3, m4⟩ := arduino_calls arriving 100 (by omega) ps k2 d
    exact .inr ⟨s'.out, _, ps, cs, k3, g5, m1, m2, m3 _, m4⟩

/-- **C87**: the same program prints the same on both platforms.  With outputs in the same state, either both runs are
undefined, or both end with outputs in the same state and the packets handed to the ESP32 driver are those written to the
Arduino device, in the same order — whatever the drivers, the devices and the received bytes are like. -/
theorem prints_alike (drv : Device.Driver) (port : Int) (arriving : List ACall → List Byte) (junk : Nat → Byte)
    (signed : Bool) (o : BOut) (d : Device.St) (a : ADev) (hw : o.WF) (h0 : 0 < o.capacity) (hc : o.capacity ≤ 65535)
    (ops : List SOp) (hv : ∀ op ∈ ops, op.Valid) :
    (WOut.ops (espSend drv port) junk signed ⟨o, d⟩ ops = .ub ∧
      WOut.ops (fun d p => .ok (arduinoSend arriving 100 d p)) junk signed ⟨o, a⟩ ops = .ub) ∨
    ∃ o' d' a' cs cs', WOut.ops (espSend drv port) junk signed ⟨o, d⟩ ops = .ok ⟨o', d'⟩ ∧
      WOut.ops (fun d p => .ok (arduinoSend arriving 100 d p)) junk signed ⟨o, a⟩ ops = .ok ⟨o', a'⟩ ∧
      d'.calls = d.calls ++ cs ∧ a'.calls = a.calls ++ cs' ∧
      packets port cs = (written a.timeout cs').map Prod.snd := by
  obtain ⟨a1, a2⟩ := wire_sends (espSend drv port) (espNext drv port) (espSend_ok drv port) junk signed ops o [] d
  obtain ⟨b1, b2⟩ := wire_sends (fun d p => .ok (arduinoSend arriving 100 d p)) (arduinoSend arriving 100) (fun _ _ _ => rfl)
    junk signed ops o [] a
  rcases serial_exact junk signed ⟨o, []⟩ hw h0 hc ops hv with ⟨g1, -⟩ | ⟨s', ps, g1, -, -, -, -⟩
  · exact .inl ⟨a1 g1, b1 g1⟩
  · obtain ⟨p1, k1, -, k3⟩ := a2 s' g1
    obtain ⟨p2, m1, m2, m3⟩ := b2 s' g1
    obtain rfl : p1 = p2 := by rw [k1] at m1; simpa using m1
    obtain ⟨cs, e1, e2, -⟩ := esp_calls drv port p1 d
    obtain ⟨cs', f1, -, f3, -⟩ := arduino_calls arriving 100 (by omega) p1 m2 a
    refine .inr ⟨_, _, _, cs, cs', k3, m3, e1, f1, ?_⟩
    rw [e2, f3, List.map_map]
    exact (List.map_id p1).symm

/-! ### Concrete cases -/

/-- A text, a line and a driver accepting only two bytes of each packet. -/
example : (match WOut.ops (espSend ⟨fun _ => true, fun _ => 2, fun _ => none, fun _ => 128⟩ 1) (fun _ => 0) true
      ⟨BOut.new (List.replicate 4 0), (⟨[], fun _ => true⟩ : Device.St)⟩
      [.put (.cstr [72, 105] []), .end, .put (.cstr [65, 66, 67] []), .endl] with
    | .ok s => decide (s.dev.calls = [.write 1 [72, 105], .waitTxDone 1, .write 1 [65, 66, 67, 10], .waitTxDone 1] ∧
        onWire ⟨fun _ => true, fun _ => 2, fun _ => none, fun _ => 128⟩ 1 [] s.dev.calls = [72, 105, 65, 66])
    | _ => false) = true := by decide +kernel

/-- Two bytes waiting to be read are lost by printing. -/
example : (match WOut.ops (fun d p => .ok (arduinoSend (fun _ => []) 100 d p)) (fun _ => 0) true
      ⟨BOut.new (List.replicate 4 0), (⟨1000, [1, 2], []⟩ : ADev)⟩ [.put (.cstr [72, 105] []), .end] with
    | .ok s => decide (s.dev = ⟨1000, [], [.setTimeout 100, .write [72, 105], .flush false, .setTimeout 1000]⟩)
    | _ => false) = true := by decide +kernel

/-- A text filling the buffer, printed on both platforms, leaves the same packets. -/
example : (match WOut.ops (espSend ⟨fun _ => false, fun _ => 2, fun _ => none, fun _ => 128⟩ 1) (fun _ => 0) true
        ⟨BOut.new (List.replicate 2 0), (⟨[], fun _ => true⟩ : Device.St)⟩ [.put (.cstr [72, 105] []), .endl],
      WOut.ops (fun d p => .ok (arduinoSend (fun _ => [9]) 100 d p)) (fun _ => 0) true
        ⟨BOut.new (List.replicate 2 0), (⟨1000, [1, 2], []⟩ : ADev)⟩ [.put (.cstr [72, 105] []), .endl] with
    | .ok s, .ok t => decide (packets 1 s.dev.calls = [[72, 105], [10]] ∧
        (written 1000 t.dev.calls).map Prod.snd = [[72, 105], [10]])
    | _, _ => false) = true := by decide +kernel

end Verif.Uart.Wire
