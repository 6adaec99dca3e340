import Verif.Spi.DeviceProps
import Verif.Hal.GpioProps
/-!
# C91: several devices on one SPI bus

`SpiDevice` (SpiDevice.h:9-23) and `ChipSelector` (GpioDigitalPin.h:35-50) together: the library's users access each of
several devices on one bus while a `ChipSelector` of its pin is alive.  Modelled on top of the models of both, for both
platforms; the devices are arbitrary: what a device answers may depend on everything it has seen.
-/
namespace Verif.Spi.Select
open Verif Verif.Hal

/-! ### The devices on the bus -/

/-- What a device sees: its pin falling, a byte clocked while the pin is low (`none` when the master does not drive the
data line), its pin rising. -/
inductive Seen where
  | select
  | byte (b : Option Byte)
  | deselect
deriving DecidableEq

/-- A device: the byte it answers next, depending on what it has seen. -/
abbrev Slave := List Seen → Byte

/-- The devices by their pins, and what the master reads when none or several of them are selected. -/
structure Net where
  pins : List (BitVec 8)
  slave : BitVec 8 → Slave
  other : List (BitVec 8) → Byte

/-- The pins, and what each device has seen. -/
structure World where
  gpio : Gpio.St
  seen : BitVec 8 → List Seen

/-- The selected devices. -/
def Net.selected (net : Net) (g : Gpio.St) : List (BitVec 8) := net.pins.filter fun p => !g.level p

/-- The byte the master reads next. -/
def Net.answer (net : Net) (w : World) : Byte :=
  match net.selected w.gpio with
  | [p] => net.slave p (w.seen p)
  | l => net.other l

/-- A byte is clocked: the selected devices see it. -/
def Net.clock (net : Net) (w : World) (b : Option Byte) : World :=
  { w with seen := fun p => if p ∈ net.selected w.gpio then w.seen p ++ [.byte b] else w.seen p }

/-- Several bytes are clocked. -/
def Net.clocks (net : Net) (w : World) (l : List (Option Byte)) : World := l.foldl net.clock w

/-- The pins are driven: the devices see the edges. -/
def World.drive (w : World) (f : Gpio.St → Gpio.St) : World :=
  { gpio := f w.gpio
    seen := fun p => w.seen p ++
      match w.gpio.level p, (f w.gpio).level p with
      | true, false => [.select]
      | false, true => [.deselect]
      | _, _ => [] }

/-! ### The program -/

/-- A call of `SpiDevice`; the length passed is that of the data, which is 16 bits wide. -/
inductive Op where
  | send (tx : List Byte)
  | receive (n : BitVec 16)
  | both (tx : List Byte)
deriving DecidableEq

/-- The code of a device driver: calls depending on the results of earlier ones (`none` when the call returned false,
otherwise the bytes received). -/
inductive Task (α : Type) where
  | ret (a : α)
  | op (o : Op) (k : Option (List Byte) → Task α)

/-- The length argument of a call. -/
def len (tx : List Byte) : BitVec 16 := BitVec.ofNat 16 tx.length

/-- The calls on Arduino: the models of `arduino/SpiDevice.cpp` connected to the devices.  The receive buffer is an array
of the length passed. -/
def arduino (net : Net) (o : Op) (w : World) : Res (Option (List Byte) × World) :=
  let peer : Arduino.Peer := fun sent => net.answer (net.clocks w (sent.map some))
  match o with
  | .send tx => do
    let (ok, bus) ← Device.Arduino.sendSync peer tx (len tx) []
    .ok (if ok then some [] else none, net.clocks w ((Arduino.sentBytes bus).map some))
  | .receive n => do
    let (ok, rx, bus) ← Device.Arduino.receiveSync peer (List.replicate n.toNat 0) n []
    .ok (if ok then rx else none, net.clocks w ((Arduino.sentBytes bus).map some))
  | .both tx => do
    let (ok, rx, bus) ← Device.Arduino.sendAndReceive peer tx (List.replicate (len tx).toNat 0) (len tx) []
    .ok (if ok then rx else none, net.clocks w ((Arduino.sentBytes bus).map some))

/-- What the devices see of a submission: the bytes sent, or as many clocks as bytes were asked for. -/
def clocked (s : Esp.Submission) : List (Option Byte) :=
  if !s.accepted then []
  else match s.trans.txBuffer with
    | some _ => s.sent.map some
    | none => List.replicate (s.trans.rxlength.toNat / 8) none

/-- The driver of the ESP32 connected to devices which answer `peer`, for a transfer sending `out` in pieces. -/
def driver (peer : List (Option Byte) → Byte) (out : List (Option Byte)) : Esp.Driver :=
  fun k => some fun j => peer (out.take (4092 * k + j))

/-- A driver refusing everything. -/
def refusal : Esp.Driver := fun _ => none

/-- The calls on ESP32: the models of `esp32-esp-idf/SpiDevice.cpp` connected to the devices.  As the vendor documents, a
bus initialised for full duplex refuses transfers receiving more than they send, and one initialised for half duplex
(with DMA, esp32-esp-idf/SpiBus.cpp:58, 70-73) refuses those with both directions. -/
def esp (half : Bool) (b : Esp.Bus) (net : Net) (o : Op) (w : World) : Res (Option (List Byte) × World) :=
  let peer : List (Option Byte) → Byte := fun out => net.answer (net.clocks w out)
  match o with
  | .send tx => do
    let (ok, log) ← Device.Esp.sendSync (driver peer (tx.map some)) b tx (len tx) []
    .ok (if ok then some [] else none, net.clocks w (log.flatMap clocked))
  | .receive n => do
    let (ok, s) ← Device.Esp.receiveSync (if half then driver peer (List.replicate n.toNat none) else refusal) b
      (List.replicate n.toNat 0) n []
    .ok (if ok then some s.rx else none, net.clocks w (s.log.flatMap clocked))
  | .both tx => do
    let (ok, s) ← Device.Esp.sendAndReceive (if half then refusal else driver peer (tx.map some)) b tx
      (List.replicate (len tx).toNat 0) (len tx) []
    .ok (if ok then some s.rx else none, net.clocks w (s.log.flatMap clocked))

/-- The calls of a platform. -/
abbrev Platform := Net → Op → World → Res (Option (List Byte) × World)

/-- Execution of the code of a device driver. -/
def runTask {α : Type} (plat : Platform) (net : Net) : Task α → World → Res (α × World)
  | .ret a, w => .ok (a, w)
  | .op o k, w => do
    let (r, w) ← plat net o w
    runTask plat net (k r) w

/-- The same in the scope of a `ChipSelector`: constructor, body, destructor (GpioDigitalPin.h:38-46). -/
def session {α : Type} (plat : Platform) (net : Net) (pin : BitVec 8) (t : Task α) (w : World) : Res (α × World) := do
  let w := w.drive (Gpio.selectorCtor pin)
  let (a, w) ← runTask plat net t w
  .ok (a, w.drive (Gpio.selectorDtor pin))

/-- A program: the drivers of the devices, each with a state of its own, take turns. -/
def run {σ : Type} (plat : Platform) (net : Net) (code : BitVec 8 → σ → Task σ) :
    List (BitVec 8) → (BitVec 8 → σ) → World → Res ((BitVec 8 → σ) × World)
  | [], st, w => .ok (st, w)
  | p :: rest, st, w => do
    let (s, w) ← session plat net p (code p (st p)) w
    run plat net code rest (fun q => if q = p then s else st q) w

/-! ### Specification -/

/-- What a call is meant to put on the wire; `none` if the platform refuses it. -/
abbrev Plan := Op → Option (List (Option Byte))

/-- The bytes of a call: as many as the 16 bits of the length tell. -/
def payload (tx : List Byte) : List Byte := tx.take (tx.length % 65536)

/-- On Arduino everything is full duplex, a receiver sends 0xFF. -/
def planArduino : Plan
  | .send tx | .both tx => some ((payload tx).map some)
  | .receive n => some (List.replicate n.toNat (some 0xFF))

/-- Full duplex on ESP32: no receiving alone, unless it is nothing that is received. -/
def planFull : Plan
  | .send tx | .both tx => some ((payload tx).map some)
  | .receive n => if n = 0 then some [] else none

/-- Half duplex on ESP32: not both at a time. -/
def planHalf : Plan
  | .send tx => some ((payload tx).map some)
  | .receive n => some (List.replicate n.toNat none)
  | .both tx => if payload tx = [] then some [] else none

/-- What a successful call delivers, the answers to its `n` bytes being `f 0`, `f 1`, …. -/
def Op.result (o : Op) (n : Nat) (f : Nat → Byte) : List Byte :=
  match o with
  | .send _ => []
  | _ => (List.range n).map f

/-- A call to a device which has seen `hist` and is the only one around: the result, and what it has seen then. -/
def Op.ideal (plan : Plan) (slave : Slave) (hist : List Seen) (o : Op) : Option (List Byte) × List Seen :=
  match plan o with
  | none => (none, hist)
  | some out =>
    (some (o.result out.length fun i => slave (hist ++ (out.take i).map .byte)), hist ++ out.map .byte)

/-- The code of a driver talking to its device alone. -/
def Task.ideal {α : Type} (plan : Plan) (slave : Slave) : Task α → List Seen → α × List Seen
  | .ret a, hist => (a, hist)
  | .op o k, hist => (k (o.ideal plan slave hist).1).ideal plan slave (o.ideal plan slave hist).2

/-- `n` turns of a driver talking to its device alone: every turn is one frame of its own. -/
def turns {σ : Type} (plan : Plan) (slave : Slave) (code : σ → Task σ) : Nat → σ → List Seen → σ × List Seen
  | 0, s, hist => (s, hist)
  | n + 1, s, hist =>
    let r := (code s).ideal plan slave (hist ++ [.select])
    turns plan slave code n r.1 (r.2 ++ [.deselect])

/-! ### Transfers -/

theorem clocks_gpio (net : Net) (w : World) (l : List (Option Byte)) : (net.clocks w l).gpio = w.gpio := by
  unfold Net.clocks
  induction l generalizing w with
  | nil => rfl
  | cons b l ih => rw [List.foldl_cons, ih]; rfl

theorem clocks_seen (net : Net) (w : World) (l : List (Option Byte)) (p : BitVec 8) :
    (net.clocks w l).seen p = if p ∈ net.selected w.gpio then w.seen p ++ l.map .byte else w.seen p := by
  unfold Net.clocks
  induction l generalizing w with
  | nil => simp
  | cons b l ih =>
    rw [List.foldl_cons, ih]
    simp only [Net.clock]
    split <;> simp

/-- What a transfer of a platform has to be: it clocks what is planned and reads the answers. -/
def Exact (plat : Platform) (plan : Plan) : Prop :=
  ∀ net o w, plat net o w =
    match plan o with
    | none => .ok (none, w)
    | some out => .ok (some (o.result out.length fun i => net.answer (net.clocks w (out.take i))), net.clocks w out)

theorem len_toNat (tx : List Byte) : (len tx).toNat = tx.length % 65536 := by
  simp [len]

theorem len_le (tx : List Byte) : (len tx).toNat ≤ tx.length := by
  rw [len_toNat]; exact Nat.mod_le _ _

theorem take_len (tx : List Byte) : tx.take (len tx).toNat = payload tx := by
  rw [len_toNat]; rfl

theorem payload_length (tx : List Byte) : (payload tx).length = (len tx).toNat := by
  rw [← take_len, List.length_take]
  exact Nat.min_eq_left (len_le tx)

theorem answers_range (peer : Arduino.Peer) (out : List Byte) :
    Arduino.answers peer [] out = (List.range out.length).map fun i => peer (out.take i) := by
  apply List.ext_getElem?
  intro i
  by_cases hi : i < out.length
  · rw [Arduino.answers_get _ _ _ _ hi, List.getElem?_map, List.getElem?_range hi]
    rfl
  · rw [List.getElem?_eq_none (by rw [Arduino.answers_length]; omega), List.getElem?_eq_none (by simp; omega)]

theorem sent_all (peer : Arduino.Peer) (out : List Byte) :
    Arduino.sentBytes (([] : List Arduino.Ev) ++ [.beginTransaction] ++
      Arduino.exchanges peer (Arduino.sentBytes []) out ++ [.endTransaction]) = out := by
  simp [Arduino.sentBytes_append, Arduino.sentBytes_exchanges, Arduino.sentBytes]

/-- **C91**, transfers on Arduino. -/
theorem arduino_exact : Exact arduino planArduino := by
  intro net o w
  cases o with
  | send tx =>
    have h := (Device.Arduino.device_exact (fun sent => net.answer (net.clocks w (sent.map some))) tx tx (len tx) []
      (len_le tx) (len_le tx)).1
    simp only [arduino, planArduino]
    rw [h, Res.bind_ok, take_len]
    simp only [if_true, sent_all, Op.result]
  | receive n =>
    have h := (Device.Arduino.device_exact (fun sent => net.answer (net.clocks w (sent.map some)))
      (List.replicate n.toNat 0) (List.replicate n.toNat 0) n [] (by simp) (by simp)).2.1
    simp only [arduino, planArduino]
    rw [h, Res.bind_ok]
    simp only [if_true, sent_all]
    rw [show Arduino.sentBytes [] = [] from rfl, answers_range]
    simp [List.take_replicate, Op.result]
  | both tx =>
    have h := (Device.Arduino.device_exact (fun sent => net.answer (net.clocks w (sent.map some))) tx
      (List.replicate (len tx).toNat 0) (len tx) [] (len_le tx) (by simp)).2.2
    simp only [arduino, planArduino]
    rw [h, Res.bind_ok, take_len]
    simp only [if_true, sent_all]
    rw [show Arduino.sentBytes [] = [] from rfl, answers_range]
    simp [List.map_take, Op.result]

theorem answered_driver (peer : List (Option Byte) → Byte) (out : List (Option Byte)) (n k : Nat) :
    Esp.answered (driver peer out) k (Esp.pieces 4092 n) =
      (List.range n).map (fun i => peer (out.take (4092 * k + i))) ∧
    Esp.allAccepted (driver peer out) k (Esp.pieces 4092 n) = true := by
  induction n using Nat.strongRecOn generalizing k with
  | _ n ih =>
    by_cases h0 : n = 0
    · subst h0
      simp [Esp.pieces_zero, Esp.answered, Esp.allAccepted]
    · rw [Esp.pieces_pos (by decide) (by omega)]
      unfold Esp.answered Esp.allAccepted
      have hd : driver peer out k = some fun j => peer (out.take (4092 * k + j)) := rfl
      rw [hd]
      obtain ⟨i1, i2⟩ := ih (n - min n 4092) (by omega) (k + 1)
      refine ⟨?_, by simp [i2]⟩
      simp only
      rw [i1]
      by_cases hle : n ≤ 4092
      · simp [Nat.min_eq_left hle]
      · obtain ⟨r, rfl⟩ : ∃ r, n = 4092 + r := ⟨n - 4092, by omega⟩
        rw [Nat.min_eq_right (by omega), Nat.add_sub_cancel_left, List.range_add, List.map_append, List.map_map]
        refine congrArg _ (List.map_congr_left fun i _ => ?_)
        simp only [Function.comp]
        rw [show 4092 * (k + 1) + i = 4092 * k + (4092 + i) by omega]

theorem clocked_send (drv : Esp.Driver) (hd : ∀ k, drv k ≠ none) (tx : List Byte) (recv : Bool) (i off : Nat)
    (ks : List Nat) (h : off + ks.sum ≤ tx.length) :
    (Esp.submitted drv tx true recv i off ks).flatMap clocked = ((tx.drop off).take ks.sum).map some := by
  induction ks generalizing i off with
  | nil => simp [Esp.submitted]
  | cons k ks ih =>
    simp only [List.sum_cons] at h
    unfold Esp.submitted
    cases hk : drv i with
    | none => exact absurd hk (hd i)
    | some f =>
      simp only [List.flatMap_cons, if_true]
      rw [ih (i + 1) (off + k) (by omega)]
      simp only [clocked, Bool.not_true, Bool.false_eq_true, if_false]
      rw [List.sum_cons, List.take_add, List.drop_drop, List.map_append]

theorem clocked_receive (drv : Esp.Driver) (hd : ∀ k, drv k ≠ none) (i off : Nat)
    (ks : List Nat) (h : ∀ k ∈ ks, k ≤ 4092) :
    (Esp.submitted drv [] false true i off ks).flatMap clocked = List.replicate ks.sum none := by
  induction ks generalizing i off with
  | nil => simp [Esp.submitted]
  | cons k ks ih =>
    have hk0 := h k (by simp)
    have hb : (BitVec.ofNat 32 (8 * k)).toNat = 8 * k := by
      rw [BitVec.toNat_ofNat, Nat.mod_eq_of_lt (by omega)]
    unfold Esp.submitted
    cases hk : drv i with
    | none => exact absurd hk (hd i)
    | some f =>
      simp only [List.flatMap_cons]
      rw [ih (i + 1) (off + k) (fun k' hk' => h k' (by simp [hk']))]
      simp only [clocked, Bool.not_true, Bool.false_eq_true, if_false, if_true, hb]
      rw [Nat.mul_div_cancel_left _ (by decide), List.sum_cons, ← List.replicate_append_replicate]

theorem refused (tx : List Byte) (send recv : Bool) (n : Nat) (hn : n ≠ 0) :
    Esp.allAccepted refusal 0 (Esp.pieces 4092 n) = false ∧
    (Esp.submitted refusal tx send recv 0 0 (Esp.pieces 4092 n)).flatMap clocked = [] := by
  rw [Esp.pieces_pos (by decide) (by omega)]
  simp [Esp.allAccepted, Esp.submitted, refusal, clocked]

theorem driver_accepts (peer : List (Option Byte) → Byte) (out : List (Option Byte)) (k : Nat) :
    driver peer out k ≠ none := by simp [driver]

theorem esp_send (half : Bool) (b : Esp.Bus) (hb : Device.Esp.Ready b) (net : Net) (tx : List Byte) (w : World) :
    esp half b net (.send tx) w = .ok (some [], net.clocks w ((payload tx).map some)) := by
  have h := (Device.Esp.device_exact (driver (fun out => net.answer (net.clocks w out)) (tx.map some)) b hb tx tx (len tx)
    (len_le tx) (len_le tx) []).1
  simp only [esp]
  rw [h, Res.bind_ok]
  have hc := clocked_send (driver (fun out => net.answer (net.clocks w out)) (tx.map some)) (driver_accepts _ _) tx false
    0 0 (Esp.pieces 4092 (len tx).toNat) (by rw [Esp.pieces_sum (by decide)]; have := len_le tx; omega)
  rw [Esp.pieces_sum (by decide), List.drop_zero, take_len] at hc
  simp only [List.length_nil, (answered_driver _ _ _ _).2, if_true, List.nil_append, hc]

theorem esp_both (b : Esp.Bus) (hb : Device.Esp.Ready b) (net : Net) (tx : List Byte) (w : World) :
    esp false b net (.both tx) w = .ok (some ((List.range (payload tx).length).map fun i =>
      net.answer (net.clocks w (((payload tx).map some).take i))), net.clocks w ((payload tx).map some)) := by
  have h := (Device.Esp.device_exact (driver (fun out => net.answer (net.clocks w out)) (tx.map some)) b hb tx
    (List.replicate (len tx).toNat 0) (len tx) (len_le tx) (by simp) []).2.2
  simp only [esp, Bool.false_eq_true, if_false]
  rw [h, Res.bind_ok]
  have hc := clocked_send (driver (fun out => net.answer (net.clocks w out)) (tx.map some)) (driver_accepts _ _) tx true
    0 0 (Esp.pieces 4092 (len tx).toNat) (by rw [Esp.pieces_sum (by decide)]; have := len_le tx; omega)
  rw [Esp.pieces_sum (by decide), List.drop_zero, take_len] at hc
  obtain ⟨a1, a2⟩ := answered_driver (fun out => net.answer (net.clocks w out)) (tx.map some) (len tx).toNat 0
  simp only [List.length_nil, a1, a2, if_true, List.nil_append, hc, Nat.mul_zero, Nat.zero_add, payload_length]
  simp only [List.length_map, List.length_range, List.drop_replicate, Nat.sub_self, List.replicate_zero, List.append_nil]
  congr 3
  apply List.map_congr_left
  intro i hi
  rw [List.mem_range] at hi
  rw [← take_len, List.map_take, List.take_take, Nat.min_eq_left (by omega)]

theorem esp_receive (b : Esp.Bus) (hb : Device.Esp.Ready b) (net : Net) (n : BitVec 16) (w : World) :
    esp true b net (.receive n) w = .ok (some ((List.range n.toNat).map fun i =>
      net.answer (net.clocks w ((List.replicate n.toNat none).take i))), net.clocks w (List.replicate n.toNat none)) := by
  have h := (Device.Esp.device_exact (driver (fun out => net.answer (net.clocks w out)) (List.replicate n.toNat none)) b hb
    (List.replicate n.toNat 0) (List.replicate n.toNat 0) n (by simp) (by simp) []).2.1
  simp only [esp, if_true]
  rw [h, Res.bind_ok]
  have hc := clocked_receive (driver (fun out => net.answer (net.clocks w out)) (List.replicate n.toNat none))
    (driver_accepts _ _) 0 0 (Esp.pieces 4092 n.toNat) (fun k hk => (Esp.pieces_bound (by decide) _ k hk).2)
  rw [Esp.pieces_sum (by decide)] at hc
  obtain ⟨a1, a2⟩ := answered_driver (fun out => net.answer (net.clocks w out)) (List.replicate n.toNat none) n.toNat 0
  simp only [List.length_nil, a1, a2, if_true, List.nil_append, hc, Nat.mul_zero, Nat.zero_add]
  simp

theorem bv16_zero {n : BitVec 16} : n.toNat = 0 ↔ n = 0 := by
  constructor
  · intro h; exact BitVec.eq_of_toNat_eq (by simpa using h)
  · rintro rfl; rfl

/-- **C91**, transfers on ESP32 with a bus initialised for full duplex. -/
theorem espFull_exact (b : Esp.Bus) (hb : Device.Esp.Ready b) : Exact (esp false b) planFull := by
  intro net o w
  cases o with
  | send tx => exact esp_send false b hb net tx w
  | both tx =>
    rw [esp_both b hb net tx w]
    simp [planFull, Op.result]
  | receive n =>
    have h := (Device.Esp.device_exact refusal b hb
      (List.replicate n.toNat 0) (List.replicate n.toNat 0) n (by simp) (by simp) []).2.1
    simp only [esp, Bool.false_eq_true, if_false, planFull]
    rw [h, Res.bind_ok]
    by_cases hn : n = 0
    · subst hn
      simp [Esp.pieces_zero, Esp.allAccepted, Esp.answered, Esp.submitted, Op.result, Net.clocks]
    · obtain ⟨r1, r2⟩ := refused [] false true n.toNat (fun h => hn (bv16_zero.1 h))
      simp only [List.length_nil, r1, r2, List.nil_append, Bool.false_eq_true, if_false, hn]
      rfl

/-- **C91**, transfers on ESP32 with a bus initialised for half duplex. -/
theorem espHalf_exact (b : Esp.Bus) (hb : Device.Esp.Ready b) : Exact (esp true b) planHalf := by
  intro net o w
  cases o with
  | send tx => exact esp_send true b hb net tx w
  | receive n =>
    rw [esp_receive b hb net n w]
    simp [planHalf, Op.result]
  | both tx =>
    have h := (Device.Esp.device_exact refusal b hb tx
      (List.replicate (len tx).toNat 0) (len tx) (len_le tx) (by simp) []).2.2
    simp only [esp, if_true, planHalf]
    rw [h, Res.bind_ok]
    have hp : payload tx = [] ↔ (len tx).toNat = 0 := by rw [← payload_length, List.length_eq_zero_iff]
    by_cases hn : payload tx = []
    · rw [if_pos hn, hp.1 hn]
      simp [Esp.pieces_zero, Esp.allAccepted, Esp.answered, Esp.submitted, Op.result, Net.clocks]
    · obtain ⟨r1, r2⟩ := refused tx true true (len tx).toNat (fun h => hn (hp.2 h))
      simp only [List.length_nil, r1, r2, List.nil_append, Bool.false_eq_true, if_false, hn]
      rfl

/-! ### Sessions -/

theorem runTask_exact {α : Type} {plat : Platform} {plan : Plan} (hp : Exact plat plan) (net : Net) (p : BitVec 8)
    (t : Task α) (w : World) (hs : net.selected w.gpio = [p]) :
    ∃ w', runTask plat net t w = .ok ((t.ideal plan (net.slave p) (w.seen p)).1, w') ∧ w'.gpio = w.gpio ∧
      ∀ q, w'.seen q = if q = p then (t.ideal plan (net.slave p) (w.seen p)).2 else w.seen q := by
  induction t generalizing w with
  | ret a => exact ⟨w, rfl, rfl, fun q => by simp only [Task.ideal]; split <;> simp_all⟩
  | op o k ih =>
    have hans : ∀ l, net.answer (net.clocks w l) = net.slave p (w.seen p ++ l.map .byte) := by
      intro l
      unfold Net.answer
      rw [clocks_gpio, hs]
      simp only [clocks_seen, hs, List.mem_singleton, if_true]
    unfold runTask
    rw [hp net o w]
    cases hpl : plan o with
    | none =>
      simp only [Res.bind_ok]
      obtain ⟨w', h1, h2, h3⟩ := ih none w hs
      refine ⟨w', ?_, h2, ?_⟩
      · rw [h1]; simp [Task.ideal, Op.ideal, hpl]
      · intro q; rw [h3 q]; simp [Task.ideal, Op.ideal, hpl]
    | some out =>
      simp only [Res.bind_ok]
      have hseen : ∀ q, (net.clocks w out).seen q = if q = p then w.seen p ++ out.map .byte else w.seen q := by
        intro q
        rw [clocks_seen, hs]
        by_cases hq : q = p
        · simp [hq]
        · simp [hq]
      have hid : (o.ideal plan (net.slave p) (w.seen p)) =
          (some (o.result out.length fun i => net.answer (net.clocks w (out.take i))), (net.clocks w out).seen p) := by
        rw [hseen, if_pos rfl]
        simp only [Op.ideal, hpl, hans]
      obtain ⟨w', h1, h2, h3⟩ := ih (o.ideal plan (net.slave p) (w.seen p)).1 (net.clocks w out)
        (by rw [clocks_gpio]; exact hs)
      refine ⟨w', ?_, ?_, ?_⟩
      · rw [Task.ideal, hid] at *
        exact h1
      · rw [h2, clocks_gpio]
      · intro q
        rw [h3 q, hseen q, Task.ideal, hid]
        split <;> rfl

/-- The pins of all devices are high. -/
def Idle (net : Net) (w : World) : Prop := ∀ p ∈ net.pins, w.gpio.level p = true

theorem filter_one (l : List (BitVec 8)) (h : l.Nodup) (p : BitVec 8) (hp : p ∈ l) :
    l.filter (fun q => q == p) = [p] := by
  induction l with
  | nil => simp at hp
  | cons a l ih =>
    rw [List.nodup_cons] at h
    by_cases ha : a = p
    · subst ha
      rw [List.filter_cons_of_pos (by simp)]
      congr 1
      rw [List.filter_eq_nil_iff]
      intro q hq hqa
      have : q = a := by simpa using hqa
      exact h.1 (this ▸ hq)
    · rw [List.filter_cons_of_neg (by simpa using ha)]
      exact ih h.2 (by simpa [Ne.symm ha] using hp)

/-- **C91**, one access: the device sees one frame with what its driver exchanges, the driver gets the answers of its
device as if it were alone, and the other devices see nothing. -/
theorem session_exact {α : Type} {plat : Platform} {plan : Plan} (hp : Exact plat plan) (net : Net) (hn : net.pins.Nodup)
    (p : BitVec 8) (hm : p ∈ net.pins) (t : Task α) (w : World) (hw : Idle net w) :
    ∃ w', session plat net p t w = .ok ((t.ideal plan (net.slave p) (w.seen p ++ [.select])).1, w') ∧ Idle net w' ∧
      ∀ q ∈ net.pins, w'.seen q =
        if q = p then (t.ideal plan (net.slave p) (w.seen p ++ [.select])).2 ++ [.deselect] else w.seen q := by
  have hlev : ∀ q ∈ net.pins, (Gpio.selectorCtor p w.gpio).level q = !(q == p) := by
    intro q hq
    by_cases h : q = p
    · subst h
      simp only [Gpio.selectorCtor, Gpio.pinReset, beq_self_eq_true, Bool.not_true]
      exact Gpio.drive_same w.gpio q false
    · have := Gpio.drive_other (s := w.gpio) (Ne.symm h) false
      simp only [Gpio.selectorCtor, Gpio.pinReset]
      rw [this, hw q hq]
      simp [h]
  have hsel : net.selected (w.drive (Gpio.selectorCtor p)).gpio = [p] := by
    unfold Net.selected
    rw [← filter_one net.pins hn p hm]
    apply List.filter_congr
    intro q hq
    simp only [World.drive]
    rw [hlev q hq, Bool.not_not]
  have hseen : ∀ q ∈ net.pins, (w.drive (Gpio.selectorCtor p)).seen q =
      if q = p then w.seen p ++ [.select] else w.seen q := by
    intro q hq
    simp only [World.drive]
    rw [hlev q hq, hw q hq]
    by_cases h : q = p
    · simp [h]
    · simp [h]
  obtain ⟨w', h1, h2, h3⟩ := runTask_exact hp net p t (w.drive (Gpio.selectorCtor p)) hsel
  rw [hseen p hm, if_pos rfl] at h1 h3
  have hlev' : ∀ q ∈ net.pins, (Gpio.selectorDtor p w'.gpio).level q = true := by
    intro q hq
    by_cases h : q = p
    · subst h
      exact Gpio.drive_same w'.gpio q true
    · have := Gpio.drive_other (s := w'.gpio) (Ne.symm h) true
      simp only [Gpio.selectorDtor, Gpio.pinSet]
      rw [this, h2]
      simp only [World.drive]
      rw [hlev q hq]
      simp [h]
  refine ⟨w'.drive (Gpio.selectorDtor p), by unfold session; simp only [h1, Res.bind_ok], hlev', ?_⟩
  intro q hq
  simp only [World.drive]
  rw [hlev' q hq, h3 q, h2]
  simp only [World.drive]
  rw [hlev q hq]
  by_cases h : q = p
  · simp [h]
  · simp [h, hw q hq]

/-! ### Programs -/

/-- **C91**, exactly: after any program every device has seen one frame per turn of its driver, and the driver has
received the answers of its device, as if both were alone. -/
theorem run_exact {σ : Type} {plat : Platform} {plan : Plan} (hp : Exact plat plan) (net : Net) (hn : net.pins.Nodup)
    (code : BitVec 8 → σ → Task σ) (sched : List (BitVec 8)) (hs : ∀ p ∈ sched, p ∈ net.pins) (st : BitVec 8 → σ)
    (w : World) (hw : Idle net w) :
    ∃ st' w', run plat net code sched st w = .ok (st', w') ∧ Idle net w' ∧
      ∀ p ∈ net.pins, (st' p, w'.seen p) = turns plan (net.slave p) (code p) (sched.count p) (st p) (w.seen p) := by
  induction sched generalizing st w with
  | nil => exact ⟨st, w, rfl, hw, fun p _ => by simp [turns]⟩
  | cons a rest ih =>
    obtain ⟨w1, h1, h2, h3⟩ := session_exact hp net hn a (hs a (by simp)) (code a (st a)) w hw
    obtain ⟨st', w', k1, k2, k3⟩ := ih (fun p h => hs p (by simp [h]))
      (fun q => if q = a then ((code a (st a)).ideal plan (net.slave a) (w.seen a ++ [.select])).1 else st q) w1 h2
    refine ⟨st', w', by rw [run, h1, Res.bind_ok]; exact k1, k2, ?_⟩
    intro p hpin
    rw [k3 p hpin, h3 p hpin, List.count_cons]
    by_cases h : p = a
    · subst h
      simp [turns]
    · simp [h, Ne.symm h]

/-- **C91**: devices sharing a bus behave as if each were alone on it: a driver ends in the same state, and its device
has seen the same, as when only this driver's turns are executed on a bus with only this device. -/
theorem isolation {σ : Type} {plat : Platform} {plan : Plan} (hp : Exact plat plan) (net : Net) (hn : net.pins.Nodup)
    (code : BitVec 8 → σ → Task σ) (sched : List (BitVec 8)) (hs : ∀ p ∈ sched, p ∈ net.pins) (st : BitVec 8 → σ)
    (w : World) (hw : Idle net w) :
    ∃ st' w', run plat net code sched st w = .ok (st', w') ∧
      ∀ p ∈ net.pins, ∃ st1 w1, run plat { net with pins := [p] } code (sched.filter (· == p)) st w = .ok (st1, w1) ∧
        st' p = st1 p ∧ w'.seen p = w1.seen p := by
  obtain ⟨st', w', h1, -, h2⟩ := run_exact hp net hn code sched hs st w hw
  refine ⟨st', w', h1, fun p hm => ?_⟩
  obtain ⟨st1, w1, k1, -, k2⟩ := run_exact hp { net with pins := [p] } (by simp) code (sched.filter (· == p))
    (fun q hq => by simp only [List.mem_filter, beq_iff_eq] at hq; simp [hq.2]) st w
    (fun q hq => by
      simp only [List.mem_singleton] at hq
      subst hq
      exact hw _ hm)
  refine ⟨st1, w1, k1, ?_⟩
  have e := k2 p (by simp)
  rw [List.count_filter (by simp), ← h2 p hm, Prod.mk.injEq] at e
  exact ⟨e.1.symm, e.2.symm⟩

/-- The three platforms. -/
theorem isolation_all {σ : Type} (b : Esp.Bus) (hb : Device.Esp.Ready b) (plat : Platform)
    (hplat : plat = arduino ∨ plat = esp false b ∨ plat = esp true b) (net : Net) (hn : net.pins.Nodup)
    (code : BitVec 8 → σ → Task σ) (sched : List (BitVec 8)) (hs : ∀ p ∈ sched, p ∈ net.pins) (st : BitVec 8 → σ)
    (w : World) (hw : Idle net w) :
    ∃ st' w', run plat net code sched st w = .ok (st', w') ∧
      ∀ p ∈ net.pins, ∃ st1 w1, run plat { net with pins := [p] } code (sched.filter (· == p)) st w = .ok (st1, w1) ∧
        st' p = st1 p ∧ w'.seen p = w1.seen p := by
  rcases hplat with rfl | rfl | rfl
  · exact isolation arduino_exact net hn code sched hs st w hw
  · exact isolation (espFull_exact b hb) net hn code sched hs st w hw
  · exact isolation (espHalf_exact b hb) net hn code sched hs st w hw

/-! ### Both platforms -/

/-- The code of a driver does not use `receiveSync`, whatever it receives. -/
def Task.NoReceive {α : Type} : Task α → Prop
  | .ret _ => True
  | .op o k => (∀ n, o ≠ .receive n) ∧ ∀ r, (k r).NoReceive

theorem ideal_congr {α : Type} (slave : Slave) (t : Task α) (ht : t.NoReceive) (hist : List Seen) :
    t.ideal planArduino slave hist = t.ideal planFull slave hist := by
  induction t generalizing hist with
  | ret a => rfl
  | op o k ih =>
    have ho : o.ideal planArduino slave hist = o.ideal planFull slave hist := by
      cases o with
      | send tx => rfl
      | both tx => rfl
      | receive n => exact absurd rfl (ht.1 n)
    rw [Task.ideal, Task.ideal, ho]
    exact ih _ (ht.2 _) _

theorem turns_congr {σ : Type} (slave : Slave) (code : σ → Task σ) (ht : ∀ s, (code s).NoReceive) (n : Nat) (s : σ)
    (hist : List Seen) : turns planArduino slave code n s hist = turns planFull slave code n s hist := by
  induction n generalizing s hist with
  | zero => rfl
  | succ n ih => simp only [turns]; rw [ideal_congr slave (code s) (ht s), ih]

/-- **C91**: drivers which send, and send and receive, do the same to their devices and learn the same from them on
Arduino and on an ESP32 in full duplex mode. -/
theorem platforms_agree {σ : Type} (b : Esp.Bus) (hb : Device.Esp.Ready b) (net : Net) (hn : net.pins.Nodup)
    (code : BitVec 8 → σ → Task σ) (ht : ∀ p s, (code p s).NoReceive) (sched : List (BitVec 8))
    (hs : ∀ p ∈ sched, p ∈ net.pins) (st : BitVec 8 → σ) (w : World) (hw : Idle net w) :
    ∃ stA wA stE wE, run arduino net code sched st w = .ok (stA, wA) ∧
      run (esp false b) net code sched st w = .ok (stE, wE) ∧
      ∀ p ∈ net.pins, stA p = stE p ∧ wA.seen p = wE.seen p := by
  obtain ⟨stA, wA, a1, -, a2⟩ := run_exact arduino_exact net hn code sched hs st w hw
  obtain ⟨stE, wE, e1, -, e2⟩ := run_exact (espFull_exact b hb) net hn code sched hs st w hw
  refine ⟨stA, wA, stE, wE, a1, e1, fun p hm => ?_⟩
  have h := (a2 p hm).trans ((turns_congr _ _ (ht p) _ _ _).trans (e2 p hm).symm)
  rw [Prod.mk.injEq] at h
  exact h

/-- **C91**: a driver using `receiveSync` learns nothing from its device on an ESP32 in full duplex mode: the call
returns false, whatever the device, and the device is not even clocked. -/
theorem receive_refused (b : Esp.Bus) (hb : Device.Esp.Ready b) (net : Net) (n : BitVec 16) (hn : n ≠ 0) (w : World) :
    esp false b net (.receive n) w = .ok (none, w) := by
  rw [espFull_exact b hb net (.receive n) w]
  simp only [planFull, if_neg hn]

/-! ### Without the conditions -/

/-- A device whose pin is low while another one is accessed – because it was never driven high, as after a reset, or
because its selector is alive – sees the bytes of the other one. -/
theorem low_pin_sees {plat : Platform} {plan : Plan} (hp : Exact plat plan) (net : Net) (p : BitVec 8) (hm : p ∈ net.pins)
    (w : World) (hl : w.gpio.level p = false) (o : Op) (out : List (Option Byte)) (ho : plan o = some out) :
    ∃ r w', plat net o w = .ok (some r, w') ∧ w'.seen p = w.seen p ++ out.map .byte := by
  rw [hp net o w, ho]
  refine ⟨_, _, rfl, ?_⟩
  rw [clocks_seen, if_pos]
  simp [Net.selected, hm, hl]

/-- **C91**, the condition on the pins is needed: on a bus whose pins are low at first, as after a reset, the first
access to device `p` is also seen by device `q`, in the middle of no frame, and its answers are not those of `p`. -/
theorem unset_pins_disturb {plat : Platform} {plan : Plan} (hp : Exact plat plan) (slave : BitVec 8 → Slave)
    (other : List (BitVec 8) → Byte) (p q : BitVec 8) (hpq : p ≠ q) (g : Gpio.St) (hg : ∀ x, g.level x = false)
    (o : Op) (out : List (Option Byte)) (ho : plan o = some out) :
    ∃ r w', session plat ⟨[p, q], slave, other⟩ p (.op o .ret) ⟨g, fun _ => []⟩ = .ok (some r, w') ∧
      w'.seen q = out.map .byte ∧
      ((∀ tx, o ≠ .send tx) → r = List.replicate out.length (other [p, q])) := by
  have hlow : ∀ x, (Gpio.selectorCtor p g).level x = false := by
    intro x
    simp [Gpio.selectorCtor, Gpio.pinReset, Gpio.St.drive, hg]
  have hsel : (⟨[p, q], slave, other⟩ : Net).selected (Gpio.selectorCtor p g) = [p, q] := by
    simp [Net.selected, hlow]
  have hw0 : (⟨g, fun _ => []⟩ : World).drive (Gpio.selectorCtor p) = ⟨Gpio.selectorCtor p g, fun _ => []⟩ := by
    simp only [World.drive, hg, hlow, List.nil_append]
  unfold session
  simp only [hw0, runTask]
  rw [hp, ho]
  simp only [Res.bind_ok]
  refine ⟨_, _, rfl, ?_, ?_⟩
  · simp only [World.drive, clocks_gpio, clocks_seen, hsel]
    have : (Gpio.selectorDtor p (Gpio.selectorCtor p g)).level q = false := by
      simp [Gpio.selectorDtor, Gpio.pinSet, Gpio.St.drive, Ne.symm hpq, hlow]
    rw [this, hlow]
    simp
  · intro hne
    have hans : ∀ l, (⟨[p, q], slave, other⟩ : Net).answer
        ((⟨[p, q], slave, other⟩ : Net).clocks ⟨Gpio.selectorCtor p g, fun _ => []⟩ l) = other [p, q] := by
      intro l
      unfold Net.answer
      rw [clocks_gpio, hsel]
    cases o with
    | send tx => exact absurd rfl (hne tx)
    | receive n => simp [Op.result, hans, List.map_const']
    | both tx => simp [Op.result, hans, List.map_const']

/-! ### An example -/

/-- A driver which sends the number of its turn, and remembers the first byte answered to the byte after it. -/
def exampleCode (p : BitVec 8) (s : List Byte) : Task (List Byte) :=
  .op (.send [BitVec.ofNat 8 s.length]) fun _ => .op (.both [p, 0]) fun r =>
    .ret (s ++ (match r with | some (b :: _) => [b] | _ => []))

/-- Devices at the pins 5 and 7 which answer with the number of their pin plus the number of events seen. -/
def exampleNet : Net := ⟨[5, 7], fun p l => p + BitVec.ofNat 8 l.length, fun _ => 0xFF⟩

/-- Two drivers taking turns; the answers come from the right devices and depend on what these have seen only. -/
example : (run arduino exampleNet exampleCode [5, 7, 5] (fun _ => []) ⟨⟨fun _ => true, []⟩, fun _ => []⟩).isOk ∧
    turns planArduino (exampleNet.slave 5) (exampleCode 5) 2 [] [] = ([7, 12],
      [.select, .byte (some 0), .byte (some 5), .byte (some 0), .deselect,
       .select, .byte (some 1), .byte (some 5), .byte (some 0), .deselect]) ∧
    turns planArduino (exampleNet.slave 7) (exampleCode 7) 1 [] [] = ([9],
      [.select, .byte (some 0), .byte (some 7), .byte (some 0), .deselect]) := by decide

example : ∀ p s, (exampleCode p s).NoReceive := by
  intro p s
  simp [exampleCode, Task.NoReceive]

end Verif.Spi.Select
