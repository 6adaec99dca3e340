import Verif.Spi.Display
import Verif.Hal.I2cPortable
import Verif.Text.Reading
import Verif.Text.Order
import Verif.Endian.Props
/-!
# C118: a thermometer

The README names as the first thing to be done with a micro-controller "to attach a temperature sensor and show its readings
on a small OLED display" (README.md:6).  Here is this program, written with the library: a register of a sensor is read with
`I2CDevice::sendThenReceive` (I2CDevice.h:19-22), converted with `changeEndianess` (EndianConversion.h:8-11), printed behind
a label with `BufferedOut`, drawn with `Canvas::drawStringAt` in the font of the library on a cleared frame buffer, and the
image is sent with `SpiDevice::sendSync` to a display on an SPI bus, again and again.  The program is the user's, everything
it calls is the code modelled elsewhere.

The sensor is an arbitrary device: what it answers may depend on everything sent to it before.
-/
namespace Verif.App.Thermometer
open Verif Verif.Canvas Verif.FrameBuffer Verif.Font Verif.Out Verif.Text Verif.Hal.I2c.Portable Verif.Endian
open Verif.Spi (Select.session Display.sendImage)

abbrev IWorld := Verif.Hal.I2c.Portable.World
abbrev INet := Verif.Hal.I2c.Portable.Net
abbrev IOp := Verif.Hal.I2c.Portable.Op
abbrev SWorld := Verif.Spi.Select.World
abbrev SNet := Verif.Spi.Select.Net

/-! ## The program -/

/-- What is fixed: the sensor's address and register, the label, the canvas and the frame buffer, the background, the place
of the text, the pin of the display; `char` is signed or not. -/
structure Setup where
  addr : BitVec 16
  reg : Byte
  label : List Byte
  c : Canvas
  g : Geom
  signed : Bool
  paper : BitVec 32
  pos : Pt
  pin : BitVec 8

/-- The platform: the implementations of `I2CDevice` and `SpiDevice`, and the devices at the pins of the SPI bus. -/
structure Board where
  i2c : BitVec 16 → IOp → IWorld → Res (Option (List Byte) × IWorld)
  spi : Verif.Spi.Select.Platform
  net : SNet

/-- `memcpy(&raw, buffer, sizeof raw)` on a little-endian processor. -/
def load16 : List Byte → Res (BitVec 16)
  | b0 :: b1 :: _ => .ok (b1 ++ b0)
  | _ => .ub

/-- The text: `char array[N]; BufferedOut out{array}; out << label << value;` with arbitrary contents `stack` of the new
array. -/
def printed (s : Setup) (stack : List Byte) (junk : Nat → Byte) (v : Int) : Res (List Byte) := do
  let o ← (BOut.new stack).putCstr (s.label ++ [0])
  let o ← o.putInt junk v
  .ok o.text

/-- One measurement; the result tells whether it was shown. -/
def measure (s : Setup) (b : Board) (stack : List Byte) (junk : Nat → Byte) (wi : IWorld) (fb : FB) (ws : SWorld) :
    Res (Bool × IWorld × FB × SWorld) := do
  let (r, wi) ← b.i2c s.addr (.sendThenReceive [s.reg] 2) wi
  match r with
  | none => .ok (false, wi, fb, ws)
  | some bytes =>
    let raw ← load16 bytes
    let text ← printed s stack junk (changeEndianess16 raw).toInt
    let fb ← page s.c s.g s.signed fb s.paper s.pos text
    let t ← Display.sendImage fb
    let (ok, ws) ← Select.session b.spi b.net s.pin t ws
    .ok (ok, wi, fb, ws)

/-- `n` measurements; the array and its surroundings contain anything at every turn. -/
def run (s : Setup) (b : Board) (stack : Nat → List Byte) (junk : Nat → Nat → Byte) :
    Nat → IWorld → FB → SWorld → Res (List Bool × IWorld × FB × SWorld)
  | 0, wi, fb, ws => .ok ([], wi, fb, ws)
  | n + 1, wi, fb, ws => do
    let (ok, wi, fb, ws) ← measure s b (stack n) (junk n) wi fb ws
    let (oks, wi, fb, ws) ← run s b stack junk n wi fb ws
    .ok (ok :: oks, wi, fb, ws)

/-! ## Specification -/

/-- The values measured by a sensor, two bytes with the more significant one first, when it is asked `n` times: `none` when
it does not acknowledge or does not answer. -/
def values (d : Dev) (reg : Byte) : Nat → List Msg → List (Option (BitVec 16))
  | 0, _ => []
  | n + 1, h =>
    if d.ack h [reg] then
      (if d.reads (h ++ [.write [reg]]) then
        some (d.answer (h ++ [.write [reg]]) 0 ++ d.answer (h ++ [.write [reg]]) 1) else none) ::
      values d reg n (h ++ [.write [reg], .read 2])
    else none :: values d reg n (h ++ [.write [reg]])

/-- The image shows the text, in the pen's colour on the background. -/
def Depicts (s : Setup) (pen : BitVec 32) (t : List Byte) (img : List Byte) : Prop :=
  (img.length : Int) = s.g.bufSize ∧ ∃ rs, t.map (getBitmap s.signed freeSans) = rs.map .ok ∧
    ∀ p, OnScreen s.c p →
      (textSet freeSans.bitmap rs s.pos p → readPixel s.c s.g ⟨img, pen⟩ p = some (storedValue s.g.depth pen)) ∧
      (¬ textSet freeSans.bitmap rs s.pos p → readPixel s.c s.g ⟨img, pen⟩ p = some (storedValue s.g.depth s.paper))

/-- The display is selected, sent an image and deselected. -/
def frame (img : List Byte) : List Verif.Spi.Select.Seen :=
  .select :: img.map (fun b => .byte (some b)) ++ [.deselect]

/-- The sensor may be connected to an Arduino, whose `TwoWire` has room for two bytes, or an ESP32; the display to one of
the three platforms of C91. -/
structure Supported (b : Board) (inet : INet) : Prop where
  i2c : (∃ cap, 2 ≤ cap ∧ b.i2c = Arduino.call inet cap) ∨ ∃ period timeout, b.i2c = Esp.call inet period timeout
  spi : ∃ bus, Verif.Spi.Device.Esp.Ready bus ∧ Verif.Spi.Display.Supported bus b.spi
  pins : b.net.pins.Nodup

/-- There is room on the screen for the label and a number; image and label are of reasonable size; ink and paper differ. -/
structure Setup.Fine (s : Setup) (pen : BitVec 32) : Prop where
  room : Room s.c s.pos (s.label.length + 6)
  label : ∀ b ∈ s.label, 0x20 ≤ b.toNat ∧ b.toNat < 0x7E
  colours : storedValue s.g.depth s.paper ≠ storedValue s.g.depth pen
  image : s.g.bufSize < 65536

/-! ## Proof -/

theorem depicts_unique {s : Setup} {pen : BitVec 32} {fb : FB} (h : Ready s.c s.g fb) {t img img' : List Byte}
    (h1 : Depicts s pen t img) (h2 : Depicts s pen t img') : img = img' := by
  obtain ⟨l1, rs, e1, p1⟩ := h1
  obtain ⟨l2, rs', e2, p2⟩ := h2
  have : rs = rs' := by
    rw [e1] at e2
    exact (List.map_inj_right (fun a b hab => Res.ok.inj hab)).1 e2
  subst this
  apply img_ext s.g h.compiles h.hlo img img' l1 l2
  intro x y hr
  obtain ⟨-, -, k⟩ := rotation_bijective s.c s.g fb h
  obtain ⟨p, hp, hq⟩ := k ⟨x, y⟩ hr
  have e : readPixel s.c s.g ⟨img, pen⟩ p = readPixel s.c s.g ⟨img', pen⟩ p := by
    by_cases hin : textSet freeSans.bitmap rs s.pos p
    · rw [(p1 p hp).1 hin, (p2 p hp).1 hin]
    · rw [(p1 p hp).2 hin, (p2 p hp).2 hin]
  simpa only [readPixel, hq] using e

/-- Clearing the screen and writing a text. -/
theorem page_depicts {s : Setup} {fb : FB} (h : Ready s.c s.g fb) (t : List Byte) (ht : ∀ b ∈ t, b.toNat ≠ 0x7E)
    (hroom : Room s.c s.pos t.length) :
    ∃ fb', page s.c s.g s.signed fb s.paper s.pos t = .ok fb' ∧ fb'.sel = fb.sel ∧ Ready s.c s.g fb' ∧
      Depicts s fb.sel t fb'.img := by
  obtain ⟨fb0, k1, k2, k3, k4⟩ := cleared s.c s.g fb h s.paper
  obtain ⟨rs, hrs, hds⟩ := freeSans_drawable s.signed t ht
  obtain ⟨fb', m1, m2⟩ := drawStringAt_exact s.c s.g fb0 k3 s.signed freeSans s.pos t rs
    (by have := hroom.left; have := hroom.top; have := hroom.scale; omega) hrs hds
  have hl : (fb'.img.length : Int) = s.g.bufSize := by rw [m2.len]; exact k3.img
  refine ⟨fb', by rw [page, k1]; exact m1, by rw [m2.sel, k2], { h with img := hl }, hl, rs, hrs, ?_⟩
  intro p hp
  refine ⟨fun hin => ?_, fun hout => ?_⟩
  · have := m2.inside p hp hin
    rw [k2] at this
    exact this
  · have := m2.outside p hp hout
    rw [k4 p hp] at this
    exact this

theorem int16_length (v : BitVec 16) : (intDec v.toInt).length ≤ 6 := by
  have h1 : v.toInt.natAbs < 10 ^ (4 + 1) := by
    have := BitVec.toInt_lt (x := v)
    have := BitVec.le_toInt (x := v)
    omega
  have := natDecF_length (v.toInt.natAbs + 1) v.toInt.natAbs 4 h1
  unfold intDec natDec
  split
  · rw [List.length_cons]; omega
  · omega

theorem printed_eq (s : Setup) {pen : BitVec 32} (hs : s.Fine pen) (stack : List Byte) (hst : s.label.length + 6 ≤ stack.length)
    (junk : Nat → Byte) (v : BitVec 16) : printed s stack junk v.toInt = .ok (s.label ++ intDec v.toInt) := by
  have hwf : (BOut.new stack).WF := Nat.zero_le _
  obtain ⟨o1, h1, a1⟩ := putCstr_spec hwf s.label [] (by
    intro c hc h0
    have := hs.label c hc
    rw [h0] at this
    revert this
    decide)
  have hcap : (BOut.new stack).capacity = stack.length := rfl
  have hsize : (BOut.new stack).size = 0 := rfl
  rw [List.take_of_length_le (by rw [hcap, hsize]; omega)] at a1
  have hw : (BOut.new stack).integerWidth ≤ 0 := Int.le_refl 0
  obtain ⟨o2, h2, a2⟩ := putInt_spec junk (o := o1) a1.wf (by rw [a1.width]; exact hw) v.toInt
  have hl := int16_length v
  have hp : o1.pos = s.label.length := by rw [a1.pos]; exact Nat.zero_add _
  have hm : o1.mem.length = stack.length := a1.len
  rw [if_pos (by unfold BOut.size BOut.capacity; omega)] at a2
  have ht : (BOut.new stack).text = [] := rfl
  unfold printed
  rw [h1, Res.bind_ok, h2, Res.bind_ok, a2.text, a1.text, ht, List.nil_append]

theorem text_fine (s : Setup) {pen : BitVec 32} (hs : s.Fine pen) (v : BitVec 16) :
    (∀ b ∈ s.label ++ intDec v.toInt, 0x20 ≤ b.toNat ∧ b.toNat < 0x7E) ∧
      Room s.c s.pos (s.label ++ intDec v.toInt).length ∧ ∃ u b, s.label ++ intDec v.toInt = u ++ [b] ∧ b ≠ 0x20 := by
  have hl := int16_length v
  refine ⟨?_, ?_, ?_⟩
  · intro b hb
    rcases List.mem_append.1 hb with h | h
    · exact hs.label b h
    · exact intDec_chars _ b h
  · obtain ⟨r1, r2, r3, r4, r5⟩ := hs.room
    rw [List.length_append]
    constructor <;> omega
  · obtain ⟨u, b, e, hb⟩ := intDec_last v.toInt
    exact ⟨s.label ++ u, b, by rw [e, List.append_assoc], hb⟩

/-- The bytes of the sensor, loaded and converted. -/
theorem converted (hi lo : Byte) : changeEndianess16 (lo ++ hi) = (hi ++ lo : BitVec 16) := by
  have ha : ∀ a b : Byte, (a ++ b : BitVec 16).toNat = a.toNat * 256 + b.toNat := by
    intro a b
    rw [BitVec.toNat_append, ← Nat.shiftLeft_add_eq_or_of_lt b.isLt, Nat.shiftLeft_eq]
  have h := changeEndianess16_reverses_bytes (lo ++ hi)
  simp only [bytes16, ha, List.reverse_cons, List.reverse_nil, List.nil_append, List.cons_append, List.cons.injEq,
    and_true] at h
  have := hi.isLt
  have := lo.isLt
  apply BitVec.eq_of_toNat_eq
  rw [ha]
  omega

theorem view_own (a : BitVec 16) (w : IWorld) (ms : List Msg) : view a (w ++ ms.map fun m => (a, m)) = view a w ++ ms := by
  unfold view
  rw [List.filter_append, List.map_append]
  congr 1
  induction ms with
  | nil => rfl
  | cons m ms ih => simpa using ih

theorem view_other (a a' : BitVec 16) (h : a ≠ a') (w : IWorld) (ms : List Msg) :
    view a (w ++ ms.map fun m => (a', m)) = view a w := by
  unfold view
  rw [List.filter_append, List.map_append]
  have : (ms.map fun m => (a', m)).filter (fun x => x.1 == a) = [] := by
    rw [List.filter_eq_nil_iff]
    intro x hx
    obtain ⟨m, -, rfl⟩ := List.mem_map.1 hx
    simpa using fun e => h e.symm
  rw [this]
  simp

/-- The question to the sensor, on both platforms. -/
theorem asked {b : Board} {inet : INet} (hb : Supported b inet) (a : BitVec 16) (reg : Byte) (w : IWorld) :
    b.i2c a (.sendThenReceive [reg] 2) w = .ok (
      if (inet a).ack (view a w) [reg] then
        (if (inet a).reads (view a w ++ [.write [reg]]) then
          some [(inet a).answer (view a w ++ [.write [reg]]) 0, (inet a).answer (view a w ++ [.write [reg]]) 1] else none,
          w ++ [.write [reg], .read 2].map fun m => (a, m))
      else (none, w ++ [.write [reg]].map fun m => (a, m))) := by
  have h1 : b.i2c a (.sendThenReceive [reg] 2) w = .ok (ideal inet 65535 a (.sendThenReceive [reg] 2) w) := by
    rcases hb.i2c with ⟨cap, hc, e⟩ | ⟨period, timeout, e⟩
    · rw [e, Arduino.call_exact, ideal_cap]
      · show count [reg] ≤ cap
        have := count_le [reg]
        simp at this
        omega
      · exact hc
    · rw [e, Esp.call_exact]
      exact Or.inl (show (2 : BitVec 16).toNat ≠ 0 by decide)
  rw [h1]
  have hv : view a (w ++ [(a, .write [reg])]) = view a w ++ [.write [reg]] := view_own a w [.write [reg]]
  have hm2 : (2 : BitVec 16).toNat = 2 := by decide
  congr 1
  simp only [ideal, sendIdeal, receiveIdeal, List.length_singleton, hm2]
  have h3 : min (1 % 65536) 65535 = 1 := by decide
  rw [h3]
  simp only [List.take_succ_cons, List.take_nil, hv]
  cases (inet a).ack (view a w) [reg] with
  | false => simp
  | true =>
    cases (inet a).reads (view a w ++ [.write [reg]]) with
    | false => simp
    | true => simp [List.range_succ]

/-- One measurement, given the picture of each text. -/
theorem measure_exact (s : Setup) (pen : BitVec 32) (hs : s.Fine pen) (picture : BitVec 16 → List Byte)
    (hpic : ∀ v, Depicts s pen (s.label ++ intDec v.toInt) (picture v)) {b : Board} {inet : INet} (hb : Supported b inet)
    (hpin : s.pin ∈ b.net.pins) (stack : List Byte) (hst : s.label.length + 6 ≤ stack.length) (junk : Nat → Byte)
    (wi : IWorld) (fb : FB) (hr : Ready s.c s.g fb) (hsel : fb.sel = pen) (ws : SWorld)
    (hi : Verif.Spi.Select.Idle b.net ws) :
    ∃ v ms fb' ws', values (inet s.addr) s.reg 1 (view s.addr wi) = [v] ∧
      (∀ n, values (inet s.addr) s.reg (n + 1) (view s.addr wi) =
        v :: values (inet s.addr) s.reg n (view s.addr wi ++ ms)) ∧
      measure s b stack junk wi fb ws = .ok (v.isSome, wi ++ ms.map fun m => (s.addr, m), fb', ws') ∧
      Ready s.c s.g fb' ∧ fb'.sel = pen ∧ Verif.Spi.Select.Idle b.net ws' ∧
      ws'.seen s.pin = ws.seen s.pin ++ v.toList.flatMap (fun x => frame (picture x)) ∧
      ∀ q ∈ b.net.pins, q ≠ s.pin → ws'.seen q = ws.seen q := by
  unfold measure
  rw [asked hb]
  simp only [values]
  by_cases hack : (inet s.addr).ack (view s.addr wi) [s.reg] = true
  · simp only [hack, if_true, Res.bind_ok]
    by_cases hread : (inet s.addr).reads (view s.addr wi ++ [.write [s.reg]]) = true
    · simp only [hread, if_true, load16, Res.bind_ok, converted]
      generalize (inet s.addr).answer (view s.addr wi ++ [.write [s.reg]]) 0 ++
        (inet s.addr).answer (view s.addr wi ++ [.write [s.reg]]) 1 = v
      obtain ⟨t1, t2, t3⟩ := text_fine s hs v
      obtain ⟨fb', k1, k2, k3, k4⟩ := page_depicts hr (s.label ++ intDec v.toInt)
        (fun b hb => by have := t1 b hb; omega) t2
      rw [hsel] at k4
      have himg : fb'.img = picture v := depicts_unique hr k4 (hpic v)
      obtain ⟨bus, hbus, hspi⟩ := hb.spi
      obtain ⟨t, m1, m2⟩ := Verif.Spi.Display.sendImage_sends fb'
      obtain ⟨ws', n1, n2, n3, n4⟩ := Verif.Spi.Display.session_sends hbus hspi b.net hb.pins s.pin hpin ws hi m2
      have hlen : fb'.img.length < 65536 := by have := k3.img; have := hs.image; omega
      rw [List.flatMap_cons, List.flatMap_nil, List.append_nil, Verif.Spi.Display.payload_short hlen, himg] at n3
      refine ⟨some v, [.write [s.reg], .read 2], fb', ws', rfl, fun n => rfl, ?_, k3, by rw [k2, hsel], n2, ?_, n4⟩
      · rw [printed_eq s hs stack hst junk v, Res.bind_ok, k1, Res.bind_ok, m1, Res.bind_ok, n1, Res.bind_ok]
        rfl
      · rw [n3]
        simp [frame]
    · simp only [hread, if_false, Bool.false_eq_true]
      exact ⟨none, [.write [s.reg], .read 2], fb, ws, rfl, fun n => rfl, rfl, hr, hsel, hi, by simp, fun _ _ _ => rfl⟩
  · simp only [hack, if_false, Bool.false_eq_true, Res.bind_ok]
    exact ⟨none, [.write [s.reg]], fb, ws, rfl, fun n => rfl, rfl, hr, hsel, hi, by simp, fun _ _ _ => rfl⟩

/-- **C118.** There is a picture for each of the 65536 values, showing the label and the decimal representation of the
value, no two of them the same, such that on every platform, with every sensor, whatever was on the screen, in the memory
and on the buses before, and whatever else is connected, the display gets the pictures of the measured values one after the
other, one frame for each; a measurement without an answer changes nothing and is reported.  Other devices on the two buses
notice nothing. -/
theorem thermometer (s : Setup) (fb0 : FB) (hs : s.Fine fb0.sel) (hr0 : Ready s.c s.g fb0) :
    ∃ picture : BitVec 16 → List Byte,
      (∀ v w, picture v = picture w ↔ v = w) ∧
      (∀ v, ∃ digits, parseInt digits = some v.toInt ∧ Canonical digits ∧
        Depicts s fb0.sel (s.label ++ digits) (picture v)) ∧
      ∀ (b : Board) (inet : INet), Supported b inet → s.pin ∈ b.net.pins →
      ∀ (stack : Nat → List Byte) (junk : Nat → Nat → Byte), (∀ n, s.label.length + 6 ≤ (stack n).length) →
      ∀ (n : Nat) (wi : IWorld) (fb : FB) (ws : SWorld), Ready s.c s.g fb → fb.sel = fb0.sel →
        Verif.Spi.Select.Idle b.net ws →
      ∃ wi' fb' ws', run s b stack junk n wi fb ws =
          .ok ((values (inet s.addr) s.reg n (view s.addr wi)).map Option.isSome, wi', fb', ws') ∧
        Verif.Spi.Select.Idle b.net ws' ∧
        ws'.seen s.pin = ws.seen s.pin ++
          ((values (inet s.addr) s.reg n (view s.addr wi)).filterMap id).flatMap (fun v => frame (picture v)) ∧
        (∀ q ∈ b.net.pins, q ≠ s.pin → ws'.seen q = ws.seen q) ∧ ∀ a, a ≠ s.addr → view a wi' = view a wi := by
  have ex : ∀ v : BitVec 16, ∃ img, Depicts s fb0.sel (s.label ++ intDec v.toInt) img ∧
      ∃ fb', page s.c s.g s.signed fb0 s.paper s.pos (s.label ++ intDec v.toInt) = .ok fb' ∧ fb'.img = img := by
    intro v
    obtain ⟨t1, t2, t3⟩ := text_fine s hs v
    obtain ⟨fb', k1, k2, k3, k4⟩ := page_depicts hr0 (s.label ++ intDec v.toInt)
        (fun b hb => by have := t1 b hb; omega) t2
    exact ⟨fb'.img, k4, fb', k1, rfl⟩
  obtain ⟨picture, hpic⟩ : ∃ picture : BitVec 16 → List Byte, ∀ v, Depicts s fb0.sel (s.label ++ intDec v.toInt) (picture v) ∧
      ∃ fb', page s.c s.g s.signed fb0 s.paper s.pos (s.label ++ intDec v.toInt) = .ok fb' ∧ fb'.img = picture v :=
    ⟨fun v => (ex v).choose, fun v => (ex v).choose_spec⟩
  refine ⟨picture, ?_, fun v => ⟨_, intDec_parse _, intDec_canonical _, (hpic v).1⟩, ?_⟩
  · intro v w
    refine ⟨fun h => ?_, fun h => by rw [h]⟩
    obtain ⟨a1, a2, a3⟩ := text_fine s hs v
    obtain ⟨b1, b2, b3⟩ := text_fine s hs w
    obtain ⟨fv, fw, h1, h2, h3⟩ := page_legible s.c s.g fb0 hr0 s.signed s.paper hs.colours s.pos _ _ a1 b1 a3 b3 a2 b2
    obtain ⟨-, fv', c1, c2⟩ := hpic v
    obtain ⟨-, fw', d1, d2⟩ := hpic w
    rw [c1, Res.ok.injEq] at h1
    rw [d1, Res.ok.injEq] at h2
    subst h1 h2
    have e := h3.1 (by intro p _; simp only [readPixel, c2, d2, h])
    have e1 := intDec_parse v.toInt
    rw [List.append_cancel_left e, intDec_parse] at e1
    exact BitVec.eq_of_toInt_eq (Option.some.inj e1).symm
  · intro b inet hb hpin stack junk hst n
    induction n with
    | zero =>
      intro wi fb ws _ _ hi
      exact ⟨wi, fb, ws, rfl, hi, by simp [values], fun _ _ _ => rfl, fun _ _ => rfl⟩
    | succ n ih =>
      intro wi fb ws hr hsel hi
      obtain ⟨v, ms, fb1, ws1, -, k1, k2, k3, k4, k5, k6, k7⟩ := measure_exact s fb0.sel hs picture (fun v => (hpic v).1) hb
        hpin (stack n) (hst n) (junk n) wi fb hr hsel ws hi
      obtain ⟨wi2, fb2, ws2, m1, m2, m3, m4, m5⟩ := ih _ fb1 ws1 k3 k4 k5
      rw [view_own] at m1 m3
      rw [k1 n]
      refine ⟨wi2, fb2, ws2, ?_, m2, ?_, fun q hq hne => by rw [m4 q hq hne, k7 q hq hne], fun a ha => ?_⟩
      · unfold run
        rw [k2, Res.bind_ok]
        simp only
        rw [m1, Res.bind_ok]
        rfl
      · rw [m3, k6]
        cases v <;> simp
      · rw [m5 a ha, view_other a _ ha]

/-! ### A concrete case -/

/-- Two bytes are read from register 5 of the sensor at address 0x48 and shown behind "T=" on a display of 256 by 64 points
at pin 5; the canvas is rotated by 180 degrees. -/
def exampleSetup : Setup := ⟨0x48, 5, [0x54, 0x3D], ⟨⟨256, 64⟩, .r180⟩, ⟨256, 64, 1⟩, true, 0, ⟨4, 30⟩, 5⟩

/-- A sensor which gets colder each time it is read, and does not answer to the third question. -/
def exampleSensor : INet := fun a => ⟨fun _ d => a == 0x48 && d == [5], fun h => h.length != 5, fun h i =>
  if i = 0 then (if h.length ≤ 2 then 0x00 else 0xFF) else BitVec.ofInt 8 (2 - h.length)⟩

example : values (exampleSensor 0x48) 5 4 [] = [some 0x0001, some 0xFFFF, none, some 0xFFFB] := by decide

example (mem : List Byte) (hm : mem.length = 2048) : exampleSetup.Fine 1 ∧ Ready exampleSetup.c exampleSetup.g ⟨mem, 1⟩ := by
  refine ⟨⟨by constructor <;> decide, by decide, by decide, by decide⟩, ?_⟩
  constructor
  · constructor <;> decide
  all_goals first | decide | (simp only [hm]; decide)

example : Supported ⟨Arduino.call exampleSensor 32, Verif.Spi.Select.arduino, Verif.Spi.Select.exampleNet⟩ exampleSensor :=
  ⟨.inl ⟨32, by decide, rfl⟩, ⟨_, Verif.Spi.Device.Esp.init_ready ⟨false, false⟩ true true (by decide), .inl rfl⟩, by decide⟩

end Verif.App.Thermometer
