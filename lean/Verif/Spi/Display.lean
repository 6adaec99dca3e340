import Verif.Spi.Select
import Verif.Text.Picture
import Verif.MemoryView.Props
/-!
# C117: pictures reach the display

The parts of the library put together as their users do: a program draws on a canvas over a frame buffer
(SimpleFrameBuffer.h, Canvas.h, C83); then the image (`getImage()`, SimpleFrameBuffer.h:17-18) is sent with
`SpiDevice::sendSync` (SpiDevice.h:15) to a display which is one of several devices on an SPI bus, while a `ChipSelector`
of its pin is alive (C91).  The display takes the bytes between its selection and its deselection as its pixels.

The code of the users is not part of the library; it is given by `sendImage` and `sendPieces`.
-/
namespace Verif.Spi.Display
open Verif Verif.Spi.Select Verif.FrameBuffer Verif.Canvas Verif.Text Verif.MemoryView

/-! ## The code -/

/-- SimpleFrameBuffer.h:17-18 `getImage()`: the view of the array. -/
def getImage (fb : FB) : View := View.ofArray fb.img

/-- `device.sendSync(view.data(), view.size())`: the size becomes a `uint16_t` (SpiDevice.h:15), see `Select.len`. -/
def sendView (mem : List Byte) (v : View) (k : Bool → Select.Task Bool) : Res (Select.Task Bool) := do
  let bytes ← v.elems mem
  .ok (.op (.send bytes) fun r => k r.isSome)

/-- The image sent in one call. -/
def sendImage (fb : FB) : Res (Select.Task Bool) := sendView fb.img (getImage fb) .ret

/-- The image sent in pieces of `n` bytes, `view.subspan(pos, n)` for `pos = 0, n, 2n, …` while `pos < view.size()`,
stopping at the first failure. -/
def sendFrom (sizeBits : Nat) (mem : List Byte) (v : View) (n : Nat) : Nat → Nat → Res (Select.Task Bool)
  | 0, _ => .hang
  | fuel + 1, pos =>
    if pos < v.size_ then do
      let bytes ← (v.subspan sizeBits pos n).elems mem
      let rest ← sendFrom sizeBits mem v n fuel (pos + n)
      .ok (.op (.send bytes) fun r => if r.isSome then rest else .ret false)
    else .ok (.ret true)

def sendPieces (sizeBits : Nat) (fb : FB) (n fuel : Nat) : Res (Select.Task Bool) :=
  sendFrom sizeBits fb.img (getImage fb) n fuel 0

/-! ## Specification -/

/-- Between two moments the display was selected once, got the bytes, and was deselected. -/
def Frame (before after : List Select.Seen) (bytes : List Byte) : Prop :=
  after = before ++ .select :: bytes.map (fun b => .byte (some b)) ++ [.deselect]

/-- The display, which has `W` pixels in a row and the depth of the frame buffer, shows in every pixel of the screen what
the drawing program has drawn there last, on the background `mem` (C83; `layers` and `Seen` are specified there, `pixel`
reads packed pixels). -/
def Shows (signed : Bool) (g : Geom) (mem : List Byte) (cmds : List Cmd) (W : Nat) (bytes : List Byte) : Prop :=
  ∀ x y : Nat, x < W → y < g.height → Text.Seen ⟨x, y⟩ (pixel mem g.depth (y * W + x))
    (layers signed g ⟨.r0, 2 ^ g.depth - 1⟩ cmds) (pixel bytes g.depth (y * W + x))

/-- The three platforms: Arduino, and ESP32 with a bus set up for full and for half duplex. -/
def Supported (b : Esp.Bus) (plat : Platform) : Prop := plat = arduino ∨ plat = esp false b ∨ plat = esp true b

/-! ## Proof -/

theorem exact_of_supported {b : Esp.Bus} (hb : Device.Esp.Ready b) {plat : Platform} (h : Supported b plat) :
    ∃ plan, Exact plat plan ∧ ∀ tx, plan (.send tx) = some ((payload tx).map some) := by
  rcases h with rfl | rfl | rfl
  · exact ⟨_, arduino_exact, fun _ => rfl⟩
  · exact ⟨_, espFull_exact b hb, fun _ => rfl⟩
  · exact ⟨_, espHalf_exact b hb, fun _ => rfl⟩

theorem payload_short {tx : List Byte} (h : tx.length < 65536) : payload tx = tx := by
  unfold payload
  rw [Nat.mod_eq_of_lt h, List.take_length]

/-- A task which sends some byte strings one after the other. -/
inductive Sends : Select.Task Bool → List (List Byte) → Prop where
  | done : Sends (.ret true) []
  | send (tx : List Byte) (k : Option (List Byte) → Select.Task Bool) (rest : List (List Byte)) : Sends (k (some [])) rest →
      Sends (.op (.send tx) k) (tx :: rest)

theorem sends_ideal {plan : Plan} (hp : ∀ tx, plan (.send tx) = some ((payload tx).map some)) (slave : Slave) {t : Select.Task Bool}
    {l : List (List Byte)} (h : Sends t l) (hist : List Select.Seen) :
    t.ideal plan slave hist = (true, hist ++ (l.flatMap payload).map fun b => .byte (some b)) := by
  induction h generalizing hist with
  | done => simp [Select.Task.ideal]
  | send tx k rest _ ih =>
    have ho : (Op.send tx).ideal plan slave hist = (some [], hist ++ (payload tx).map fun b => .byte (some b)) := by
      simp [Op.ideal, hp, Op.result]
    rw [Select.Task.ideal, ho]
    simp only
    rw [ih]
    simp

/-- A task which sends byte strings, executed while the display is selected. -/
theorem session_sends {b : Esp.Bus} (hb : Device.Esp.Ready b) {plat : Platform} (hs : Supported b plat) (net : Net)
    (hn : net.pins.Nodup) (p : BitVec 8) (hp : p ∈ net.pins) (w : World) (hw : Idle net w) {t : Select.Task Bool}
    {l : List (List Byte)} (h : Sends t l) :
    ∃ w', session plat net p t w = .ok (true, w') ∧ Idle net w' ∧ Frame (w.seen p) (w'.seen p) (l.flatMap payload) ∧
      ∀ q ∈ net.pins, q ≠ p → w'.seen q = w.seen q := by
  obtain ⟨plan, he, hsend⟩ := exact_of_supported hb hs
  obtain ⟨w', h1, h2, h3⟩ := session_exact he net hn p hp t w hw
  rw [sends_ideal hsend _ h] at h1 h3
  refine ⟨w', h1, h2, ?_, fun q hq hne => by rw [h3 q hq, if_neg hne]⟩
  rw [Frame, h3 p hp, if_pos rfl]
  simp

theorem getImage_elems (sb : Nat) (fb : FB) (h : fb.img.length < npos sb) :
    Valid sb fb.img (getImage fb) ∧ (getImage fb).elems fb.img = .ok fb.img :=
  ⟨(ofArray_elems sb fb.img h).1, (ofArray_elems sb fb.img h).2.1⟩

theorem sendImage_sends (fb : FB) : ∃ t, sendImage fb = .ok t ∧ Sends t [fb.img] := by
  have h : (getImage fb).elems fb.img = .ok fb.img := by
    unfold getImage View.ofArray View.elems
    rw [iterate_some _ _ _ (by simp)]
    simp
  exact ⟨_, by unfold sendImage sendView; rw [h]; rfl, .send _ _ _ .done⟩

theorem sendFrom_sends (sb : Nat) (fb : FB) (hsz : fb.img.length < npos sb) (n : Nat) (hn : 0 < n) (hn2 : n < 65536)
    (hnb : n ≠ npos sb) (fuel pos : Nat) (hf : 0 < fuel ∧ fb.img.length < pos + fuel) :
    ∃ t l, sendFrom sb fb.img (getImage fb) n fuel pos = .ok t ∧ Sends t l ∧ l.flatMap payload = fb.img.drop pos := by
  obtain ⟨hv, he⟩ := getImage_elems sb fb hsz
  have hsize : (getImage fb).size_ = fb.img.length := rfl
  induction fuel generalizing pos with
  | zero => exact absurd hf.1 (by omega)
  | succ fuel ih =>
    unfold sendFrom
    by_cases hlt : pos < (getImage fb).size_
    · obtain ⟨t, l, h1, h2, h3⟩ := ih (pos + n) (by omega)
      have hs := (subspan_spec sb fb.img (getImage fb) hv pos n fb.img he).2.2
      rw [if_neg hnb] at hs
      rw [if_pos hlt, hs, Res.bind_ok, h1, Res.bind_ok]
      refine ⟨_, _, rfl, .send _ _ _ h2, ?_⟩
      rw [List.flatMap_cons, h3, payload_short (by simp; omega), ← List.drop_drop, List.take_append_drop]
    · rw [if_neg hlt]
      exact ⟨_, _, rfl, .done, by rw [List.drop_eq_nil_of_le (by omega)]; rfl⟩

/-- **C117**, the picture: what `fresh_picture` says, for the bytes of the image. -/
theorem image_shows (signed : Bool) (g : Geom) (hg : g.Compiles) (hd : g.depth ≠ 2) (hd' : g.depth ≠ 32)
    (hw : 0 ≤ g.getWidth ∧ g.getWidth ≤ 2 ^ 28) (hh : 0 ≤ g.getHeight ∧ g.getHeight ≤ 2 ^ 28) (mem : List Byte)
    (hm : (mem.length : Int) = g.bufSize) (cmds : List Cmd) (hv : ∀ cmd ∈ cmds, cmd.Valid signed) :
    ∃ fb c' fb', FB.new g mem = .ok fb ∧ execAll signed g (Canvas.new g) fb cmds = .ok (c', fb') ∧
      (fb'.img.length : Int) = g.bufSize ∧ Shows signed g mem cmds g.getWidth.toNat fb'.img := by
  obtain ⟨fb, c', fb', h1, h2, h3, h4⟩ := fresh_picture signed g hg hd hd' hw hh mem hm cmds hv
  refine ⟨fb, c', fb', h1, h2, h3.img, ?_⟩
  intro x y hx hy
  have h5 := h4 ⟨x, y⟩ ⟨by simp, by show (x : Int) < g.getWidth; omega, by simp, hy⟩
  have hno : pixelNo g (x : Int) (y : Int) = y * g.getWidth.toNat + x := by
    unfold pixelNo
    obtain ⟨W, hW⟩ : ∃ W : Nat, g.getWidth = W := ⟨g.getWidth.toNat, by omega⟩
    rw [hW]
    simp only [Int.toNat_natCast]
    have : (y : Int) * W + x = ((y * W + x : Nat) : Int) := by push_cast; rfl
    rw [this, Int.toNat_natCast]
  simp only [physPixel, hno] at h5
  exact h5

/-- **C117**, what holds: the picture of a drawing program, sent in one call, arrives at the display, on every platform and
whatever else is on the bus, if the image has less than 65536 bytes; the other devices see nothing of it.  The display
must have as many pixels in a row as the frame buffer reports (C27).  Missing: larger images, see `large_image_cut`. -/
theorem picture_arrives_partial {b : Esp.Bus} (hb : Device.Esp.Ready b) {plat : Platform} (hs : Supported b plat)
    (signed : Bool) (g : Geom) (hg : g.Compiles) (hd : g.depth ≠ 2) (hd' : g.depth ≠ 32)
    (hw : 0 ≤ g.getWidth ∧ g.getWidth ≤ 2 ^ 28) (hh : 0 ≤ g.getHeight ∧ g.getHeight ≤ 2 ^ 28) (mem : List Byte)
    (hm : (mem.length : Int) = g.bufSize) (hsize : mem.length < 65536) (cmds : List Cmd) (hv : ∀ cmd ∈ cmds, cmd.Valid signed)
    (net : Net) (hn : net.pins.Nodup) (p : BitVec 8) (hp : p ∈ net.pins) (w : World) (hi : Idle net w) :
    ∃ fb c' fb' t w' bytes, FB.new g mem = .ok fb ∧ execAll signed g (Canvas.new g) fb cmds = .ok (c', fb') ∧
      sendImage fb' = .ok t ∧ session plat net p t w = .ok (true, w') ∧ Idle net w' ∧
      Frame (w.seen p) (w'.seen p) bytes ∧ (bytes.length : Int) = g.bufSize ∧
      Shows signed g mem cmds g.getWidth.toNat bytes ∧ ∀ q ∈ net.pins, q ≠ p → w'.seen q = w.seen q := by
  obtain ⟨fb, c', fb', h1, h2, h3, h4⟩ := image_shows signed g hg hd hd' hw hh mem hm cmds hv
  obtain ⟨t, k1, k2⟩ := sendImage_sends fb'
  obtain ⟨w', m1, m2, m3, m4⟩ := session_sends hb hs net hn p hp w hi k2
  have hl : fb'.img.length < 65536 := by omega
  rw [List.flatMap_cons, List.flatMap_nil, List.append_nil, payload_short hl] at m3
  exact ⟨fb, c', fb', t, w', fb'.img, h1, h2, k1, m1, m2, m3, h3, h4, m4⟩

/-- **C117 is false** for larger images: the call reports success, but the display is sent only the beginning of the image,
as many bytes as the 16 bits of the length tell. -/
theorem large_image_cut {b : Esp.Bus} (hb : Device.Esp.Ready b) {plat : Platform} (hs : Supported b plat) (fb : FB)
    (hl : 65536 ≤ fb.img.length) (net : Net) (hn : net.pins.Nodup) (p : BitVec 8) (hp : p ∈ net.pins) (w : World)
    (hi : Idle net w) :
    ∃ t w', sendImage fb = .ok t ∧ session plat net p t w = .ok (true, w') ∧
      Frame (w.seen p) (w'.seen p) (fb.img.take (fb.img.length % 65536)) ∧
      (fb.img.take (fb.img.length % 65536)).length + 65536 ≤ fb.img.length := by
  obtain ⟨t, k1, k2⟩ := sendImage_sends fb
  obtain ⟨w', m1, -, m3, -⟩ := session_sends hb hs net hn p hp w hi k2
  rw [List.flatMap_cons, List.flatMap_nil, List.append_nil] at m3
  exact ⟨t, w', k1, m1, m3, by rw [List.length_take]; omega⟩

/-- **C117**: sent in pieces of `n` bytes, the picture arrives whatever its size, in one frame, too. -/
theorem pieces_arrive {b : Esp.Bus} (hb : Device.Esp.Ready b) {plat : Platform} (hs : Supported b plat)
    (signed : Bool) (g : Geom) (hg : g.Compiles) (hd : g.depth ≠ 2) (hd' : g.depth ≠ 32)
    (hw : 0 ≤ g.getWidth ∧ g.getWidth ≤ 2 ^ 28) (hh : 0 ≤ g.getHeight ∧ g.getHeight ≤ 2 ^ 28) (mem : List Byte)
    (hm : (mem.length : Int) = g.bufSize) (cmds : List Cmd) (hv : ∀ cmd ∈ cmds, cmd.Valid signed)
    (sizeBits : Nat) (hsb : 32 ≤ sizeBits) (n : Nat) (hn0 : 0 < n) (hn1 : n < 65536)
    (net : Net) (hn : net.pins.Nodup) (p : BitVec 8) (hp : p ∈ net.pins) (w : World) (hi : Idle net w) :
    ∃ enough, ∀ fuel, enough ≤ fuel →
      ∃ fb c' fb' t w' bytes, FB.new g mem = .ok fb ∧ execAll signed g (Canvas.new g) fb cmds = .ok (c', fb') ∧
        sendPieces sizeBits fb' n fuel = .ok t ∧ session plat net p t w = .ok (true, w') ∧ Idle net w' ∧
        Frame (w.seen p) (w'.seen p) bytes ∧ (bytes.length : Int) = g.bufSize ∧
        Shows signed g mem cmds g.getWidth.toNat bytes ∧ ∀ q ∈ net.pins, q ≠ p → w'.seen q = w.seen q := by
  obtain ⟨fb, c', fb', h1, h2, h3, h4⟩ := image_shows signed g hg hd hd' hw hh mem hm cmds hv
  refine ⟨mem.length + 1, fun fuel hf => ?_⟩
  have h32 : 2 ^ 32 ≤ 2 ^ sizeBits := Nat.pow_le_pow_right (by decide) hsb
  have hnp : npos sizeBits + 1 = 2 ^ sizeBits := by unfold npos; omega
  have hbits := hg.bits_int
  have hbs : g.bufSize < 2 ^ 31 := by
    unfold Geom.bufSize
    unfold InInt at hbits
    rw [Int.tdiv_eq_ediv]
    split
    · omega
    · simp only [show Int.sign 8 = 1 from rfl]; omega
  obtain ⟨t, l, k1, k2, k3⟩ := sendFrom_sends sizeBits fb' (by omega) n hn0 hn1 (by omega) fuel 0 (by omega)
  obtain ⟨w', m1, m2, m3, m4⟩ := session_sends hb hs net hn p hp w hi k2
  rw [k3, List.drop_zero] at m3
  exact ⟨fb, c', fb', t, w', fb'.img, h1, h2, k1, m1, m2, m3, h3, h4, m4⟩

/-- **C117 is false** for a picture of 1024 by 512 points, whose image has exactly 65536 bytes: the call reports success and
the display is sent nothing. -/
theorem blank_display (fb : FB) (h : (fb.img.length : Int) = (⟨1024, 512, 1⟩ : Geom).bufSize) (net : Net)
    (hn : net.pins.Nodup) (p : BitVec 8) (hp : p ∈ net.pins) (w : World) (hi : Idle net w) :
    ∃ t w', sendImage fb = .ok t ∧ session arduino net p t w = .ok (true, w') ∧
      w'.seen p = w.seen p ++ [.select, .deselect] := by
  have hl : fb.img.length = 65536 := by
    have : (⟨1024, 512, 1⟩ : Geom).bufSize = 65536 := by decide
    omega
  obtain ⟨t, k1, k2⟩ := sendImage_sends fb
  obtain ⟨plan, he, hsend⟩ := (⟨_, arduino_exact, fun _ => rfl⟩ :
    ∃ plan, Exact arduino plan ∧ ∀ tx, plan (.send tx) = some ((payload tx).map some))
  obtain ⟨w', h1, -, h3⟩ := session_exact he net hn p hp t w hi
  rw [sends_ideal hsend _ k2] at h1 h3
  refine ⟨t, w', k1, h1, ?_⟩
  rw [h3 p hp, if_pos rfl, List.flatMap_cons, List.flatMap_nil, List.append_nil]
  simp [payload, hl]

/-! ### A concrete case -/

/-- A line on a screen of 8 by 2 points, sent to the display at pin 5 of a bus with another device at pin 7. -/
example : (match (do
      let g : Geom := ⟨8, 2, 1⟩
      let fb ← FB.new g [0xAA, 0xAA]
      let (_, fb) ← execAll false g (Canvas.new g) fb [.clear 0, .shape (.line ⟨0, 0⟩ ⟨3, 0⟩)]
      let t ← sendImage fb
      let u ← sendPieces 32 fb 1 3
      let w : World := ⟨⟨fun _ => true, []⟩, fun _ => []⟩
      let (ok1, w1) ← session arduino exampleNet 5 t w
      let (ok2, w2) ← session arduino exampleNet 5 u w1
      .ok (ok1 && ok2, w2.seen 5, w2.seen 7) : Res (Bool × List Select.Seen × List Select.Seen)) with
    | .ok r => decide (r = (true, [.select, .byte (some 0xF0), .byte (some 0), .deselect,
        .select, .byte (some 0xF0), .byte (some 0), .deselect], []))
    | _ => false) = true := by decide +kernel

end Verif.Spi.Display
