import Verif.Hal.I2c
import Verif.Uart.Device
import Verif.Spi.Arduino
import Verif.Spi.Esp
/-!
# When a transfer with a size is undefined

The functions of the I2C device, the serial device and the SPI bus take a pointer and a number of bytes.  They can not
check the number.  The theorems say exactly which calls are undefined behaviour: those whose memory is smaller than the
bytes the call touches.  Every other call returns.
-/
namespace Verif.Hal.Misuse
open Verif

/-- The call is undefined exactly when `bad` holds and returns otherwise. -/
def UndefinedIff {α : Type} (r : Res α) (bad : Prop) : Prop :=
  (bad → r = .ub) ∧ (¬ bad → ∃ a, r = .ok a)

theorem UndefinedIff.ub_iff {α : Type} {r : Res α} {bad : Prop} (h : UndefinedIff r bad) : r = .ub ↔ bad := by
  refine ⟨fun e => ?_, h.1⟩
  by_cases hb : bad
  · exact hb
  · obtain ⟨a, ha⟩ := h.2 hb
    rw [ha] at e; cases e

theorem UndefinedIff.no_hang {α : Type} {r : Res α} {bad : Prop} (h : UndefinedIff r bad) : r ≠ .hang := by
  intro e
  by_cases hb : bad
  · rw [h.1 hb] at e; cases e
  · obtain ⟨a, ha⟩ := h.2 hb
    rw [ha] at e; cases e

/-! ## I2C -/

/-- Arduino: sending reads `count` bytes whatever the bus answers. -/
theorem arduino_i2c_send (bus : I2c.Arduino.Bus) (address : BitVec 16) (data : List Byte) (count : Nat)
    (s : I2c.Arduino.St) : UndefinedIff (I2c.Arduino.sendSync bus address data count s) (data.length < count) := by
  unfold I2c.Arduino.sendSync UndefinedIff
  constructor
  · intro h; rw [if_pos h]
  · intro h; rw [if_neg h]; exact ⟨_, rfl⟩

theorem readLoop_undefined (bus : I2c.Arduino.Bus) (n i : Nat) (s : I2c.Arduino.St) (hi : i ≤ s.rx.length) :
    UndefinedIff (I2c.Arduino.readLoop bus n i s) (s.rx.length < i + n) := by
  induction n generalizing i s with
  | zero => exact ⟨fun h => absurd h (by omega), fun _ => ⟨s, rfl⟩⟩
  | succ n ih =>
    unfold I2c.Arduino.readLoop
    by_cases h : i < s.rx.length
    · rw [if_pos h]
      have := ih (i + 1)
        { calls := s.calls ++ [.read], rx := s.rx.set i (BitVec.ofInt 8 (bus.byte s.calls)) } (by simp; omega)
      simp only [List.length_set] at this
      have e : i + 1 + n = i + (n + 1) := by omega
      rwa [e] at this
    · rw [if_neg h]
      exact ⟨fun _ => rfl, fun hb => absurd (by omega) hb⟩

/-- Arduino: receiving touches the memory only when the bus has as many bytes as requested; then it writes all of
them. -/
theorem arduino_i2c_receive (bus : I2c.Arduino.Bus) (address : BitVec 16) (count : Nat) (s : I2c.Arduino.St) :
    UndefinedIff (I2c.Arduino.receiveSync bus address count s)
      (bus.received s.calls = count ∧ s.rx.length < count) := by
  unfold I2c.Arduino.receiveSync
  dsimp only
  by_cases h : bus.received s.calls = count
  · rw [if_neg (by simpa using h)]
    have := readLoop_undefined bus count 0 { s with calls := s.calls ++ [.requestFrom address.toNat count] } (by simp)
    simp only [Nat.zero_add] at this
    constructor
    · intro hb; rw [this.1 hb.2]; rfl
    · intro hb
      obtain ⟨a, ha⟩ := this.2 (fun h' => hb ⟨h, h'⟩)
      rw [ha]; exact ⟨_, rfl⟩
  · rw [if_pos (by simpa using h)]
    exact ⟨fun hb => absurd hb.1 h, fun _ => ⟨_, rfl⟩⟩

/-- ESP: sending reads `count` bytes whatever the driver answers. -/
theorem esp_i2c_send (bus : I2c.Esp.Bus) (period : Nat) (address : BitVec 16) (timeout : BitVec 32) (data : List Byte)
    (count : Nat) (s : I2c.Esp.St) :
    UndefinedIff (I2c.Esp.sendSync bus period address timeout data count s) (data.length < count) := by
  unfold I2c.Esp.sendSync UndefinedIff
  constructor
  · intro h; rw [if_pos h]
  · intro h; rw [if_neg h]; exact ⟨_, rfl⟩

/-- ESP: receiving writes `count` bytes when the driver succeeds, and none when it fails. -/
theorem esp_i2c_receive (bus : I2c.Esp.Bus) (period : Nat) (address : BitVec 16) (timeout : BitVec 32) (count : Nat)
    (s : I2c.Esp.St) :
    UndefinedIff (I2c.Esp.receiveSync bus period address timeout count s)
      (bus.read s.calls ≠ none ∧ s.rx.length < count) := by
  unfold I2c.Esp.receiveSync
  dsimp only
  cases h : bus.read s.calls with
  | none => exact ⟨fun hb => absurd rfl hb.1, fun _ => ⟨_, rfl⟩⟩
  | some f =>
    dsimp only
    by_cases hc : count ≤ s.rx.length
    · rw [if_pos hc]; exact ⟨fun hb => absurd hb.2 (by omega), fun _ => ⟨_, rfl⟩⟩
    · rw [if_neg hc]; exact ⟨fun _ => rfl, fun hb => absurd ⟨by simp, by omega⟩ hb⟩

/-! ## The serial device of the ESP -/

/-- Sending reads `size` bytes whatever the driver answers. -/
theorem uart_send (drv : Uart.Device.Driver) (port : Int) (data : List Byte) (size : Nat) (s : Uart.Device.St) :
    UndefinedIff (Uart.Device.sendBlocking drv port data size s) (data.length < size) := by
  unfold Uart.Device.sendBlocking
  by_cases h : size > data.length
  · rw [if_pos h]; exact ⟨fun _ => rfl, fun hb => absurd h hb⟩
  · rw [if_neg h]
    dsimp only
    refine ⟨fun hb => absurd hb h, fun _ => ?_⟩
    split <;> exact ⟨_, rfl⟩

/-- Receiving writes the bytes which came, never more than requested: a memory of `size` bytes always suffices, and a
smaller one is exceeded exactly when more bytes come than it holds. -/
theorem uart_receive (drv : Uart.Device.Driver) (period : Nat) (port : Int) (size : Nat) (timeout : BitVec 32)
    (mem : List Byte) (s : Uart.Device.St)
    (hdrv : ∀ bs, drv.received s.calls = some bs → bs.length ≤ size) :
    UndefinedIff (Uart.Device.receiveBlocking drv period port size timeout mem s)
      (∃ bs, drv.received s.calls = some bs ∧ mem.length < bs.length) := by
  unfold Uart.Device.receiveBlocking
  dsimp only
  cases h : drv.received s.calls with
  | none => exact ⟨fun ⟨_, hb, _⟩ => (by cases hb), fun _ => ⟨_, rfl⟩⟩
  | some bs =>
    have := hdrv bs h
    dsimp only
    by_cases hc : bs.length ≤ mem.length
    · rw [if_pos ⟨this, hc⟩]
      exact ⟨fun ⟨bs', hb, hl⟩ => (by cases hb; omega), fun _ => ⟨_, rfl⟩⟩
    · rw [if_neg (fun hh => hc hh.2)]
      exact ⟨fun _ => rfl, fun hb => absurd ⟨bs, rfl, by omega⟩ hb⟩

/-! ## SPI -/

/-- A pointer which is not null and points to less than `n` bytes. -/
def Short (m : Option (List Byte)) (n : Nat) : Prop := ∃ l, m = some l ∧ l.length < n

section Arduino
open Spi.Arduino

theorem source_undefined (tx : Option (List Byte)) (i : Nat) : UndefinedIff (source tx i) (Short tx (i + 1)) := by
  unfold source Short
  cases tx with
  | none => exact ⟨fun ⟨_, h, _⟩ => (by cases h), fun _ => ⟨_, rfl⟩⟩
  | some m =>
    dsimp only
    by_cases h : i < m.length
    · rw [List.getElem?_eq_getElem h]
      exact ⟨fun ⟨l, e, hl⟩ => (by cases e; omega), fun _ => ⟨_, rfl⟩⟩
    · rw [List.getElem?_eq_none (by omega)]
      exact ⟨fun _ => rfl, fun hb => absurd ⟨m, rfl, by omega⟩ hb⟩

theorem sink_undefined (rx : Option (List Byte)) (i : Nat) (b : Byte) :
    (Short rx (i + 1) → sink rx i b = .ub) ∧
      (¬ Short rx (i + 1) → ∃ rx', sink rx i b = .ok rx' ∧ rx'.map List.length = rx.map List.length) := by
  unfold sink Short
  cases rx with
  | none => exact ⟨fun ⟨_, h, _⟩ => (by cases h), fun _ => ⟨_, rfl, rfl⟩⟩
  | some m =>
    dsimp only
    by_cases h : i < m.length
    · rw [if_pos h]
      exact ⟨fun ⟨l, e, hl⟩ => (by cases e; omega), fun _ => ⟨_, rfl, by simp⟩⟩
    · rw [if_neg h]
      exact ⟨fun _ => rfl, fun hb => absurd ⟨m, rfl, by omega⟩ hb⟩

theorem short_iff (m : Option (List Byte)) (n : Nat) : Short m n ↔ ∃ l, m.map List.length = some l ∧ l < n := by
  cases m <;> simp [Short]

theorem short_congr {m m' : Option (List Byte)} (h : m'.map List.length = m.map List.length) (n : Nat) :
    Short m' n ↔ Short m n := by
  rw [short_iff, short_iff, h]

theorem short_mono {m : Option (List Byte)} {a b : Nat} (hab : a ≤ b) (h : Short m a) : Short m b := by
  obtain ⟨l, e, hl⟩ := h
  exact ⟨l, e, by omega⟩

theorem bytes_undefined (peer : Peer) (tx : Option (List Byte)) (n i : Nat) (rx : Option (List Byte)) (bus : List Ev)
    (ht : ¬ Short tx i) (hr : ¬ Short rx i) :
    (Short tx (i + n) ∨ Short rx (i + n) → bytes peer tx n i rx bus = .ub) ∧
      (¬ (Short tx (i + n) ∨ Short rx (i + n)) →
        ∃ r, bytes peer tx n i rx bus = .ok r ∧ r.1.map List.length = rx.map List.length) := by
  induction n generalizing i rx bus with
  | zero => exact ⟨fun h => absurd h (by simp [ht, hr]), fun _ => ⟨_, rfl, rfl⟩⟩
  | succ n ih =>
    unfold bytes
    have e : i + 1 + n = i + (n + 1) := by omega
    by_cases hs : Short tx (i + 1)
    · rw [(source_undefined tx i).1 hs]
      exact ⟨fun _ => rfl, fun hb => absurd (Or.inl (short_mono (by omega) hs)) hb⟩
    · obtain ⟨b, hb⟩ := (source_undefined tx i).2 hs
      rw [hb, Res.bind_ok]
      by_cases hk : Short rx (i + 1)
      · have := (sink_undefined rx i (exchange peer bus b).1).1 hk
        refine ⟨fun _ => ?_, fun hb => absurd (Or.inr (short_mono (by omega) hk)) hb⟩
        dsimp only
        rw [this]; rfl
      · obtain ⟨rx', h1, h2⟩ := (sink_undefined rx i (exchange peer bus b).1).2 hk
        have := ih (i + 1) rx' (exchange peer bus b).2 hs (fun h => hk ((short_congr h2 _).1 h))
        rw [e, short_congr h2, h2] at this
        dsimp only
        rw [h1, Res.bind_ok]
        exact this

/-- Arduino: a transfer reads `length` bytes of the source and writes `length` bytes of the sink. -/
theorem arduino_spi (peer : Peer) (tx rx : Option (List Byte)) (length : Nat) (bus : List Ev) :
    UndefinedIff (transfer peer tx rx length bus) (Short tx length ∨ Short rx length) := by
  have hz : ∀ m : Option (List Byte), ¬ Short m 0 := fun m ⟨l, _, h⟩ => by omega
  have hmove : ∀ (tx rx : Option (List Byte)) (bus : List Ev),
      UndefinedIff (move peer tx rx length bus) (Short tx length ∨ Short rx length) := by
    intro tx rx bus
    unfold move
    by_cases h3 : length ≤ 3
    · rw [if_pos h3]
      have := bytes_undefined peer tx length 0 rx bus (hz _) (hz _)
      rw [Nat.zero_add] at this
      exact ⟨this.1, fun hb => let ⟨r, h, _⟩ := this.2 hb; ⟨r, h⟩⟩
    · rw [if_neg h3]
      dsimp only
      have first := bytes_undefined peer tx (length / 4 * 4) 0 rx bus (hz _) (hz _)
      rw [Nat.zero_add] at first
      by_cases hf : Short tx (length / 4 * 4) ∨ Short rx (length / 4 * 4)
      · rw [first.1 hf]
        refine ⟨fun _ => rfl, fun hb => absurd ?_ hb⟩
        exact hf.imp (short_mono (by omega)) (short_mono (by omega))
      · obtain ⟨⟨rx', bus'⟩, h1, h2⟩ := first.2 hf
        rw [h1, Res.bind_ok]
        dsimp only at h2 ⊢
        by_cases hr : length % 4 ≠ 0
        · rw [if_pos hr]
          have second := bytes_undefined peer tx (length % 4) (length / 4 * 4) rx' bus' (fun h => hf (Or.inl h))
            (fun h => hf (Or.inr ((short_congr h2 _).1 h)))
          have e : length / 4 * 4 + length % 4 = length := by omega
          rw [e, short_congr h2] at second
          exact ⟨second.1, fun hb => let ⟨r, h, _⟩ := second.2 hb; ⟨r, h⟩⟩
        · rw [if_neg hr]
          have e : length / 4 * 4 = length := by omega
          rw [e] at hf
          exact ⟨fun hb => absurd hb hf, fun _ => ⟨_, rfl⟩⟩
  have fin : ∀ {r : Res (Option (List Byte) × List Ev)} {bad : Prop}, UndefinedIff r bad →
      UndefinedIff (r >>= fun p => Res.ok (true, p.1, p.2 ++ [Ev.endTransaction])) bad := by
    intro r bad h
    constructor
    · intro hb; rw [h.1 hb]; rfl
    · intro hb
      obtain ⟨a, ha⟩ := h.2 hb
      rw [ha]; exact ⟨_, rfl⟩
  unfold transfer
  dsimp only
  cases tx with
  | none =>
    cases rx with
    | none => exact ⟨fun h => (by rcases h with ⟨_, h, _⟩ | ⟨_, h, _⟩ <;> cases h), fun _ => ⟨_, rfl⟩⟩
    | some m => exact fin (hmove _ _ _)
  | some d =>
    cases rx with
    | none => exact fin (hmove _ _ _)
    | some m => exact fin (hmove _ _ _)

end Arduino

section Esp
open Spi.Esp

theorem esp_loop (drv : Driver) (hdrv : ∀ k, drv k ≠ none) (tx : List Byte) (maxSize : BitVec 32)
    (hm : 0 < maxSize.toNat) (h8 : 8 * maxSize.toNat < 2 ^ 32) (send recv : Bool) :
    ∀ (fuel : Nat) (length : BitVec 32) (t : Trans) (off : Nat) (s : St), length.toNat < fuel →
      (send = false → t.txBuffer = none) → (recv = false → t.rxBuffer = none) →
      (send = true → off ≤ tx.length) → (recv = true → off ≤ s.rx.length) →
      UndefinedIff (loop drv tx maxSize fuel t (if send then some off else none) (if recv then some off else none)
          length s)
        ((send = true ∧ tx.length < off + length.toNat) ∨ (recv = true ∧ s.rx.length < off + length.toNat)) := by
  intro fuel
  induction fuel with
  | zero => intro length t off s h; omega
  | succ fuel ih =>
    intro length t off s hf ht hr hto hro
    unfold loop
    by_cases h0 : length = 0
    · subst h0
      rw [if_pos rfl]
      refine ⟨fun hb => ?_, fun _ => ⟨_, rfl⟩⟩
      rcases hb with ⟨h, hb⟩ | ⟨h, hb⟩
      · have := hto h; simp at hb; omega
      · have := hro h; simp at hb; omega
    · rw [if_neg h0]
      have hpos : 0 < length.toNat := by
        rcases Nat.eq_zero_or_pos length.toNat with h | h
        · exact absurd (BitVec.eq_of_toNat_eq (by simpa using h)) h0
        · exact h
      dsimp only
      generalize heff : (if maxSize.toNat < length.toNat then maxSize else length) = eff
      have he1 : eff.toNat ≤ maxSize.toNat := by rw [← heff]; split <;> omega
      have he2 : eff.toNat ≤ length.toNat := by rw [← heff]; split <;> omega
      have he3 : 0 < eff.toNat := by rw [← heff]; split <;> omega
      have hb8 : 8 * eff.toNat % 4294967296 / 8 = eff.toNat := by omega
      have hsub : (length - eff).toNat = length.toNat - eff.toNat := by
        rw [BitVec.toNat_sub]; have := length.isLt; have := eff.isLt; omega
      obtain ⟨f, hfd⟩ := Option.ne_none_iff_exists'.1 (hdrv s.log.length)
      unfold transmit
      rw [hfd]
      dsimp only
      by_cases hs : send = true ∧ tx.length < off + eff.toNat
      · obtain ⟨hs1, hs2⟩ := hs
        subst hs1
        have hfetch : fetch tx (prepare t (if true = true then some off else none) (if recv then some off else none) eff).txBuffer
            (prepare t (if true = true then some off else none) (if recv then some off else none) eff).length = .ub := by
          cases recv <;> simp [prepare, fetch, slice, hb8] <;> omega
        rw [hfetch]
        exact ⟨fun _ => rfl, fun hb => absurd (Or.inl ⟨rfl, by omega⟩) hb⟩
      · have hfetch : ∃ sent, fetch tx (prepare t (if send then some off else none) (if recv then some off else none) eff).txBuffer
            (prepare t (if send then some off else none) (if recv then some off else none) eff).length = .ok sent := by
          cases send with
          | false => cases recv <;> simp [prepare, fetch, ht rfl]
          | true =>
            have : off + eff.toNat ≤ tx.length := by
              rcases Nat.lt_or_ge tx.length (off + eff.toNat) with h | h
              · exact absurd ⟨rfl, h⟩ hs
              · exact h
            cases recv <;> simp [prepare, fetch, slice, hb8, this]
        obtain ⟨sent, hsent⟩ := hfetch
        rw [hsent, Res.bind_ok]
        by_cases hv : recv = true ∧ s.rx.length < off + eff.toNat
        · obtain ⟨hv1, hv2⟩ := hv
          subst hv1
          have hdel : deliver s.rx (prepare t (if send then some off else none) (if true = true then some off else none) eff).rxBuffer
              (prepare t (if send then some off else none) (if true = true then some off else none) eff).rxlength f = .ub := by
            cases send <;> simp [prepare, deliver, overwrite, hb8] <;> omega
          rw [hdel]
          exact ⟨fun _ => rfl, fun hb => absurd (Or.inr ⟨rfl, by omega⟩) hb⟩
        · have hdel : ∃ rx', deliver s.rx (prepare t (if send then some off else none) (if recv then some off else none) eff).rxBuffer
              (prepare t (if send then some off else none) (if recv then some off else none) eff).rxlength f = .ok rx' ∧
              rx'.length = s.rx.length := by
            cases recv with
            | false => cases send <;> simp [prepare, deliver, hr rfl]
            | true =>
              have : off + eff.toNat ≤ s.rx.length := by
                rcases Nat.lt_or_ge s.rx.length (off + eff.toNat) with h | h
                · exact absurd ⟨rfl, h⟩ hv
                · exact h
              refine ⟨s.rx.take off ++ (List.range eff.toNat).map f ++ s.rx.drop (off + eff.toNat), ?_, ?_⟩
              · cases send <;> simp [prepare, deliver, overwrite, hb8, this]
              · simp; omega
          obtain ⟨rx', hdel1, hdel2⟩ := hdel
          rw [hdel1, Res.bind_ok]
          rw [Res.bind_ok]
          have next := ih (length - eff)
            (prepare t (if send then some off else none) (if recv then some off else none) eff) (off + eff.toNat)
            { rx := rx', log := s.log ++ [⟨prepare t (if send then some off else none) (if recv then some off else none) eff, sent, true⟩] }
            (by omega)
            (by intro h; subst h; cases recv <;> simp [prepare, ht rfl])
            (by intro h; subst h; cases send <;> simp [prepare, hr rfl])
            (by intro h; rcases Nat.lt_or_ge tx.length (off + eff.toNat) with h' | h'
                · exact absurd ⟨h, h'⟩ hs
                · exact h')
            (by intro h; dsimp only; rw [hdel2]
                rcases Nat.lt_or_ge s.rx.length (off + eff.toNat) with h' | h'
                · exact absurd ⟨h, h'⟩ hv
                · exact h')
          rw [hsub] at next
          have e : off + eff.toNat + (length.toNat - eff.toNat) = off + length.toNat := by omega
          dsimp only at next
          rw [e, hdel2] at next
          have m1 : (if send then some off else none).map (· + eff.toNat) = if send then some (off + eff.toNat) else none := by
            cases send <;> rfl
          have m2 : (if recv then some off else none).map (· + eff.toNat) = if recv then some (off + eff.toNat) else none := by
            cases recv <;> rfl
          dsimp only
          rw [m1, m2]
          exact next

/-- ESP: a transfer whose pieces are all accepted reads `length` bytes of the source and writes `length` bytes of the
sink. -/
theorem esp_spi (drv : Driver) (hdrv : ∀ k, drv k ≠ none) (maxSize : BitVec 32) (hm : 0 < maxSize.toNat)
    (h8 : 8 * maxSize.toNat < 2 ^ 32) (tx : List Byte) (send recv : Bool) (length : BitVec 32) (s : St) :
    UndefinedIff (transfer drv maxSize tx send recv length s)
      ((send = true ∧ tx.length < length.toNat) ∨ (recv = true ∧ s.rx.length < length.toNat)) := by
  have := esp_loop drv hdrv tx maxSize hm h8 send recv (length.toNat + 1) length {} 0 s (by omega) (fun _ => rfl)
    (fun _ => rfl) (fun _ => Nat.zero_le _) (fun _ => Nat.zero_le _)
  simp only [Nat.zero_add] at this
  exact this

/-- ESP: a transfer refused at once touches no memory, however small. -/
theorem esp_spi_refused (drv : Driver) (maxSize : BitVec 32) (tx : List Byte) (send recv : Bool) (length : BitVec 32)
    (s : St) (hdrv : drv s.log.length = none) (hlen : length ≠ 0) :
    ∃ s', transfer drv maxSize tx send recv length s = .ok (false, s') ∧ s'.rx = s.rx := by
  unfold transfer loop
  rw [if_neg hlen]
  dsimp only
  unfold transmit
  rw [hdrv]
  exact ⟨_, rfl, rfl⟩

end Esp

/-! ## Concrete cases -/

/-- Two bytes, three requested: undefined on both platforms. -/
example : Spi.Arduino.transfer (fun _ => 7) (some [1, 2]) none 3 [] = .ub ∧
    Spi.Esp.transfer (fun _ => some (fun _ => 7)) 4092 [1, 2] true false 3 ⟨[], []⟩ = .ub := by
  refine ⟨((arduino_spi _ _ _ _ _).ub_iff).2 (Or.inl ⟨_, rfl, by decide⟩),
    ((esp_spi _ (by simp) _ (by decide) (by decide) _ _ _ _ _).ub_iff).2 (Or.inl ⟨rfl, by decide⟩)⟩

/-- Three bytes, three requested: fine. -/
example : ∃ a, Spi.Arduino.transfer (fun _ => 7) (some [1, 2, 3]) none 3 [] = .ok a :=
  (arduino_spi _ _ _ _ _).2 (by rintro (⟨l, e, h⟩ | ⟨l, e, h⟩) <;> cases e; simp at h)

/-- An Arduino receive into too small a memory is harmless when the bus has fewer bytes. -/
example : (∃ a, I2c.Arduino.receiveSync ⟨fun _ => 0, fun _ => 0, fun _ => 2, fun _ => 5⟩ 0x40 3 ⟨[], [0, 0]⟩ = .ok a) ∧
    I2c.Arduino.receiveSync ⟨fun _ => 0, fun _ => 0, fun _ => 3, fun _ => 5⟩ 0x40 3 ⟨[], [0, 0]⟩ = .ub :=
  ⟨(arduino_i2c_receive _ _ _ _).2 (by simp), (arduino_i2c_receive _ _ _ _).1 (by simp)⟩

end Verif.Hal.Misuse
