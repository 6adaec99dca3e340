import Verif.Hal.I2cBus
/-!
# C76: bus initialisation, reset and probing
-/
namespace Verif.Hal.I2cBus
open Verif

/-- **C76**: the bus is installed only after its configuration was accepted, with the pins, pull-ups and frequency
given; true is returned iff both succeeded. -/
theorem init_exact (drv : Driver) (port sda scl : Int) (frequency : BitVec 32) (pu pc : Bool) (calls : List Ev) :
    ∃ ok calls', init drv port sda scl frequency pu pc calls = (ok, calls') ∧
      (let c1 := calls ++ [Ev.paramConfig port ⟨sda, scl, pu, pc, frequency⟩]
       let c2 := c1 ++ [Ev.install port]
       (ok = true ↔ drv.ok c1 = true ∧ drv.ok c2 = true) ∧
       (drv.ok c1 = true → calls' = c2) ∧ (drv.ok c1 = false → calls' = c1)) := by
  unfold init
  cases h : drv.ok (calls ++ [.paramConfig port ⟨sda, scl, pu, pc, frequency⟩]) with
  | true =>
    refine ⟨_, _, by simp only [h, if_true]; rfl, ?_⟩
    simp [h]
  | false =>
    refine ⟨_, _, by simp only [h, Bool.false_eq_true, if_false]; rfl, ?_⟩
    simp [h]

/-- The number of command links not yet released: created successfully and not deleted. -/
def openLinks (drv : Driver) : List Ev → List Ev → Int
  | _, [] => 0
  | before, .createLink :: es =>
    (if drv.ok (before ++ [.createLink]) then 1 else 0) + openLinks drv (before ++ [.createLink]) es
  | before, .deleteLink :: es => -1 + openLinks drv (before ++ [.deleteLink]) es
  | before, e :: es => openLinks drv (before ++ [e]) es

/-- **C76**: a probe is one transaction: start, the address for writing with acknowledge check, stop; the result is that
of the transaction. -/
theorem testAddress_exact_partial (drv : Driver) (hroom : ∀ l c, drv.room l c = true) (period : Nat) (port : Int)
    (address : BitVec 8) (calls : List Ev) (hmem : drv.ok (calls ++ [.createLink]) = true) :
    ∃ b : Byte, b.toNat = 2 * (address.toNat % 128) ∧
      (let c2 := calls ++ [.createLink, .begin_ port [.start, .writeByte b true, .stop] (10 / period)]
       testAddress drv period port address calls = (drv.ok c2, c2 ++ [.deleteLink])) := by
  refine ⟨I2c.Esp.addressByte address, ?_, ?_⟩
  · revert address; decide +kernel
  · unfold testAddress
    simp [hmem, addCmd, hroom]

/-- **C76**: without memory the probe fails and nothing happens on the bus. -/
theorem testAddress_no_memory (drv : Driver) (period : Nat) (port : Int) (address : BitVec 8) (calls : List Ev)
    (hmem : drv.ok (calls ++ [.createLink]) = false) :
    testAddress drv period port address calls = (false, calls ++ [.createLink]) := by
  unfold testAddress
  simp [hmem, addCmd]

/-- Finding for **C76**: when there is no room for the address or the start condition in the link, the rest of the
transaction is performed nevertheless, and its success is reported as the presence of the device. -/
theorem testAddress_truncated (drv : Driver) (period : Nat) (port : Int) (address : BitVec 8) (calls : List Ev)
    (hmem : drv.ok (calls ++ [.createLink]) = true)
    (h1 : drv.room (calls ++ [.createLink]) .start = true)
    (h2 : ∀ b, drv.room (calls ++ [.createLink]) (.writeByte b true) = false)
    (h3 : drv.room (calls ++ [.createLink]) .stop = true) :
    (testAddress drv period port address calls).1 =
      drv.ok (calls ++ [.createLink, .begin_ port [.start, .stop] (10 / period)]) := by
  unfold testAddress
  simp [hmem, addCmd, h1, h2, h3]

/-- **C76**: no probe leaks a command link, whatever the driver answers. -/
theorem testAddress_no_leak (drv : Driver) (period : Nat) (port : Int) (address : BitVec 8) (calls : List Ev) :
    ∃ es, (testAddress drv period port address calls).2 = calls ++ es ∧ openLinks drv calls es = 0 := by
  unfold testAddress
  cases hmem : drv.ok (calls ++ [.createLink]) with
  | false => exact ⟨[.createLink], by simp [addCmd, hmem], by simp [openLinks, hmem]⟩
  | true =>
    refine ⟨_, by simp only [addCmd, hmem, if_true, Option.map_some, List.append_assoc]; rfl, ?_⟩
    simp [openLinks, hmem]

/-- Probing all addresses of the bus, as a scan does. -/
def scan (drv : Driver) (period : Nat) (port : Int) : List (BitVec 8) → List Ev → List (BitVec 8) × List Ev
  | [], calls => ([], calls)
  | a :: as, calls =>
    let (ok, calls) := testAddress drv period port a calls
    let (found, calls) := scan drv period port as calls
    (if ok then a :: found else found, calls)

/-- **C76**: a scan finds exactly the devices present: when the driver answers a probe according to a set of devices,
for any list of addresses in any state. -/
theorem scan_exact (drv : Driver) (hroom : ∀ l c, drv.room l c = true) (hmem : ∀ l, drv.ok (l ++ [.createLink]) = true)
    (present : Nat → Bool) (period : Nat) (port : Int)
    (hp : ∀ l b t, drv.ok (l ++ [.begin_ port [.start, .writeByte b true, .stop] t]) = present (b.toNat / 2))
    (as : List (BitVec 8)) (h7 : ∀ a ∈ as, a.toNat < 128) (calls : List Ev) :
    (scan drv period port as calls).1 = as.filter (fun a => present a.toNat) := by
  induction as generalizing calls with
  | nil => rfl
  | cons a as ih =>
    obtain ⟨b, hb, ht⟩ := testAddress_exact_partial drv hroom period port a calls (hmem calls)
    have h := h7 a (by simp)
    unfold scan
    simp only [ht]
    have hok : drv.ok (calls ++ [.createLink, .begin_ port [.start, .writeByte b true, .stop] (10 / period)]) =
        present a.toNat := by
      have := hp (calls ++ [.createLink]) b (10 / period)
      rw [List.append_assoc] at this
      rw [show calls ++ [Ev.createLink, .begin_ port [.start, .writeByte b true, .stop] (10 / period)] =
        calls ++ ([.createLink] ++ [.begin_ port [.start, .writeByte b true, .stop] (10 / period)]) from rfl, this, hb]
      congr 1
      omega
    rw [hok, ih (fun a ha => h7 a (by simp [ha])), List.filter_cons]

/-- **C76**: a reset is the general call with the reset command 0x06, on both platforms. -/
theorem reset_exact (port : Int) (calls : List Ev) (callsA : List I2c.Arduino.Ev) :
    (∃ ticks, resetBus port calls = calls ++ [.write port 0 [0x06] ticks]) ∧
    resetBusArduino callsA = callsA ++ [.beginTransmission 0, .write [0x06], .endTransmission true] := by
  exact ⟨⟨_, rfl⟩, by simp [resetBusArduino]⟩

/-- Finding for **C76**: the time-outs are not those of the device functions: the reset waits for up to 200 ticks, which
are 200 ms only with a tick of 1 ms, and the probe does not wait at all with ticks longer than 10 ms. -/
theorem timeouts (drv : Driver) (hroom : ∀ l c, drv.room l c = true) (port : Int) (address : BitVec 8) (calls : List Ev)
    (period : Nat) (hper : 10 < period) (hmem : drv.ok (calls ++ [.createLink]) = true) :
    (∃ data, resetBus port calls = calls ++ [.write port 0 data 200]) ∧
    ∃ cmds, (testAddress drv period port address calls).2 =
      calls ++ [.createLink, .begin_ port cmds 0, .deleteLink] := by
  refine ⟨⟨_, rfl⟩, ?_⟩
  obtain ⟨b, -, h⟩ := testAddress_exact_partial drv hroom period port address calls hmem
  rw [h, Nat.div_eq_of_lt hper]
  exact ⟨[.start, .writeByte b true, .stop], by simp⟩

/-! ### Concrete cases -/

/-- A driver of a bus with devices 0x3C and 0x76. -/
def twoDevices : Driver :=
  ⟨fun l => match l.getLast? with
    | some (.begin_ _ [.start, .writeByte b true, .stop] _) => b == 0x78 || b == 0xEC
    | _ => true, fun _ _ => true⟩

example : (scan twoDevices 10 0 [0x3B, 0x3C, 0x76, 0x77] []).1 = [0x3C, 0x76] := by decide

example : testAddress twoDevices 10 0 0x3C [] =
    (true, [.createLink, .begin_ 0 [.start, .writeByte 0x78 true, .stop] 1, .deleteLink]) := by decide

/-- The eighth bit is lost: 0xBC addresses the same device. -/
example : (testAddress twoDevices 10 0 0xBC []).1 = true := by decide

example : init ⟨fun l => decide (l.length < 2), fun _ _ => true⟩ 0 21 22 400000 true true [] =
    (false, [.paramConfig 0 ⟨21, 22, true, true, 400000⟩, .install 0]) := by decide

end Verif.Hal.I2cBus
