import Verif.Uart.Device
/-!
# C75: setting up and using a UART port

The specification reads the settings of a port off the calls made to the vendor driver: the configuration and the pins
last given for it, provided that a driver was installed afterwards.
-/
namespace Verif.Uart.Device
open Verif

/-- What is in force for a port. -/
structure Settings where
  config : Option UartConfig := none
  pins : Option (Int × Int) := none
  rxBuffer : Option Nat := none
deriving DecidableEq, Repr

/-- The effect of one call on a port; `pins` are (transmit, receive). -/
def Settings.step (port : Int) (s : Settings) : Ev → Settings
  | .paramConfig p c => if p = port then { s with config := some c } else s
  | .setPin p tx rx => if p = port then { s with pins := some (tx, rx) } else s
  | .install p n => if p = port then { s with rxBuffer := some n } else s
  | _ => s

/-- What is in force for a port after some calls. -/
def settings (port : Int) (calls : List Ev) : Settings := calls.foldl (Settings.step port) {}

/-- The settings a request asks for, as the vendor documents them. -/
def asked (drv : Driver) (port : Int) (r : Request) : Settings :=
  { config := some
      { baudRate := r.baudRate
        dataBits := match r.dataBits with | .bits5 => 0 | .bits6 => 1 | .bits7 => 2 | .bits8 => 3
        parity := match r.parityCheck with | .none => 0 | .even => 2 | .odd => 3
        stopBits := match r.stopBits with | .bits1 => 1 | .bits1_5 => 2 | .bits2 => 3
        flowCtrl := match r.flowCtrl with | .disable => 0 | .rts => 1 | .cts => 2 | .rtsCts => 3
        rxFlowCtrlThresh := match r.flowCtrl with | .disable => 0 | _ => 122 }
    pins := some (r.txPin, r.rxPin)
    rxBuffer := some (2 * drv.fifoLen port) }

theorem asked_config (drv : Driver) (port : Int) (r : Request) : (asked drv port r).config = some (config r) := by
  obtain ⟨a, b, c, d, e, f, g⟩ := r
  cases d <;> cases e <;> cases f <;> cases g <;> rfl

/-- The calls of a complete initialisation. -/
def setup (drv : Driver) (port : Int) (r : Request) : List Ev :=
  [.paramConfig port (config r), .setPin port r.txPin r.rxPin, .install port (drv.fifoLen port * 2)]

/-- `init` on a port in use does nothing. -/
theorem init_again (drv : Driver) (port : Int) (r : Request) (s : St) (h : s.installed port = true) :
    init drv port r s = (some true, s) := by
  unfold init; rw [if_pos h]

/-- `init` on a fresh port: either all three calls are made and succeed, or the program is aborted after the first one
which fails. -/
theorem init_fresh (drv : Driver) (port : Int) (r : Request) (s : St) (h : s.installed port = false) :
    (∃ s', init drv port r s = (some true, s') ∧ s'.calls = s.calls ++ setup drv port r ∧
      (∀ p, s'.installed p = (decide (p = port) || s.installed p)) ∧
      ∀ k, 0 < k → k ≤ 3 → drv.ok (s.calls ++ (setup drv port r).take k) = true) ∨
    (∃ s' k, init drv port r s = (none, s') ∧ 0 < k ∧ k ≤ 3 ∧ s'.calls = s.calls ++ (setup drv port r).take k ∧
      s'.installed = s.installed ∧ drv.ok s'.calls = false ∧
      ∀ j, 0 < j → j < k → drv.ok (s.calls ++ (setup drv port r).take j) = true) := by
  unfold init
  rw [h]
  simp only [Bool.false_eq_true, if_false, List.append_assoc, List.cons_append, List.nil_append]
  cases h1 : drv.ok (s.calls ++ [.paramConfig port (config r)]) with
  | false =>
    exact .inr ⟨_, 1, rfl, by omega, by omega, rfl, rfl, h1, fun j a b => by omega⟩
  | true =>
  cases h2 : drv.ok (s.calls ++ [.paramConfig port (config r), .setPin port r.txPin r.rxPin]) with
  | false =>
    refine .inr ⟨_, 2, rfl, by omega, by omega, rfl, rfl, h2, fun j a b => ?_⟩
    obtain rfl : j = 1 := by omega
    exact h1
  | true =>
  cases h3 : drv.ok (s.calls ++ [.paramConfig port (config r), .setPin port r.txPin r.rxPin,
      .install port (drv.fifoLen port * 2)]) with
  | false =>
    refine .inr ⟨_, 3, rfl, by omega, by omega, rfl, rfl, h3, fun j a b => ?_⟩
    obtain rfl | rfl : j = 1 ∨ j = 2 := by omega
    · exact h1
    · exact h2
  | true =>
    refine .inl ⟨_, rfl, rfl, fun p => ?_, fun k a b => ?_⟩
    · by_cases hp : p = port <;> simp [hp]
    · obtain rfl | rfl | rfl : k = 1 ∨ k = 2 ∨ k = 3 := by omega
      · exact h1
      · exact h2
      · exact h3

/-- **C75**: `init` never returns false. -/
theorem init_never_false (drv : Driver) (port : Int) (r : Request) (s : St) : (init drv port r s).1 ≠ some false := by
  cases h : s.installed port with
  | true => rw [init_again drv port r s h]; simp
  | false =>
    rcases init_fresh drv port r s h with ⟨s', k, -⟩ | ⟨s', j, k, -⟩ <;> rw [k] <;> simp

theorem settings_append (port : Int) (a b : List Ev) : settings port (a ++ b) = b.foldl (Settings.step port) (settings port a) := by
  unfold settings; rw [List.foldl_append]

theorem settings_setup_self (drv : Driver) (port : Int) (r : Request) (calls : List Ev) :
    settings port (calls ++ setup drv port r) = asked drv port r := by
  rw [settings_append]
  have hc := asked_config drv port r
  have : asked drv port r = { config := some (config r), pins := some (r.txPin, r.rxPin), rxBuffer := some (2 * drv.fifoLen port) } := by
    rw [← hc]; rfl
  rw [this]
  simp [setup, Settings.step, Nat.mul_comm]

theorem settings_setup_other (drv : Driver) (port p : Int) (hp : p ≠ port) (r : Request) (calls : List Ev) :
    settings port (calls ++ setup drv p r) = settings port calls := by
  rw [settings_append]
  simp [setup, Settings.step, hp]

/-- The first request for a port. -/
def firstRequest (port : Int) (reqs : List (Int × Request)) : Option Request :=
  (reqs.find? (fun q => q.1 = port)).map Prod.snd

theorem initAll_settings (drv : Driver) (reqs : List (Int × Request)) (s s' : St) (h : initAll drv reqs s = some s')
    (port : Int) :
    (s.installed port = true → settings port s'.calls = settings port s.calls ∧ s'.installed port = true) ∧
    (s.installed port = false →
      match firstRequest port reqs with
      | none => settings port s'.calls = settings port s.calls ∧ s'.installed port = false
      | some r => settings port s'.calls = asked drv port r ∧ s'.installed port = true) := by
  induction reqs generalizing s with
  | nil => cases h; exact ⟨fun h => ⟨rfl, h⟩, fun h => ⟨rfl, h⟩⟩
  | cons q reqs ih =>
    obtain ⟨p, r⟩ := q
    unfold initAll at h
    cases hp : s.installed p with
    | true =>
      rw [init_again drv p r s hp] at h
      refine ⟨(ih s h).1, fun hport => ?_⟩
      have hne : p ≠ port := by rintro rfl; rw [hp] at hport; cases hport
      have := (ih s h).2 hport
      simpa [firstRequest, hne] using this
    | false =>
      rcases init_fresh drv p r s hp with ⟨s1, k1, k2, k3, -⟩ | ⟨s1, j, k1, -⟩
      · rw [k1] at h
        simp only at h
        have i := ih s1 h
        by_cases hpp : p = port
        · subst hpp
          refine ⟨fun hh => (by rw [hp] at hh; cases hh), fun _ => ?_⟩
          have hi : s1.installed p = true := by simp [k3]
          have := i.1 hi
          rw [k2, settings_setup_self] at this
          simpa [firstRequest] using this
        · have hi : s1.installed port = s.installed port := by rw [k3]; simp [Ne.symm hpp]
          rw [hi, k2, settings_setup_other drv port p hpp] at i
          refine ⟨i.1, fun hh => ?_⟩
          have := i.2 hh
          simpa [firstRequest, hpp] using this
      · rw [k1] at h
        simp at h

/-- **C75**: whatever sequence of initialisations is performed, of whatever ports, each port which was asked for is in
use, with exactly the settings of the first request for it; other ports are not touched. -/
theorem init_history_partial (drv : Driver) (reqs : List (Int × Request)) (s : St)
    (h : initAll drv reqs ⟨[], fun _ => false⟩ = some s) (port : Int) :
    match firstRequest port reqs with
    | none => settings port s.calls = {} ∧ s.installed port = false
    | some r => settings port s.calls = asked drv port r ∧ s.installed port = true :=
  (initAll_settings drv reqs _ s h port).2 rfl

/-- Finding for **C75**: a later `init` with other parameters returns true although the settings stay those of the
earlier one. -/
theorem reinit_ignored (drv : Driver) (port : Int) (r r' : Request) (hne : r.baudRate ≠ r'.baudRate) (s s' : St)
    (hs : s.installed port = false) (h : init drv port r s = (some true, s')) :
    init drv port r' s' = (some true, s') ∧ settings port s'.calls = asked drv port r ∧
      settings port s'.calls ≠ asked drv port r' := by
  rcases init_fresh drv port r s hs with ⟨s1, k1, k2, k3, -⟩ | ⟨s1, j, k1, -⟩
  · rw [k1] at h
    obtain rfl : s1 = s' := by simpa using h
    have e : settings port s1.calls = asked drv port r := by rw [k2]; exact settings_setup_self drv port r s.calls
    refine ⟨init_again drv port r' s1 (by simp [k3]), e, ?_⟩
    rw [e]
    intro heq
    have := congrArg Settings.config heq
    rw [asked_config, asked_config, Option.some.injEq] at this
    exact hne (congrArg UartConfig.baudRate this)
  · rw [k1] at h; simp at h

/-- **C75**: `sendBlocking` hands exactly the data over, once, returns the driver's result, and waits for the end of the
transmission exactly if something was written. -/
theorem send_exact (drv : Driver) (port : Int) (data : List Byte) (size : Nat) (s : St) (h : size ≤ data.length) :
    ∃ s', sendBlocking drv port data size s = .ok (drv.written s.calls, s') ∧ s'.installed = s.installed ∧
      (0 < drv.written s.calls → s'.calls = s.calls ++ [.write port (data.take size), .waitTxDone port]) ∧
      (drv.written s.calls ≤ 0 → s'.calls = s.calls ++ [.write port (data.take size)]) := by
  unfold sendBlocking
  rw [if_neg (by omega)]
  by_cases hw : drv.written s.calls > 0
  · simp only [hw, if_true]
    exact ⟨_, rfl, rfl, fun _ => by simp, fun hc => by omega⟩
  · rw [if_neg hw]
    exact ⟨_, rfl, rfl, fun hc => absurd hc hw, fun _ => rfl⟩

/-- **C75**: `receiveBlocking` asks once for `size` bytes, stores exactly the bytes it reports, and asks the driver to
wait for the largest number of whole ticks not longer than the time-out. -/
theorem receive_exact (drv : Driver) (period : Nat) (hp : 0 < period) (port : Int) (size : Nat) (timeout : BitVec 32)
    (mem : List Byte) (s : St) (hm : size ≤ mem.length) (hd : ∀ bs, drv.received s.calls = some bs → bs.length ≤ size) :
    ∃ ticks n mem' s', receiveBlocking drv period port size timeout mem s = .ok (n, mem', s') ∧
      s'.calls = s.calls ++ [.read port size ticks] ∧ s'.installed = s.installed ∧
      ticks * period ≤ timeout.toNat ∧ timeout.toNat < (ticks + 1) * period ∧
      (∀ bs, drv.received s.calls = some bs → n = bs.length ∧ mem' = bs ++ mem.drop bs.length) ∧
      (drv.received s.calls = none → n = -1 ∧ mem' = mem) := by
  have h1 : timeout.toNat / period * period ≤ timeout.toNat := Nat.div_mul_le_self _ _
  have h2 : timeout.toNat < (timeout.toNat / period + 1) * period := by
    rw [Nat.mul_comm]; exact Nat.lt_mul_div_succ _ hp
  unfold receiveBlocking
  cases hr : drv.received s.calls with
  | none =>
    exact ⟨_, -1, mem, _, rfl, rfl, rfl, h1, h2, by simp, fun _ => ⟨rfl, rfl⟩⟩
  | some bs =>
    have := hd bs hr
    simp only
    rw [if_pos ⟨this, by omega⟩]
    refine ⟨_, _, _, _, rfl, rfl, rfl, h1, h2, ?_, by simp⟩
    rintro _ h
    cases h
    exact ⟨rfl, rfl⟩

/-- Finding for **C75**: a time-out below the tick period does not wait at all. -/
theorem receive_below_tick_polls (drv : Driver) (period : Nat) (port : Int) (size : Nat) (timeout : BitVec 32)
    (mem : List Byte) (s : St) (ht : timeout.toNat < period) (hm : size ≤ mem.length)
    (hd : ∀ bs, drv.received s.calls = some bs → bs.length ≤ size) :
    ∃ n mem' s', receiveBlocking drv period port size timeout mem s = .ok (n, mem', s') ∧
      s'.calls = s.calls ++ [.read port size 0] := by
  obtain ⟨t, n, m, s', k1, k2, -, k3, -⟩ := receive_exact drv period (by omega) port size timeout mem s hm hd
  refine ⟨n, m, s', k1, ?_⟩
  obtain rfl : t = 0 := by
    rcases Nat.eq_zero_or_pos t with h | h
    · exact h
    · have := Nat.le_mul_of_pos_left period h; omega
  exact k2

/-! ### Concrete cases -/

/-- A driver which always succeeds, writes two bytes and receives `[1, 2]`. -/
def good : Driver := ⟨fun _ => true, fun _ => 2, fun _ => some [1, 2], fun _ => 128⟩

example : ((initAll good [(1, ⟨16, 17, 115200, .bits8, .none, .bits1, .disable⟩), (2, ⟨4, 5, 9600, .bits7, .even, .bits2, .rtsCts⟩),
    (1, ⟨16, 17, 9600, .bits8, .none, .bits1, .disable⟩)] ⟨[], fun _ => false⟩).map (fun s => (s.calls, settings 1 s.calls))) =
    some ([.paramConfig 1 ⟨115200, 3, 0, 1, 0, 0⟩, .setPin 1 17 16, .install 1 256,
      .paramConfig 2 ⟨9600, 2, 2, 3, 3, 122⟩, .setPin 2 5 4, .install 2 256],
      ⟨some ⟨115200, 3, 0, 1, 0, 0⟩, some (17, 16), some 256⟩) := by decide

/-- The pins are rejected: the program is aborted before the installation. -/
example : ((init ⟨fun l => decide (l.length < 2), fun _ => 2, fun _ => none, fun _ => 128⟩ 1
    ⟨16, 99, 115200, .bits8, .none, .bits1, .disable⟩ ⟨[], fun _ => false⟩).1) = none := by decide

end Verif.Uart.Device
