import Verif.Spi.EspProps
/-!
# C94: the SPI bus object of the ESP32 under every sequence of calls

The calls `init`, `transfer` and `release` (esp32-esp-idf/SpiBus.cpp:9-90) in any order on one object, with any answers of
the driver.
-/
namespace Verif.Spi.Esp.Life
open Verif

/-- A call, with the answers of the driver. -/
inductive Call where
  | init (ok1 ok2 : Bool)
  | transfer (drv : Driver) (tx : List Byte) (send recv : Bool) (length : BitVec 32) (rx : List Byte)
  | release (err1 err2 : Nat)

/-- What a call returns; of a transfer also the receive buffer and what was submitted. -/
inductive Out where
  | init (ok : Bool)
  | transfer (ok : Bool) (s : St)
  | release (ok : Bool)
deriving DecidableEq

/-- One call (SpiBus.cpp:9-42, 44-76, 78-90). -/
def step : Call → Bus → Res (Out × Bus)
  | .init ok1 ok2, b => .ok (.init (b.init ok1 ok2).1, (b.init ok1 ok2).2)
  | .transfer drv tx send recv length rx, b => do
    let (ok, s) ← b.transfer drv tx send recv length ⟨rx, []⟩
    .ok (.transfer ok s, b)
  | .release err1 err2, b => do
    let (ok, b) ← b.release err1 err2
    .ok (.release ok, b)

/-- A sequence of calls. -/
def run : List Call → Bus → Res (List Out × Bus)
  | [], b => .ok ([], b)
  | c :: cs, b => do
    let (o, b) ← step c b
    let (os, b) ← run cs b
    .ok (o :: os, b)

/-! ### Specification -/

/-- Where the object stands: there is no device, there is one, or it was given back while the object still refers to it. -/
inductive Phase where
  | none
  | ready
  | dangling
deriving DecidableEq

/-- The driver initialises the bus in this call, if it is not already. -/
def Call.takes : Call → Bool
  | .init ok1 _ => ok1
  | _ => false

/-- The driver has once initialised the bus. -/
def taken (cs : List Call) : Bool := cs.any Call.takes

/-- The phase after the calls `cs`: the first initialisation of the bus counts, if the device is attached, too. -/
def phase : List Call → Phase
  | cs => go false .none cs
where
  go : Bool → Phase → List Call → Phase
  | _, p, [] => p
  | t, p, .init ok1 ok2 :: cs => go (t || ok1) (if ok1 && ok2 && !t then .ready else p) cs
  | t, .ready, .release err1 _ :: cs => go t (if err1 = 0 then .dangling else .none) cs
  | t, p, _ :: cs => go t p cs

/-- What the call returns, after the calls `cs`. -/
inductive Returns (cs : List Call) : Call → Res Out → Prop
  | init (ok1 ok2) : Returns cs (.init ok1 ok2) (.ok (.init (ok1 && ok2 && !taken cs)))
  | nothing (drv tx send recv rx) : Returns cs (.transfer drv tx send recv 0 rx) (.ok (.transfer true ⟨rx, []⟩))
  | refused (drv tx send recv length rx t) : length ≠ 0 → phase cs = .none →
      Returns cs (.transfer drv tx send recv length rx) (.ok (.transfer false ⟨rx, [⟨t, [], false⟩]⟩))
  | transferred (drv tx send recv length rx r) : length ≠ 0 → phase cs = .ready →
      transfer drv 4092 tx send recv length ⟨rx, []⟩ = r →
      Returns cs (.transfer drv tx send recv length rx) (r.bind fun x => .ok (.transfer x.1 x.2))
  | freed (drv tx send recv length rx) : length ≠ 0 → phase cs = .dangling →
      Returns cs (.transfer drv tx send recv length rx) .ub
  | noDevice (err1 err2) : phase cs = .none → Returns cs (.release err1 err2) (.ok (.release true))
  | device (err1 err2) : phase cs = .ready → Returns cs (.release err1 err2) (.ok (.release false))
  | twice (err1 err2) : phase cs = .dangling → Returns cs (.release err1 err2) .ub

/-! ### Proofs -/

theorem rbind {α β : Type} (a : α) (f : α → Res β) : (Res.ok a).bind f = f a := rfl

/-- The state of the object and of the driver belonging to a phase. -/
structure Agrees (b : Bus) (t : Bool) (p : Phase) : Prop where
  bus : b.hw.bus = t
  handle : b.handle = decide (p ≠ .none)
  device : p ≠ .none → b.hw.device = decide (p = .ready)
  used : p ≠ .none → t = true
  size : p ≠ .none → b.maxSize = lldescMax

theorem step_agrees {b b' : Bus} {t : Bool} {p : Phase} (h : Agrees b t p) (c : Call) (o : Out)
    (hs : step c b = .ok (o, b')) (cs : List Call) :
    ∃ t' p', Agrees b' t' p' ∧ phase.go t p (c :: cs) = phase.go t' p' cs ∧
      t' = (t || c.takes) := by
  obtain ⟨h1, h2, h3, h4, h5⟩ := h
  cases c with
  | init ok1 ok2 =>
    simp only [step, Res.ok.injEq, Prod.mk.injEq] at hs
    obtain ⟨-, rfl⟩ := hs
    refine ⟨t || ok1, if ok1 && ok2 && !t then .ready else p, ?_, by cases p <;> rfl, rfl⟩
    unfold Bus.init
    cases ok1 <;> cases ok2 <;> cases ht : t <;> cases p <;>
      simp_all <;> constructor <;> simp_all
  | transfer drv tx send recv length rx =>
    simp only [step] at hs
    obtain ⟨x, -, hx⟩ := Res.bind_eq_ok.1 hs
    simp only [Res.ok.injEq, Prod.mk.injEq] at hx
    obtain ⟨-, rfl⟩ := hx
    exact ⟨t, p, ⟨h1, h2, h3, h4, h5⟩, by cases p <;> rfl, by simp [Call.takes]⟩
  | release err1 err2 =>
    simp only [step] at hs
    obtain ⟨x, hx, hx'⟩ := Res.bind_eq_ok.1 hs
    simp only [Res.ok.injEq, Prod.mk.injEq] at hx'
    obtain ⟨-, rfl⟩ := hx'
    cases p with
    | none =>
      rw [release_none_partial b (by simpa using h2)] at hx
      cases hx
      exact ⟨t, .none, ⟨h1, h2, h3, h4, h5⟩, rfl, by simp [Call.takes]⟩
    | ready =>
      have hh : b.handle = true := by simpa using h2
      have hd : b.hw.device = true := by simpa using h3 (by simp)
      by_cases he : err1 = 0
      · subst he
        rw [release_success_fails b hh hd] at hx
        cases hx
        exact ⟨t, .dangling, ⟨h1, by simpa using h2, by simp, by simpa using h4, by simpa using h5⟩, rfl, by simp [Call.takes]⟩
      · rw [release_failure b hh hd err1 err2 he] at hx
        cases hx
        exact ⟨t, .none, ⟨h1, by simp, by simp, by simp, by simp⟩, by simp [phase.go, he], by simp [Call.takes]⟩
    | dangling =>
      have hh : b.handle = true := by simpa using h2
      have hd : b.hw.device = false := by simpa using h3 (by simp)
      simp [Bus.release, hh, removeDevice, hd] at hx

theorem run_agrees (cs : List Call) : ∀ {b b' : Bus} {t : Bool} {p : Phase} {os : List Out}, Agrees b t p →
    run cs b = .ok (os, b') → Agrees b' (t || taken cs) (phase.go t p cs) := by
  induction cs with
  | nil =>
    intro b b' t p os h hr
    simp only [run, Res.ok.injEq, Prod.mk.injEq] at hr
    obtain ⟨-, rfl⟩ := hr
    simpa [taken, phase.go] using h
  | cons c cs ih =>
    intro b b' t p os h hr
    simp only [run] at hr
    obtain ⟨⟨o, b1⟩, h1, hr⟩ := Res.bind_eq_ok.1 hr
    obtain ⟨⟨os1, b2⟩, h2, hr⟩ := Res.bind_eq_ok.1 hr
    simp only [Res.ok.injEq, Prod.mk.injEq] at hr
    obtain ⟨-, rfl⟩ := hr
    obtain ⟨t', p', k1, k2, k3⟩ := step_agrees h c o h1 cs
    have := ih k1 h2
    rw [k2]
    rw [k3] at this ⊢
    simpa [taken, Call.takes, Bool.or_assoc] using this

theorem new_agrees (hw : Hw) (h : hw.bus = false) : Agrees (Bus.new hw) false .none :=
  ⟨h, rfl, by simp, by simp, by simp⟩

/-- **C94**: after any calls on a new object, every call returns what the specification says. -/
theorem call_exact (hw : Hw) (h : hw.bus = false) (cs : List Call) (os : List Out) (b : Bus)
    (hr : run cs (Bus.new hw) = .ok (os, b)) (c : Call) :
    ∃ r, Returns cs c r ∧ (step c b).bind (fun x => .ok x.1) = r := by
  have ha : Agrees b (taken cs) (phase cs) := by
    have := run_agrees cs (new_agrees hw h) hr
    simpa [phase] using this
  obtain ⟨h1, h2, h3, h4, h5⟩ := ha
  cases c with
  | init ok1 ok2 =>
    refine ⟨_, .init ok1 ok2, ?_⟩
    simp only [step, Res.bind_ok, rbind, Res.ok.injEq, Out.init.injEq]
    unfold Bus.init
    rw [← h1]
    cases ok1 <;> cases ok2 <;> cases hb : b.hw.bus <;> simp [hb]
  | transfer drv tx send recv length rx =>
    by_cases h0 : length = 0
    · subst h0
      refine ⟨_, .nothing .., ?_⟩
      simp only [step, Bus.transfer_nothing, Res.bind_ok, rbind]
    · cases hp : phase cs with
      | none =>
        obtain ⟨t, e⟩ := Bus.transfer_no_handle drv b (by simpa [hp] using h2) tx send recv length h0 ⟨rx, []⟩
        refine ⟨_, .refused drv tx send recv length rx t h0 hp, ?_⟩
        simp only [step, e, Res.bind_ok, rbind, List.nil_append]
      | ready =>
        refine ⟨_, .transferred drv tx send recv length rx _ h0 hp rfl, ?_⟩
        have hd : b.hw.device = true := by simpa [hp] using h3 (by simp [hp])
        have hh : b.handle = true := by simpa [hp] using h2
        have e : b.transfer drv tx send recv length ⟨rx, []⟩ = transfer drv 4092 tx send recv length ⟨rx, []⟩ := by
          unfold Bus.transfer Bus.answers
          rw [if_neg (by simp [hd]), if_pos hh, h5 (by simp [hp])]
          rfl
        simp only [step, e]
        cases transfer drv 4092 tx send recv length ⟨rx, []⟩ <;> rfl
      | dangling =>
        refine ⟨_, .freed drv tx send recv length rx h0 hp, ?_⟩
        have hd : b.hw.device = false := by simpa [hp] using h3 (by simp [hp])
        have hh : b.handle = true := by simpa [hp] using h2
        simp only [step, Bus.transfer]
        rw [if_pos ⟨hh, by simp [hd], h0⟩]
        rfl
  | release err1 err2 =>
    cases hp : phase cs with
    | none =>
      refine ⟨_, .noDevice err1 err2 hp, ?_⟩
      simp only [step, release_none_partial b (by simpa [hp] using h2), Res.bind_ok, rbind]
    | ready =>
      refine ⟨_, .device err1 err2 hp, ?_⟩
      have hd : b.hw.device = true := by simpa [hp] using h3 (by simp [hp])
      have hh : b.handle = true := by simpa [hp] using h2
      by_cases he : err1 = 0
      · subst he
        simp only [step, release_success_fails b hh hd, Res.bind_ok, rbind]
      · simp only [step, release_failure b hh hd err1 err2 he, Res.bind_ok, rbind]
    | dangling =>
      refine ⟨_, .twice err1 err2 hp, ?_⟩
      have hd : b.hw.device = false := by simpa [hp] using h3 (by simp [hp])
      have hh : b.handle = true := by simpa [hp] using h2
      simp only [step, Bus.release, hh, removeDevice, hd, if_true, Bool.not_false]
      rfl

theorem loop_ne_hang (drv : Driver) (tx : List Byte) (m : BitVec 32) (hm : 0 < m.toNat) :
    ∀ (fuel : Nat) (t : Trans) (send recv : Option Nat) (length : BitVec 32) (s : St), length.toNat < fuel →
      loop drv tx m fuel t send recv length s ≠ .hang := by
  intro fuel
  induction fuel with
  | zero => intro _ _ _ _ _ h; omega
  | succ fuel ih =>
    intro t send recv length s hf
    unfold loop
    split
    · simp
    · rename_i h0
      have hpos : 0 < length.toNat := by
        rcases Nat.eq_zero_or_pos length.toNat with h | h
        · exact absurd (BitVec.eq_of_toNat_eq (by simpa using h)) h0
        · exact h
      generalize heff : (if m.toNat < length.toNat then m else length) = eff
      have h1 : 0 < eff.toNat ∧ eff.toNat ≤ length.toNat := by rw [← heff]; split <;> omega
      have hsub : (length - eff).toNat = length.toNat - eff.toNat :=
        BitVec.toNat_sub_of_le (by rw [BitVec.le_def]; omega)
      dsimp only
      generalize prepare t send recv eff = t'
      have ht : transmit drv tx t' s ≠ .hang := by
        unfold transmit fetch deliver slice overwrite
        cases drv s.log.length with
        | none => simp
        | some f =>
          dsimp only
          cases t'.txBuffer <;> cases t'.rxBuffer <;> dsimp only <;> (repeat' split) <;> simp [Res.bind]
      cases hx : transmit drv tx t' s with
      | hang => exact absurd hx ht
      | ub => simp
      | ok x =>
        obtain ⟨ok, s'⟩ := x
        simp only [Res.bind_ok, rbind]
        split
        · simp
        · exact ih _ _ _ _ _ (by omega)

/-- **C94**: no sequence of calls on a new object hangs, whatever the driver answers. -/
theorem never_hangs (hw : Hw) (h : hw.bus = false) (cs : List Call) : run cs (Bus.new hw) ≠ .hang := by
  have key : ∀ (cs : List Call) (b : Bus) (t : Bool) (p : Phase), Agrees b t p → run cs b ≠ .hang := by
    intro cs
    induction cs with
    | nil => intro b t p _; simp [run]
    | cons c cs ih =>
      intro b t p ha
      have hstep : step c b ≠ .hang := by
        cases c with
        | init ok1 ok2 => simp [step]
        | release err1 err2 =>
          simp only [step, Bus.release, removeDevice, busFree]
          repeat' split
          all_goals simp [Res.bind]
          all_goals (repeat' split) <;> simp
        | transfer drv tx send recv length rx =>
          have ht : b.transfer drv tx send recv length ⟨rx, []⟩ ≠ .hang := by
            by_cases h0 : length = 0
            · rw [h0, Bus.transfer_nothing]; simp
            · cases hh : b.handle with
              | false =>
                obtain ⟨t, e⟩ := Bus.transfer_no_handle drv b hh tx send recv length h0 ⟨rx, []⟩
                rw [e]; simp
              | true =>
                have hp : p ≠ .none := by have := ha.handle; rw [hh] at this; simpa using this.symm
                unfold Bus.transfer Esp.transfer
                split
                · simp
                · exact loop_ne_hang _ _ _ (by rw [ha.size hp]; decide) _ _ _ _ _ _ (by omega)
          simp only [step]
          cases hx : b.transfer drv tx send recv length ⟨rx, []⟩ with
          | hang => exact absurd hx ht
          | ub => simp
          | ok x => simp
      simp only [run]
      cases hx : step c b with
      | hang => exact absurd hx hstep
      | ub => simp
      | ok x =>
        obtain ⟨o, b1⟩ := x
        obtain ⟨t', p', k1, -, -⟩ := step_agrees ha c o hx cs
        have := ih b1 t' p' k1
        simp only [Res.bind_ok, rbind]
        cases hy : run cs b1 with
        | hang => exact absurd hy this
        | ub => simp
        | ok y => simp
  exact key cs _ _ _ (new_agrees hw h)

theorem run_append (as cs : List Call) (b : Bus) :
    run (as ++ cs) b = (run as b).bind fun x => (run cs x.2).bind fun y => .ok (x.1 ++ y.1, y.2) := by
  induction as generalizing b with
  | nil => simp only [List.nil_append, run, Res.bind_ok, rbind]; cases run cs b <;> rfl
  | cons a as ih =>
    simp only [List.cons_append, run]
    cases step a b with
    | ub => rfl
    | hang => rfl
    | ok x =>
      simp only [Res.bind_ok, rbind, ih]
      cases run as x.2 with
      | ub => rfl
      | hang => rfl
      | ok y =>
        simp only [Res.bind_ok, rbind]
        cases run cs y.2 <;> rfl

/-- **C94**: once `init` has returned true, or only has initialised the bus, no later `init` of the object returns true –
whether the object has been released or not. -/
theorem init_once (hw : Hw) (h : hw.bus = false) (cs : List Call) (os : List Out) (b : Bus)
    (hr : run cs (Bus.new hw) = .ok (os, b)) (ht : taken cs = true) (ok1 ok2 : Bool) :
    (b.init ok1 ok2).1 = false := by
  obtain ⟨r, h1, h2⟩ := call_exact hw h cs os b hr (.init ok1 ok2)
  cases h1
  simp only [step, Res.bind_ok, rbind, Res.ok.injEq, Out.init.injEq, ht] at h2
  simpa using h2

theorem ready_cases (cs : List Call) : ∀ (t : Bool) (p : Phase), phase.go t p cs = .ready →
    (p = .ready ∧ ∀ c ∈ cs, ∀ e1 e2, c ≠ .release e1 e2) ∨
    ∃ as bs, cs = as ++ .init true true :: bs ∧ (t || taken as) = false ∧ ∀ c ∈ bs, ∀ e1 e2, c ≠ .release e1 e2 := by
  induction cs with
  | nil => intro t p h; exact .inl ⟨h, by simp⟩
  | cons c cs ih =>
    intro t p h
    cases c with
    | init ok1 ok2 =>
      have h' : phase.go (t || ok1) (if ok1 && ok2 && !t then .ready else p) cs = .ready := by cases p <;> exact h
      rcases ih _ _ h' with ⟨h1, h2⟩ | ⟨as, bs, rfl, h1, h2⟩
      · by_cases hc : (ok1 && ok2 && !t) = true
        · simp only [Bool.and_eq_true, Bool.not_eq_true'] at hc
          obtain ⟨⟨rfl, rfl⟩, rfl⟩ := hc
          exact .inr ⟨[], cs, rfl, rfl, h2⟩
        · rw [if_neg hc] at h1
          refine .inl ⟨h1, ?_⟩
          intro c hcm e1 e2
          rcases List.mem_cons.1 hcm with rfl | hcm
          · simp
          · exact h2 c hcm e1 e2
      · exact .inr ⟨.init ok1 ok2 :: as, bs, rfl, by simpa [taken, Call.takes, Bool.or_assoc] using h1, h2⟩
    | transfer drv tx send recv length rx =>
      have h' : phase.go t p cs = .ready := by cases p <;> exact h
      rcases ih _ _ h' with ⟨h1, h2⟩ | ⟨as, bs, rfl, h1, h2⟩
      · refine .inl ⟨h1, ?_⟩
        intro c hcm e1 e2
        rcases List.mem_cons.1 hcm with rfl | hcm
        · simp
        · exact h2 c hcm e1 e2
      · exact .inr ⟨.transfer drv tx send recv length rx :: as, bs, rfl, by simpa [taken, Call.takes] using h1, h2⟩
    | release err1 err2 =>
      have h' : ∃ q, q ≠ .ready ∧ phase.go t q cs = .ready := by
        cases p with
        | ready => exact ⟨if err1 = 0 then .dangling else .none, by split <;> simp, h⟩
        | none => exact ⟨.none, by simp, h⟩
        | dangling => exact ⟨.dangling, by simp, h⟩
      obtain ⟨q, hq, h'⟩ := h'
      rcases ih _ _ h' with ⟨h1, -⟩ | ⟨as, bs, rfl, h1, h2⟩
      · exact absurd h1 hq
      · exact .inr ⟨.release err1 err2 :: as, bs, rfl, by simpa [taken, Call.takes] using h1, h2⟩

/-- **C94**: a transfer of something reports success, or has anything accepted by the driver, only between the `init` which
returned true and the next `release`. -/
theorem success_needs_init (hw : Hw) (h : hw.bus = false) (cs : List Call) (os : List Out) (b : Bus)
    (hr : run cs (Bus.new hw) = .ok (os, b)) (drv : Driver) (tx : List Byte) (send recv : Bool) (length : BitVec 32)
    (h0 : length ≠ 0) (rx : List Byte) (ok : Bool) (s : St)
    (ht : b.transfer drv tx send recv length ⟨rx, []⟩ = .ok (ok, s)) (ha : ok = true ∨ ∃ e ∈ s.log, e.accepted = true) :
    ∃ as bs os1 b1, cs = as ++ .init true true :: bs ∧ run as (Bus.new hw) = .ok (os1, b1) ∧
      (b1.init true true).1 = true ∧ ∀ c ∈ bs, ∀ e1 e2, c ≠ .release e1 e2 := by
  obtain ⟨r, h1, h2⟩ := call_exact hw h cs os b hr (.transfer drv tx send recv length rx)
  simp only [step, ht, Res.bind_ok, rbind] at h2
  subst h2
  have hp : phase cs = .ready := by
    generalize hq : Res.ok (Out.transfer ok s) = q at h1
    cases h1 with
    | nothing => exact absurd rfl h0
    | refused _ _ _ _ _ _ t h3 h4 =>
      simp only [Res.ok.injEq, Out.transfer.injEq] at hq
      obtain ⟨rfl, rfl⟩ := hq
      simp at ha
    | transferred _ _ _ _ _ _ _ h3 h4 h5 => exact h4
    | freed => cases hq
  rcases ready_cases cs false .none hp with ⟨h3, -⟩ | ⟨as, bs, rfl, h3, h4⟩
  · cases h3
  · rw [run_append] at hr
    obtain ⟨⟨os1, b1⟩, hr1, -⟩ := Res.bind_eq_ok.1 hr
    refine ⟨as, bs, os1, b1, rfl, hr1, ?_, h4⟩
    obtain ⟨r, h5, h6⟩ := call_exact hw h as os1 b1 hr1 (.init true true)
    cases h5
    simp only [step, Res.bind_ok, rbind, Res.ok.injEq, Out.init.injEq] at h6
    simp only [Bool.false_or] at h3
    simpa [h3] using h6

theorem dangling_cases (cs : List Call) : ∀ (t : Bool) (p : Phase), phase.go t p cs = .dangling → p ≠ .dangling →
    ∃ as e2 bs, cs = as ++ .release 0 e2 :: bs ∧ phase.go t p as = .ready := by
  induction cs with
  | nil => intro t p h hp; exact absurd h hp
  | cons c cs ih =>
    intro t p h hp
    cases c with
    | init ok1 ok2 =>
      have h' : phase.go (t || ok1) (if ok1 && ok2 && !t then .ready else p) cs = .dangling := by cases p <;> exact h
      obtain ⟨as, e2, bs, rfl, h1⟩ := ih _ _ h' (by split <;> simp [hp])
      exact ⟨.init ok1 ok2 :: as, e2, bs, rfl, by cases p <;> exact h1⟩
    | transfer drv tx send recv length rx =>
      have h' : phase.go t p cs = .dangling := by cases p <;> exact h
      obtain ⟨as, e2, bs, rfl, h1⟩ := ih _ _ h' hp
      exact ⟨.transfer drv tx send recv length rx :: as, e2, bs, rfl, by cases p <;> exact h1⟩
    | release err1 err2 =>
      cases p with
      | none =>
        obtain ⟨as, e2, bs, rfl, h1⟩ := ih _ _ (show phase.go t .none cs = .dangling from h) (by simp)
        exact ⟨.release err1 err2 :: as, e2, bs, rfl, h1⟩
      | dangling => exact absurd rfl hp
      | ready =>
        by_cases he : err1 = 0
        · subst he
          exact ⟨[], err2, cs, rfl, rfl⟩
        · have h' : phase.go t .none cs = .dangling := by simpa [phase.go, he] using h
          obtain ⟨as, e2, bs, rfl, h1⟩ := ih _ _ h' (by simp)
          exact ⟨.release err1 err2 :: as, e2, bs, rfl, by simpa [phase.go, he] using h1⟩

/-- **C94**: `release` is undefined behaviour only after the driver has removed the device of an initialised bus in an
earlier `release` (C58); so is a transfer whose buffers are large enough. -/
theorem undefined_only_after_release (hw : Hw) (h : hw.bus = false) (cs : List Call) (os : List Out) (b : Bus)
    (hr : run cs (Bus.new hw) = .ok (os, b)) (c : Call) (hu : step c b = .ub)
    (hl : ∀ drv tx send recv length rx, c = .transfer drv tx send recv length rx →
      (send = true → length.toNat ≤ tx.length) ∧ (recv = true → length.toNat ≤ rx.length)) :
    ∃ as e2 bs, cs = as ++ .release 0 e2 :: bs ∧ phase as = .ready := by
  obtain ⟨r, h1, h2⟩ := call_exact hw h cs os b hr c
  rw [hu] at h2
  change Res.ub = r at h2
  have hd : phase cs = .dangling := by
    cases h1 with
    | init => cases h2
    | nothing => cases h2
    | refused => cases h2
    | freed _ _ _ _ _ _ h3 h4 => exact h4
    | noDevice => cases h2
    | device => cases h2
    | twice _ _ h4 => exact h4
    | transferred drv tx send recv length rx r h3 h4 h5 =>
      obtain ⟨l1, l2⟩ := hl drv tx send recv length rx rfl
      rw [transfer_exact drv 4092 (by decide) (by decide) tx rx send recv length l1 l2 []] at h5
      subst h5
      cases h2
  exact dangling_cases cs false .none hd (by simp)

/-- An object is used before `init`, initialised, used, released by a driver reporting an error, used and initialised again. -/
example : (run [.transfer (fun _ => some fun _ => 7) [1, 2] true false 2 [], .init true true, .init true true,
      .transfer (fun _ => some fun _ => 7) [1, 2] true false 2 [], .release 1 0,
      .transfer (fun _ => some fun _ => 7) [1, 2] true false 2 [], .init true true, .release 0 0]
      (Bus.new ⟨false, false⟩)).bind (fun x => .ok x.1) =
    .ok [.transfer false ⟨[], [⟨⟨some 0, 0, none, 0⟩, [], false⟩]⟩, .init true, .init false,
      .transfer true ⟨[], [⟨⟨some 0, 16, none, 0⟩, [1, 2], true⟩]⟩, .release false,
      .transfer false ⟨[], [⟨⟨some 0, 16, none, 0⟩, [], false⟩]⟩, .init false, .release true] := by decide

/-- A released object must not be used, nor released again. -/
example : phase [.init true true, .release 0 0] = .dangling ∧
    run [.init true true, .release 0 0, .transfer (fun _ => none) [1] true false 1 []] (Bus.new ⟨false, false⟩) = .ub ∧
    run [.init true true, .release 0 0, .release 0 0] (Bus.new ⟨false, false⟩) = .ub := by decide

end Verif.Spi.Esp.Life
