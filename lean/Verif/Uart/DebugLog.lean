import Verif.Uart.Server
/-!
# C123: `DEBUG_LOG`

`DEBUG_LOG(x)` is `SerialDebug << x << endl{}` if `DEBUG_SERIAL_OUT` is defined and nothing otherwise (Debug.h:3-12).
`SerialDebug` is a `SerialOut` with a buffer of 128 characters on UART 0 (esp32-esp-idf/SerialDebug.cpp:6-15) or on `Serial`
(arduino/SerialDebug.cpp:6-14).  The program is the user's: statements of its own, which may use the same device, and
`DEBUG_LOG`s between them.  Not modelled: the order in which global objects are constructed (nothing logs before `main`).
-/
namespace Verif.Uart.DebugLog
open Verif Verif.Out Verif.Uart.Wire Verif.Uart.Lines Verif.Uart.Server

/-! ## The program -/

/-- A statement of the program: one of its own, on its own state and on the device of the log, or `DEBUG_LOG(i₁ << i₂ << …)`. -/
inductive Stmt (σ δ : Type) where
  | act (f : σ → δ → Res (σ × δ))
  | log (junk : Nat → Byte) (items : List SItem)

/-- SerialDebug.cpp: a static buffer of 128 characters, zero at first. -/
def serialDebug : BOut := BOut.new (List.replicate 128 0)

/-- The program without `DEBUG_SERIAL_OUT` (Debug.h:10-12). -/
def runOff : List (Stmt σ δ) → σ → δ → Res (σ × δ)
  | [], s, d => .ok (s, d)
  | .act f :: p, s, d => do
    let (s, d) ← f s d
    runOff p s d
  | .log _ _ :: p, s, d => runOff p s d

/-- The program with `DEBUG_SERIAL_OUT` (Debug.h:3-9). -/
def runOn (send : δ → List Byte → Res δ) (signed : Bool) : List (Stmt σ δ) → σ → WOut δ → Res (σ × WOut δ)
  | [], s, w => .ok (s, w)
  | .act f :: p, s, w => do
    let (s, d) ← f s w.dev
    runOn send signed p s ⟨w.out, d⟩
  | .log junk items :: p, s, w => do
    let w ← w.ops send junk signed (items.map .put ++ [.endl])
    runOn send signed p s w

/-! ## Specification -/

/-- What the program logs. -/
def logs : List (Stmt σ δ) → List (List SItem)
  | [] => []
  | .act _ :: p => logs p
  | .log _ items :: p => items :: logs p

/-- The program's own statements do not use the device of the log. -/
def Apart (p : List (Stmt σ δ)) : Prop :=
  ∀ f, .act f ∈ p → ∀ s, (∃ s', ∀ d, f s d = .ok (s', d)) ∨ (∀ d, f s d = .ub) ∨ (∀ d, f s d = .hang)

/-- The log statements are correct ones: strings have their terminators, floats have an `int` part, a single byte is not
printed with less than two of the 128 characters left (C82). -/
def Sane (signed : Bool) (p : List (Stmt σ δ)) : Prop :=
  ∀ l ∈ logs p, (∀ i ∈ l, i.Valid) ∧ ¬ Wrong 128 signed l

/-- An item which cannot go wrong in any line. -/
def Safe : SItem → Prop
  | .byte _ => False
  | .float bits => ∃ mag, magOfBits bits = some mag ∧ -(2 ^ 31) ≤ intPart bits.msb mag ∧ intPart bits.msb mag < 2 ^ 31
  | _ => True

/-- The outcomes of a program are alike, apart from what the log did. -/
def Alike (off : Res (σ × δ)) (on : Res (σ × WOut δ)) (logged : WOut δ → Prop) : Prop :=
  match off with
  | .ok (s, _) => ∃ w, on = .ok (s, w) ∧ logged w
  | .ub => on = .ub
  | .hang => on = .hang

/-! ## Proof -/

theorem idle : Idle serialDebug 128 :=
  ⟨by simp [serialDebug, BOut.new, BOut.clear, BOut.WF], by simp [serialDebug, BOut.new, BOut.clear, BOut.capacity], by decide, by decide, by decide⟩

/-- The log of a program and the packets it sends; `f` is the effect of sending a packet. -/
def Logged (f : δ → List Byte → δ) (signed : Bool) (p : List (Stmt σ δ)) (d : δ) (w : WOut δ) : Prop :=
  Idle w.out 128 ∧ ∃ (ts ps : List (List Byte)), List.Forall₂ (Reads 128 signed) (logs p) ts ∧ (∀ q ∈ ps, q.length ≤ 128) ∧
    ps.flatten = wireOf ts ∧ w.dev = ps.foldl f d

theorem transparent {σ δ : Type} (send : δ → List Byte → Res δ) (f : δ → List Byte → δ)
    (hf : ∀ d p, p.length < 65536 → send d p = .ok (f d p)) (signed : Bool) (p : List (Stmt σ δ)) (ha : Apart p)
    (hs : Sane signed p) (s : σ) (d d0 : δ) (o : BOut) (ho : Idle o 128) :
    Alike (runOff p s d0) (runOn send signed p s ⟨o, d⟩) (Logged f signed p d) := by
  induction p generalizing s d o with
  | nil => exact ⟨_, rfl, ho, [], [], .nil, by simp, rfl, rfl⟩
  | cons c p ih =>
    have ha' : Apart p := fun g hg => ha g (by simp [hg])
    cases c with
    | act g =>
      have hs' : Sane signed p := hs
      rcases ha g (by simp) s with ⟨s', h⟩ | h | h
      · rw [runOff, runOn, h, h, Res.bind_ok, Res.bind_ok]
        exact ih ha' hs' s' d o ho
      · rw [runOff, runOn, h, h]; exact rfl
      · rw [runOff, runOn, h, h]; exact rfl
    | log junk items =>
      have hl := hs items (by simp [logs])
      have hs' : Sane signed p := fun l h => hs l (by simp [logs, h])
      obtain ⟨o', qs, t, k1, k2, k3, k4, k5⟩ := answer_fits junk o ho items hl.1 hl.2
      rw [runOff, runOn, k5 δ send f hf d, Res.bind_ok]
      have := ih ha' hs' s (qs.foldl f d) o' k1
      generalize runOff p s d0 = off at this ⊢
      cases off with
      | ub => exact this
      | hang => exact this
      | ok r =>
        obtain ⟨w, g1, g2, ts, ps, g3, g4, g5, g6⟩ := this
        refine ⟨w, g1, g2, t :: ts, qs ++ ps, .cons k3 g3, ?_, ?_, ?_⟩
        · intro q hq
          rcases List.mem_append.1 hq with hq | hq
          · exact k2 q hq
          · exact g4 q hq
        · rw [List.flatten_append, k4, g5]; simp [wireOf]
        · rw [List.foldl_append, g6]

/-! ## Properties -/

/-- **C123**, ESP32: with `DEBUG_SERIAL_OUT` a program which does not use UART 0 itself does the same as without, for every
driver — accepting, refusing or losing what is logged —, and whatever happens at run time; each `DEBUG_LOG` puts its own
line on the wire, in order, the same whatever was logged before, if the driver accepts what it is given. -/
theorem esp_log (drv : Device.Driver) (signed : Bool) (p : List (Stmt σ Device.St)) (ha : Apart p) (hs : Sane signed p)
    (s : σ) (d : Device.St) :
    Alike (runOff p s d) (runOn (espSend drv 0) signed p s ⟨serialDebug, d⟩) fun w =>
      ∃ cs, w.dev.calls = d.calls ++ cs ∧ (∀ c ∈ cs, c = .waitTxDone 0 ∨ ∃ q, c = .write 0 q) ∧
        ∃ ts, List.Forall₂ (Reads 128 signed) (logs p) ts ∧
          ((∀ l, (128 : Int) ≤ drv.written l) → onWire drv 0 d.calls cs = wireOf ts) := by
  have h := transparent (espSend drv 0) (espNext drv 0) (espSend_ok drv 0) signed p ha hs s d d serialDebug idle
  generalize runOff p s d = off at h ⊢
  cases off with
  | ub => exact h
  | hang => exact h
  | ok r =>
    obtain ⟨w, g1, -, ts, ps, g3, g4, g5, g6⟩ := h
    obtain ⟨cs, k1, -, k3, k4⟩ := esp_calls drv 0 ps d
    refine ⟨w, g1, cs, by rw [g6, k1], ?_, ts, g3, ?_⟩
    · intro c hc
      rcases k3 c hc with h | ⟨q, -, h⟩
      · exact .inl h
      · exact .inr ⟨q, h⟩
    · intro hd
      rw [← g5]
      apply k4
      intro l q hq
      have := g4 q hq
      have := hd l
      omega

/-- **C123**, Arduino. -/
theorem arduino_log (arriving : List ACall → List Byte) (signed : Bool) (p : List (Stmt σ ADev)) (ha : Apart p)
    (hs : Sane signed p) (s : σ) (d : ADev) :
    Alike (runOff p s d) (runOn (fun d q => .ok (arduinoSend arriving 100 d q)) signed p s ⟨serialDebug, d⟩) fun w =>
      ∃ cs, w.dev.calls = d.calls ++ cs ∧ w.dev.timeout = d.timeout ∧
        ∃ ts, List.Forall₂ (Reads 128 signed) (logs p) ts ∧ (written d.timeout cs).flatMap Prod.snd = wireOf ts := by
  have h := transparent (fun d q => .ok (arduinoSend arriving 100 d q)) (arduinoSend arriving 100) (fun _ _ _ => rfl) signed p ha
    hs s d d serialDebug idle
  generalize runOff p s d = off at h ⊢
  cases off with
  | ub => exact h
  | hang => exact h
  | ok r =>
    obtain ⟨w, g1, -, ts, ps, g3, g4, g5, g6⟩ := h
    obtain ⟨cs, k1, k2, k3, -⟩ := arduino_calls arriving 100 (by omega) ps (fun q hq => Nat.lt_of_le_of_lt (g4 q hq) (by decide)) d
    refine ⟨w, g1, cs, by rw [g6, k1], by rw [g6, k2], ts, g3, ?_⟩
    rw [k3, List.flatMap_map, ← g5]
    exact List.flatMap_id'

theorem effect_width {cap : Nat} {signed : Bool} {s s1 : Shown} (i : SItem) (h : Effect cap s s1 (i.asked signed))
    (hw : s.width = 0) : s1.width = 0 := by
  have hint : ∀ n, Effect cap s s1 (.int n) → s1.width = 0 := by
    rintro n ⟨d, -, rfl⟩
    split
    · exact hw
    · split
      · exact hw
      · split <;> rfl
  cases i with
  | cstr c r => obtain rfl := h; exact hw
  | char c => exact hint _ h
  | int n => exact hint _ h
  | byte b => obtain ⟨_, -, -, rfl⟩ := h; exact hw
  | bytes bs => obtain ⟨_, -, -, rfl⟩ := h; exact hw
  | precision n => obtain rfl := h; exact hw
  | float bits =>
    obtain ⟨mag, d, -, -, h⟩ := h
    split at h
    · obtain ⟨_, -, rfl⟩ := h; exact hw
    · obtain ⟨_, -, rfl⟩ := h; exact hw

theorem safe_effects {cap : Nat} {signed : Bool} (l : List SItem) (hl : ∀ i ∈ l, Safe i) (s : Shown) (hw : s.width = 0) :
    ¬ Effects cap s (l.map (·.asked signed)) none := by
  induction l generalizing s with
  | nil => intro h; cases h
  | cons i l ih =>
    simp only [List.mem_cons, forall_eq_or_imp] at hl
    intro h
    rw [List.map_cons] at h
    cases h with
    | undef _ _ _ hu =>
      have hint : ∀ n, ¬ Undefined cap s (.int n) := by
        rintro n ⟨d, -, -, h, -⟩
        rw [hw] at h
        omega
      cases i with
      | cstr c r => exact hu
      | char c => exact hint _ hu
      | int n => exact hint _ hu
      | byte b => exact hl.1
      | bytes bs => exact hu
      | precision n => exact hu
      | float bits =>
        obtain ⟨mag, h1, h2, h3⟩ := hl.1
        exact hu mag h1 ⟨h2, h3⟩
    | step _ s1 _ _ _ hu he h =>
      exact ih hl.2 s1 (effect_width i he hw) h

/-- Which lines are correct for certain: those without single bytes whose floats have an `int` part, of any length. -/
theorem safe_sane (signed : Bool) (p : List (Stmt σ δ)) (hv : ∀ l ∈ logs p, ∀ i ∈ l, i.Valid ∧ Safe i) : Sane signed p :=
  fun l hl => ⟨fun i hi => (hv l hl i hi).1, safe_effects l (fun i hi => (hv l hl i hi).2) .fresh rfl⟩

/-- Finding for **C123**, ESP32: nothing initialises UART 0; as long as no other part of the program does, the driver refuses
what is logged, and nothing is ever on the wire. -/
theorem esp_log_lost (drv : Device.Driver) (hdrv : ∀ l, drv.written l ≤ 0) (calls cs : List Device.Ev) :
    onWire drv 0 calls cs = [] := by
  induction cs generalizing calls with
  | nil => rfl
  | cons c cs ih =>
    cases c with
    | write q data =>
      rw [onWire, ih, List.append_nil, show (drv.written calls).toNat = 0 from Int.toNat_of_nonpos (hdrv calls), List.take_zero]
      simp
    | _ => exact ih _

/-- A program which reads a byte of `Serial`. -/
def readByte (s : Option Byte) (d : ADev) : Res (Option Byte × ADev) :=
  match d.unread with
  | [] => .ok (s, d)
  | b :: bs => .ok (some b, { d with unread := bs })

/-- Finding for **C123**, Arduino: if the program uses `Serial` itself, logging changes what it does: a byte which has arrived
before a `DEBUG_LOG` is read without `DEBUG_SERIAL_OUT`, and lost with it. -/
theorem arduino_log_interferes (arriving : List ACall → List Byte) (signed : Bool) (junk : Nat → Byte) (b : Byte) (calls : List ACall)
    (timeout : Nat) (items : List SItem) (hi : ∀ i ∈ items, i.Valid ∧ Safe i) :
    (∃ d, runOff [.log junk items, .act readByte] none ⟨timeout, [b], calls⟩ = .ok (some b, d)) ∧
    ∃ w, runOn (fun d q => .ok (arduinoSend arriving 100 d q)) signed [.log junk items, .act readByte] none
      ⟨serialDebug, ⟨timeout, [b], calls⟩⟩ = .ok (none, w) := by
  refine ⟨⟨_, rfl⟩, ?_⟩
  obtain ⟨o', qs, t, k1, k2, k3, k4, k5⟩ := answer_fits junk serialDebug idle items (fun i h => (hi i h).1)
    (safe_effects (cap := 128) (signed := signed) items (fun i h => (hi i h).2) .fresh rfl)
  have hne : qs ≠ [] := by
    rintro rfl
    simp at k4
  obtain ⟨cs, -, -, -, h4⟩ := arduino_calls arriving 100 (by omega) qs (fun q hq => Nat.lt_of_le_of_lt (k2 q hq) (by decide))
    ⟨timeout, [b], calls⟩
  rw [if_neg hne] at h4
  rw [runOn, k5 _ _ (arduinoSend arriving 100) (fun _ _ _ => rfl), Res.bind_ok, runOn]
  simp only [readByte, h4, Res.bind_ok, runOn]
  exact ⟨_, rfl⟩

/-! ## Concrete cases -/

/-- A program which counts and logs, `DEBUG_LOG("n=" << n)`; of a longer line the first 128 characters are logged. -/
def counting : List (Stmt Nat Device.St) :=
  [.act fun n d => .ok (n + 1, d), .log (fun _ => 0) [.cstr [110, 61] [], .int 1], .act fun n d => .ok (n + 1, d),
    .log (fun _ => 0) [.cstr (List.replicate 130 120) []]]

example : Apart counting := by
  intro f hf s
  simp only [counting, List.mem_cons, Stmt.act.injEq, reduceCtorEq, List.not_mem_nil, or_false, false_or] at hf
  rcases hf with rfl | rfl <;> exact .inl ⟨s + 1, fun _ => rfl⟩

example : Sane true counting := by
  apply safe_sane
  simp only [counting, logs, List.mem_cons, List.not_mem_nil, or_false]
  rintro l (rfl | rfl) i hi
  · simp only [List.mem_cons, List.not_mem_nil, or_false] at hi
    rcases hi with rfl | rfl
    · exact ⟨(by decide : ∀ c ∈ [(110 : Byte), 61], c ≠ 0), trivial⟩
    · exact ⟨trivial, trivial⟩
  · simp only [List.mem_cons, List.not_mem_nil, or_false] at hi
    subst hi
    exact ⟨fun c hc => by rw [List.eq_of_mem_replicate hc]; decide, trivial⟩

/-- A driver which accepts everything. -/
def accepting : Device.Driver := ⟨fun _ => true, fun _ => 65536, fun _ => none, fun _ => 128⟩

example : (match runOn (espSend accepting 0) true counting 0 ⟨serialDebug, ⟨[], fun _ => false⟩⟩ with
    | .ok (n, w) => (n, onWire accepting 0 [] w.dev.calls)
    | _ => (0, [])) = (2, [110, 61, 49, 10] ++ List.replicate 128 120 ++ [10]) := by decide +kernel

/-- A single byte with one character left is not a correct line. -/
example (signed : Bool) : Wrong 128 signed [.cstr (List.replicate 127 120) [], .byte 7] := by
  refine .step _ ⟨List.replicate 127 120, 0, 0, 32⟩ _ _ _ (fun h => h) ?_ (.undef _ _ _ ?_)
  · exact rfl
  · show 128 < (List.replicate 127 (120 : Byte)).length + 2
    simp

end Verif.Uart.DebugLog
