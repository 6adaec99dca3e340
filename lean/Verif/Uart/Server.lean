import Verif.Uart.Lines
/-!
# C120: a program which answers requests on a serial line

The program waits for a line with `ReceiveUntil('\n')`, acts on it and answers with a line printed through `SerialOut`, over
and over, both on the same device.  The program is the user's; receiving and sending are the code of C53, C55, C85 and C87.
Bytes keep arriving: some while the program waits for a line, some while it sends its answer.
-/
namespace Verif.Uart.Server
open Verif Verif.Out Verif.Uart.Wire Verif.Uart.Portable Verif.Uart.Lines
open Verif.Uart.Esp (Env)

/-! ## The program -/

/-- What happens outside during one round: the bytes arriving until the line has been received, and those arriving while the
answer is sent; the readings of the clock; what `std::to_chars` leaves behind. -/
structure Turn where
  early : List Byte
  late : List Byte
  clock : Nat → BitVec 32
  junk : Nat → Byte

/-- What the program keeps: its own state, the buffer for the requests, the `SerialOut`, the device; and the bytes received
and not yet read. -/
structure State (σ δ : Type) where
  st : σ
  mem : List Byte
  out : BOut
  dev : δ
  unread : List Byte

/-- The settings of the program. -/
structure Setup where
  size : Nat
  timeout : Nat
  fuel : Nat
  signed : Bool

/-- The reads of one round: the waiting bytes in order, then nothing. -/
def Turn.env (t : Turn) (waiting : List Byte) : Env := ⟨t.clock, fun k => (waiting ++ t.early)[k]?⟩

/-- One round on ESP32: `n = uart.ReceiveUntil(mem, size, '\n', timeout)`, the program's own part (its new state and what it
prints), `out << … << endl`.  What has been read is no longer waiting; bytes arriving meanwhile are kept by the driver. -/
def espRound (handle : σ → List Byte → Res (σ × List SItem)) (c : Setup) (drv : Device.Driver) (port : Int)
    (s : State σ Device.St) (t : Turn) : Res (State σ Device.St) := do
  let (n, r) ← Esp.receiveUntil (t.env s.unread) c.fuel s.mem c.size 10 c.timeout
  let (st, items) ← handle s.st (r.mem.take n)
  let w ← WOut.ops (espSend drv port) t.junk c.signed ⟨s.out, s.dev⟩ (items.map .put ++ [.endl])
  .ok ⟨st, r.mem, w.out, w.dev, (s.unread ++ t.early).drop r.log.length ++ t.late⟩

/-- One round on Arduino.  `Send` acts on the bytes which are not read yet (C87). -/
def arduinoRound (handle : σ → List Byte → Res (σ × List SItem)) (c : Setup) (s : State σ ADev) (t : Turn) :
    Res (State σ ADev) := do
  let (n, r) ← Arduino.receiveUntilS (t.env s.unread) s.mem c.size 10
  let (st, items) ← handle s.st (r.mem.take n)
  let w ← WOut.ops (fun d p => .ok (arduinoSend (fun _ => t.late) 100 d p)) t.junk c.signed
    ⟨s.out, { s.dev with unread := (s.unread ++ t.early).drop r.log.length }⟩ (items.map .put ++ [.endl])
  .ok ⟨st, r.mem, w.out, w.dev, w.dev.unread⟩

/-- Round after round. -/
def serve (round : State σ δ → Turn → Res (State σ δ)) : State σ δ → List Turn → Res (State σ δ)
  | s, [] => .ok s
  | s, t :: ts => do
    let s' ← round s t
    serve round s' ts

/-! ## Specification -/

/-- The answers `ts` of the program to the requests `qs` (each without its newline), and the state it ends in. -/
inductive Answers (handle : σ → List Byte → Res (σ × List SItem)) (cap : Nat) (signed : Bool) :
    σ → List (List Byte) → List (List Byte) → σ → Prop where
  | nil (st : σ) : Answers handle cap signed st [] [] st
  | cons (st st1 st2 : σ) (items : List SItem) (q t : List Byte) (qs ts : List (List Byte)) :
      handle st (q ++ [10]) = .ok (st1, items) → Reads cap signed items t → Answers handle cap signed st1 qs ts st2 →
      Answers handle cap signed st (q :: qs) (t :: ts) st2

/-- The program's own part does nothing undefined, as long as an invariant of its own holds. -/
def Sound (handle : σ → List Byte → Res (σ × List SItem)) (cap : Nat) (signed : Bool) (inv : σ → Prop) : Prop :=
  ∀ st p, inv st → ∃ st' items, handle st p = .ok (st', items) ∧ inv st' ∧ (∀ i ∈ items, i.Valid) ∧ ¬ Wrong cap signed items

/-- `InTime u turns qs u'`: with `u` waiting at first, every round finds a complete line, the next of `qs`, before it gives
up; `u'` is what is waiting in the end if no byte is ever lost. -/
inductive InTime : List Byte → List Turn → List (List Byte) → List Byte → Prop where
  | nil (u : List Byte) : InTime u [] [] u
  | cons (u rest q u' : List Byte) (t : Turn) (turns : List Turn) (qs : List (List Byte)) :
      u ++ t.early = q ++ 10 :: rest → 10 ∉ q → InTime (rest ++ t.late) turns qs u' → InTime u (t :: turns) (q :: qs) u'

/-- A request as received by Arduino from the given bytes and with a buffer of `size` bytes: up to the newline, if there is
one soon enough, up to the end of the bytes, or as much as there is room for. -/
def cut (size : Nat) (bytes : List Byte) : List Byte := (bytes.take (size - 1)).takeWhile (· ≠ 10)

/-- The `SerialOut` is idle: nothing in its buffer of `cap` characters, no settings. -/
structure Idle (o : BOut) (cap : Nat) : Prop where
  wf : o.WF
  size : o.capacity = cap
  fresh : o.shown = .fresh
  room : 0 < cap
  small : cap ≤ 65535

/-- The request buffer is as large as said. -/
structure Setup.Fine (c : Setup) (mem : List Byte) : Prop where
  room : c.size ≤ mem.length
  pos : 1 ≤ c.size
  small : c.size < 65536

/-! ## Proof -/

/-- A program which prints `items` and a newline sends the packets `ps`, whatever the device. -/
def Sends (junk : Nat → Byte) (signed : Bool) (o : BOut) (items : List SItem) (o' : BOut) (ps : List (List Byte)) : Prop :=
  ∀ (δ : Type) (send : δ → List Byte → Res δ) (f : δ → List Byte → δ),
    (∀ d p, p.length < 65536 → send d p = .ok (f d p)) → ∀ d,
    WOut.ops send junk signed ⟨o, d⟩ (items.map .put ++ [.endl]) = .ok ⟨o', ps.foldl f d⟩

/-- Printing an answer: the packets do not depend on the device they are sent to. -/
theorem answer_fits {cap : Nat} {signed : Bool} (junk : Nat → Byte) (o : BOut) (hi : Idle o cap) (items : List SItem)
    (hv : ∀ i ∈ items, i.Valid) (hw : ¬ Wrong cap signed items) :
    ∃ (o' : BOut) (ps : List (List Byte)) (t : List Byte), Idle o' cap ∧ (∀ p ∈ ps, p.length ≤ cap) ∧
      Reads cap signed items t ∧ ps.flatten = t ++ [10] ∧
      Sends junk signed o items o' ps := by
  have hval : ∀ op ∈ items.map SOp.put ++ [.endl], op.Valid := by
    intro op hop
    simp only [List.mem_append, List.mem_map, List.mem_singleton] at hop
    rcases hop with ⟨i, h1, rfl⟩ | rfl
    · exact hv i h1
    · exact trivial
  rcases serial_exact junk signed ⟨o, []⟩ hi.wf (by simp only [hi.size]; exact hi.room) (by simp only [hi.size]; exact hi.small)
    _ hval with ⟨-, ps, g⟩ | ⟨s', ps, g1, g2, g3, g4, g5⟩
  · simp only [hi.size, hi.fresh] at g
    rcases serial_line g with ⟨s1, ps', -, k2, -⟩ | ⟨-, k⟩
    · cases k2
    · exact absurd k hw
  · simp only [hi.size, hi.fresh] at g5 g3
    have hsends : ∀ (δ : Type) (send : δ → List Byte → Res δ) (f : δ → List Byte → δ),
        (∀ d p, p.length < 65536 → send d p = .ok (f d p)) → ∀ d,
        WOut.ops send junk signed ⟨o, d⟩ (items.map .put ++ [.endl]) = .ok ⟨s'.out, ps.foldl f d⟩ := by
      intro δ send f hf d
      obtain ⟨qs, k1, k2, k3⟩ := (wire_sends send f hf junk signed (items.map .put ++ [.endl]) o [] d).2 s' g1
      obtain rfl : ps = qs := by rw [g4] at k1; simpa using k1
      exact k3
    have hfit := packets_fit g5 (by simp [Shown.fresh]) hi.room
    rcases serial_line g5 with ⟨s1, ps', m1, m2, m3⟩ | ⟨m1, -⟩
    · generalize hr : some s'.out.shown = r at m2
      cases m2
      simp only [Option.some.injEq] at hr
      exact ⟨s'.out, ps, s1.text, ⟨g2, g3, hr, hi.room, hi.small⟩,
        hfit, ⟨s1, m1, rfl⟩, by simpa using m3, fun δ send f hf d => hsends δ send f hf d⟩
    · cases m1

theorem answer {cap : Nat} {signed : Bool} (junk : Nat → Byte) (o : BOut) (hi : Idle o cap) (items : List SItem)
    (hv : ∀ i ∈ items, i.Valid) (hw : ¬ Wrong cap signed items) :
    ∃ (o' : BOut) (ps : List (List Byte)) (t : List Byte), Idle o' cap ∧ (∀ p ∈ ps, p.length < 65536) ∧
      Reads cap signed items t ∧ ps.flatten = t ++ [10] ∧ Sends junk signed o items o' ps := by
  obtain ⟨o', ps, t, h1, h2, h3⟩ := answer_fits junk o hi items hv hw
  exact ⟨o', ps, t, h1, fun p hp => Nat.lt_of_le_of_lt (h2 p hp) (Nat.lt_succ_of_le hi.small), h3⟩

theorem onWire_append (drv : Device.Driver) (port : Int) (before a b : List Device.Ev) :
    onWire drv port before (a ++ b) = onWire drv port before a ++ onWire drv port (before ++ a) b := by
  induction a generalizing before with
  | nil => simp [onWire]
  | cons e a ih =>
    cases e <;> simp [onWire, ih, List.append_assoc]

theorem written_snd (cs : List ACall) (a b : Nat) : (written a cs).map Prod.snd = (written b cs).map Prod.snd := by
  induction cs generalizing a b with
  | nil => rfl
  | cons e cs ih =>
    cases e with
    | setTimeout ms => rfl
    | write data => simp [written, ih a b]
    | flush f => exact ih a b

theorem written_snd_append (t : Nat) (a b : List ACall) :
    (written t (a ++ b)).map Prod.snd = (written t a).map Prod.snd ++ (written t b).map Prod.snd := by
  induction a generalizing t with
  | nil => rfl
  | cons e a ih =>
    cases e with
    | setTimeout ms =>
      simp only [List.cons_append, written]
      rw [ih ms, written_snd b ms t]
    | write data => simp [written, ih t]
    | flush b => exact ih t

/-- One round on ESP32 with a complete line. -/
theorem esp_round {handle : σ → List Byte → Res (σ × List SItem)} {c : Setup} (drv : Device.Driver) (port : Int) {T : Nat}
    (hfuel : c.size ≤ c.fuel) (hto : c.timeout = 0 ∨ T ≤ c.timeout) (hto' : c.timeout < 65536) {t : Turn}
    (hq : Quick ⟨t.clock, fun _ => none⟩ c.size T) (s : State σ Device.St) (hc : c.Fine s.mem) {q rest : List Byte}
    (hline : s.unread ++ t.early = q ++ 10 :: rest) (hnl : 10 ∉ q) (hlen : q.length + 1 < c.size) {st1 : σ}
    {items : List SItem} (e1 : handle s.st (q ++ [10]) = .ok (st1, items)) {o' : BOut} {ps : List (List Byte)}
    (f0 : Sends t.junk c.signed s.out items o' ps) :
    ∃ mem', espRound handle c drv port s t = .ok ⟨st1, mem', o', ps.foldl (espNext drv port) s.dev, rest ++ t.late⟩ ∧
      c.Fine mem' := by
  have hw : (Msg.until c.size 10 c.timeout q).wire = q ++ [10] := rfl
  have hp : (Msg.until c.size 10 c.timeout q).packet = q ++ [10] := rfl
  obtain ⟨r, k1, k2, k3⟩ := esp_message (t.env s.unread) c.size T c.fuel s.mem (.until c.size 10 c.timeout q)
    ⟨hnl, hlen, hc.room, hc.small, by omega, hto, hto'⟩ hq
    (by
      intro k hk
      rw [hw] at hk ⊢
      show (s.unread ++ t.early)[k]? = _
      rw [hline, show q ++ 10 :: rest = (q ++ [10]) ++ rest by simp, List.getElem?_append_left hk])
    (by rw [hw]; simp; omega)
  rw [hp] at k1 k2
  rw [hw] at k3
  change Esp.receiveUntil (t.env s.unread) c.fuel s.mem c.size 10 c.timeout = _ at k1
  have htake : r.mem.take (q ++ [10]).length = q ++ [10] := by rw [k2, List.take_left]
  have f1 := f0 _ (espSend drv port) (espNext drv port) (espSend_ok drv port) s.dev
  refine ⟨r.mem, ?_, ?_, hc.pos, hc.small⟩
  · unfold espRound
    rw [k1]
    simp only [Res.bind_ok, htake, e1, f1]
    rw [k3, hline, show q ++ 10 :: rest = (q ++ [10]) ++ rest by simp, List.drop_left]
  · have := hc.room
    rw [k2]; simp; omega

/-- The receiver on Arduino gets the bytes up to the newline, or what there is. -/
theorem arduino_cut (clock : Nat → BitVec 32) (bytes mem : List Byte) (size : Nat) (h1 : 1 ≤ size) (h2 : size < 65536)
    (h3 : size ≤ mem.length) :
    ∃ r, Arduino.receiveUntilS ⟨clock, fun k => bytes[k]?⟩ mem size 10 = .ok ((cut size bytes).length + 1, r) ∧
      r.mem = cut size bytes ++ [10] ++ mem.drop ((cut size bytes).length + 1) := by
  obtain ⟨bs, t, r, k1, k2, k3, -, k5, k6, k7⟩ := Arduino.receiveUntilS_ok ⟨clock, fun k => bytes[k]?⟩ mem size 10 h1 h2 h3
  have hpre : ∀ i (hi : i < bs.length + t.length), bytes[i]? = (bs.map some ++ t)[i]'(by simpa using hi) := by
    intro i hi
    have hl : r.log.length = bs.length + t.length := by
      have := congrArg List.length k7
      simpa [Arduino.outcomes] using this
    have h0 : (Arduino.outcomes ⟨clock, fun k => bytes[k]?⟩ r.log.length)[i]? = (bs.map some ++ t)[i]? := by rw [k7]
    have h1 : (bs.map some ++ t)[i]? = some ((bs.map some ++ t)[i]'(by simpa using hi)) := List.getElem?_eq_getElem _
    rw [h1] at h0
    simpa [Arduino.outcomes, hl, hi] using h0
  have hbs : bytes.take bs.length = bs := by
    apply List.ext_getElem?
    intro i
    by_cases hi : i < bs.length
    · rw [List.getElem?_take_of_lt hi, hpre i (by omega), List.getElem_append_left (by simpa using hi)]
      simp [hi]
    · rw [List.getElem?_eq_none (by simp; omega), List.getElem?_eq_none (by omega)]
  have hsplit : bytes = bs ++ bytes.drop bs.length := by
    conv => lhs; rw [← List.take_append_drop bs.length bytes, hbs]
  have htw : ∀ tail : List Byte, (tail = [] ∨ ∃ x, tail = 10 :: x) →
      (bs ++ tail).takeWhile (· ≠ (10 : Byte)) = bs := by
    intro tail htail
    rw [List.takeWhile_append_of_pos (by
      intro a ha
      simp only [ne_eq, decide_not, Bool.not_eq_true', decide_eq_false_iff_not]
      exact fun h => k3 (h ▸ ha))]
    rcases htail with rfl | ⟨x, rfl⟩ <;> simp
  have hcut : cut size bytes = bs := by
    unfold cut
    rw [hsplit, List.take_append, List.take_of_length_le (by omega)]
    apply htw
    rcases k6 with ⟨hf, rfl⟩ | ⟨hf, rfl⟩ | ⟨hf, rfl⟩
    · have h := hpre bs.length (by simp)
      rw [List.getElem_append_right (by simp)] at h
      simp only [List.length_map, Nat.sub_self, List.getElem_cons_zero] at h
      obtain ⟨hlt, h⟩ := List.getElem?_eq_some_iff.1 h
      rw [List.drop_eq_getElem_cons hlt, h]
      obtain ⟨m, hm⟩ : ∃ m, size - 1 - bs.length = m + 1 := ⟨size - 1 - bs.length - 1, by omega⟩
      rw [hm]
      exact .inr ⟨_, rfl⟩
    · rw [show size - 1 - bs.length = 0 by omega]
      exact .inl rfl
    · have h := hpre bs.length (by simp)
      rw [List.getElem_append_right (by simp)] at h
      simp only [List.length_map, Nat.sub_self, List.getElem_cons_zero, List.getElem?_eq_none_iff] at h
      rw [List.drop_eq_nil_of_le h]
      exact .inl (by simp)
  rw [hcut]
  exact ⟨r, k1, k5⟩

/-- One round on Arduino. -/
theorem arduino_round {handle : σ → List Byte → Res (σ × List SItem)} {c : Setup} (t : Turn) (s : State σ ADev)
    (hc : c.Fine s.mem) (hu : s.unread = []) {st1 : σ}
    {items : List SItem} (e1 : handle s.st (cut c.size t.early ++ [10]) = .ok (st1, items)) {o' : BOut}
    {ps : List (List Byte)} (f0 : Sends t.junk c.signed s.out items o' ps) (f3 : ∀ p ∈ ps, p.length < 65536) (hne : ps ≠ []) :
    ∃ mem' d' cs, arduinoRound handle c s t = .ok ⟨st1, mem', o', d', []⟩ ∧ c.Fine mem' ∧ d'.timeout = s.dev.timeout ∧
      d'.calls = s.dev.calls ++ cs ∧ ∀ t, written t cs = ps.map (fun p => (100, p)) := by
  obtain ⟨r, k1, k2⟩ := arduino_cut t.clock t.early s.mem c.size hc.pos hc.small hc.room
  have htake : r.mem.take ((cut c.size t.early).length + 1) = cut c.size t.early ++ [10] := by
    rw [k2, show (cut c.size t.early).length + 1 = (cut c.size t.early ++ [10]).length by simp, List.take_left]
  have f1 := f0 _ (fun d p => .ok (arduinoSend (fun _ => t.late) 100 d p)) (arduinoSend (fun _ => t.late) 100)
    (fun _ _ _ => rfl) { s.dev with unread := t.early.drop r.log.length }
  obtain ⟨cs1, c1, c2, c3, c4⟩ := arduino_calls (fun _ => t.late) 100 (by omega) ps f3
    { s.dev with unread := t.early.drop r.log.length }
  rw [if_neg hne] at c4
  refine ⟨r.mem, _, cs1, ?_, ⟨?_, hc.pos, hc.small⟩, c2, c1, c3⟩
  · unfold arduinoRound Turn.env
    rw [hu, List.nil_append, k1]
    simp only [Res.bind_ok, htake, e1, f1, c4]
  · have := hc.room
    rw [k2]; simp; omega

/-- **C120**, ESP32: every request is answered, in order and none twice, however the bytes are spread over the rounds, as long
as each line is complete in time; no byte is lost. -/
theorem esp_serves (handle : σ → List Byte → Res (σ × List SItem)) (c : Setup) (drv : Device.Driver) (port : Int) (cap : Nat)
    (inv : σ → Prop) (hs : Sound handle cap c.signed inv) (T : Nat) (hfuel : c.size ≤ c.fuel)
    (hto : c.timeout = 0 ∨ T ≤ c.timeout) (hto' : c.timeout < 65536) (turns : List Turn)
    (hq : ∀ t ∈ turns, Quick ⟨t.clock, fun _ => none⟩ c.size T) (s : State σ Device.St) (hi : inv s.st)
    (ho : Idle s.out cap) (hc : c.Fine s.mem) (qs : List (List Byte)) (u' : List Byte) (hin : InTime s.unread turns qs u')
    (hlen : ∀ q ∈ qs, q.length + 1 < c.size) :
    ∃ s' ts cs, serve (espRound handle c drv port) s turns = .ok s' ∧ Answers handle cap c.signed s.st qs ts s'.st ∧
      inv s'.st ∧ Idle s'.out cap ∧ c.Fine s'.mem ∧ s'.unread = u' ∧ s'.dev.calls = s.dev.calls ++ cs ∧
      (packets port cs).flatten = wireOf ts ∧
      ((∀ l, 65535 ≤ drv.written l) → onWire drv port s.dev.calls cs = wireOf ts) := by
  induction turns generalizing s qs with
  | nil =>
    cases hin
    exact ⟨s, [], [], rfl, .nil _, hi, ho, hc, rfl, by simp, rfl, fun _ => rfl⟩
  | cons t turns ih =>
    simp only [List.mem_cons, forall_eq_or_imp] at hq
    cases hin with
    | cons _ rest q _ _ _ qs hline hnl hin =>
    simp only [List.mem_cons, forall_eq_or_imp] at hlen
    obtain ⟨st1, items, e1, e2, e3, e4⟩ := hs s.st (q ++ [10]) hi
    obtain ⟨o', ps, tx, f2, f3, f4, f5, f0⟩ := answer t.junk s.out ho items e3 e4
    obtain ⟨cs1, c1, c2, -, c4⟩ := esp_calls drv port ps s.dev
    obtain ⟨mem', hround, hfine⟩ := esp_round drv port hfuel hto hto' hq.1 s hc hline hnl hlen.1 e1 f0
    obtain ⟨s', ts, cs2, g1, g2, g3, g4, g5, g6, g7, g8, g9⟩ := ih hq.2
      ⟨st1, mem', o', ps.foldl (espNext drv port) s.dev, rest ++ t.late⟩ e2 f2 hfine qs hin hlen.2
    refine ⟨s', tx :: ts, cs1 ++ cs2, by rw [serve, hround]; exact g1, .cons _ _ _ _ _ _ _ _ e1 f4 g2, g3, g4, g5, g6, ?_, ?_, ?_⟩
    · rw [g7, c1, List.append_assoc]
    · rw [packets_append, c2, List.flatten_append, f5, g8]
      simp [wireOf]
    · intro hd
      rw [onWire_append, c4 (fun l p hp => by have := f3 p hp; have := hd l; omega), ← c1, g9 hd, f5]
      simp [wireOf]

/-- **C120**, Arduino, whatever arrives and when: each round answers the request it cuts out of the bytes which arrived while
it was waiting, and (finding) forgets all the others; so a second request in the same burst, or one arriving while the answer
is sent, is lost, and a round during which nothing arrives answers an empty request which nobody has made. -/
theorem arduino_serves (handle : σ → List Byte → Res (σ × List SItem)) (c : Setup) (cap : Nat)
    (inv : σ → Prop) (hs : Sound handle cap c.signed inv) (turns : List Turn) (s : State σ ADev) (hi : inv s.st)
    (ho : Idle s.out cap) (hc : c.Fine s.mem) (hu : s.unread = []) :
    ∃ s' ts cs, serve (arduinoRound handle c) s turns = .ok s' ∧
      Answers handle cap c.signed s.st (turns.map fun t => cut c.size t.early) ts s'.st ∧
      inv s'.st ∧ Idle s'.out cap ∧ c.Fine s'.mem ∧ s'.unread = [] ∧ s'.dev.timeout = s.dev.timeout ∧
      s'.dev.calls = s.dev.calls ++ cs ∧ ((written s.dev.timeout cs).map Prod.snd).flatten = wireOf ts := by
  induction turns generalizing s with
  | nil => exact ⟨s, [], [], rfl, .nil _, hi, ho, hc, hu, rfl, by simp, rfl⟩
  | cons t turns ih =>
    obtain ⟨st1, items, e1, e2, e3, e4⟩ := hs s.st (cut c.size t.early ++ [10]) hi
    obtain ⟨o', ps, tx, f2, f3, f4, f5, f0⟩ := answer t.junk s.out ho items e3 e4
    obtain ⟨mem', d', cs1, hround, hfine, c2, c1, c3⟩ := arduino_round t s hc hu e1 f0 f3 (by rintro rfl; simp at f5)
    obtain ⟨s', ts, cs2, g1, g2, g3, g4, g5, g6, g7, g8, g9⟩ := ih ⟨st1, mem', o', d', []⟩ e2 f2 hfine rfl
    simp only [c2] at g7 g9
    refine ⟨s', tx :: ts, cs1 ++ cs2, by rw [serve, hround]; exact g1, .cons _ _ _ _ _ _ _ _ e1 f4 g2, g3, g4, g5, g6, g7, ?_, ?_⟩
    · rw [g8, c1, List.append_assoc]
    · rw [written_snd_append, List.flatten_append, g9, c3, List.map_map,
        show (Prod.snd ∘ fun p : List Byte => (100, p)) = id from rfl, List.map_id, f5]
      simp [wireOf]

/-- Nothing is lost: what is read and what is waiting in the end is what has arrived. -/
theorem inTime_lossless {u u' : List Byte} {turns : List Turn} {qs : List (List Byte)} (h : InTime u turns qs u') :
    u ++ turns.flatMap (fun t => t.early ++ t.late) = wireOf qs ++ u' := by
  induction h with
  | nil u => simp [wireOf]
  | cons u rest q u' t turns qs hl _ _ ih =>
    simp only [List.flatMap_cons, wireOf] at ih ⊢
    rw [← List.append_assoc, ← List.append_assoc, hl]
    simp only [List.append_assoc, List.cons_append, List.nil_append] at ih ⊢
    rw [ih]

/-- The cut of a line, whatever follows it. -/
theorem cut_line (size : Nat) (q rest : List Byte) (hnl : 10 ∉ q) (hlen : q.length + 1 < size) : cut size (q ++ 10 :: rest) = q := by
  unfold cut
  rw [List.take_append, List.take_of_length_le (by omega), List.takeWhile_append_of_pos (by
    intro a ha
    simp only [ne_eq, decide_not, Bool.not_eq_true', decide_eq_false_iff_not]
    exact fun h => hnl (h ▸ ha))]
  obtain ⟨m, hm⟩ : ∃ m, size - 1 - q.length = m + 1 := ⟨size - 1 - q.length - 1, by omega⟩
  rw [hm]
  simp

/-- The client sends one line at a time and waits for the answer before it sends the next. -/
def LockStep (turns : List Turn) (qs : List (List Byte)) : Prop :=
  List.Forall₂ (fun t q => t.early = q ++ [10] ∧ t.late = []) turns qs

theorem lockStep_inTime {turns : List Turn} {qs : List (List Byte)} (h : LockStep turns qs) (hnl : ∀ q ∈ qs, 10 ∉ q) :
    InTime [] turns qs [] := by
  induction h with
  | nil => exact .nil _
  | cons h _ ih =>
    simp only [List.mem_cons, forall_eq_or_imp] at hnl
    refine .cons _ [] _ _ _ _ _ (by rw [h.1]; rfl) hnl.1 ?_
    rw [h.2]
    exact ih hnl.2

theorem lockStep_cut {turns : List Turn} {qs : List (List Byte)} (h : LockStep turns qs) (size : Nat) (hnl : ∀ q ∈ qs, 10 ∉ q)
    (hlen : ∀ q ∈ qs, q.length + 1 < size) : (turns.map fun t => cut size t.early) = qs := by
  induction h with
  | nil => rfl
  | cons h _ ih =>
    simp only [List.mem_cons, forall_eq_or_imp] at hnl hlen
    rw [List.map_cons, ih hnl.2 hlen.2, h.1, cut_line size _ [] hnl.1 hlen.1]

/-- **C120**: to a client which waits for each answer the two platforms look the same: they answer the same requests, with
the same packets, and end in the same state. -/
theorem lockStep_alike (handle : σ → List Byte → Res (σ × List SItem)) (c : Setup) (drv : Device.Driver) (port : Int) (cap : Nat)
    (inv : σ → Prop) (hs : Sound handle cap c.signed inv) (T : Nat) (hfuel : c.size ≤ c.fuel)
    (hto : c.timeout = 0 ∨ T ≤ c.timeout) (hto' : c.timeout < 65536) (turns : List Turn)
    (hq : ∀ t ∈ turns, Quick ⟨t.clock, fun _ => none⟩ c.size T) (e : State σ Device.St) (a : State σ ADev)
    (hst : e.st = a.st) (hout : e.out = a.out) (hi : inv e.st) (ho : Idle e.out cap) (hce : c.Fine e.mem) (hca : c.Fine a.mem)
    (hue : e.unread = []) (hua : a.unread = []) (qs : List (List Byte)) (hl : LockStep turns qs)
    (hnl : ∀ q ∈ qs, 10 ∉ q) (hlen : ∀ q ∈ qs, q.length + 1 < c.size) :
    ∃ e' a' ts cs cs', serve (espRound handle c drv port) e turns = .ok e' ∧ serve (arduinoRound handle c) a turns = .ok a' ∧
      Answers handle cap c.signed e.st qs ts e'.st ∧ e'.st = a'.st ∧ e'.out = a'.out ∧ e'.unread = [] ∧ a'.unread = [] ∧
      e'.dev.calls = e.dev.calls ++ cs ∧ a'.dev.calls = a.dev.calls ++ cs' ∧
      packets port cs = (written a.dev.timeout cs').map Prod.snd ∧ (packets port cs).flatten = wireOf ts := by
  induction hl generalizing e a with
  | nil => exact ⟨e, a, [], [], [], rfl, rfl, .nil _, hst, hout, hue, hua, by simp, by simp, rfl, rfl⟩
  | @cons t q turns qs h _ ih =>
    simp only [List.mem_cons, forall_eq_or_imp] at hnl hlen hq
    obtain ⟨st1, items, e1, e2, e3, e4⟩ := hs e.st (q ++ [10]) hi
    obtain ⟨o', ps, tx, f2, f3, f4, f5, f0⟩ := answer t.junk e.out ho items e3 e4
    obtain ⟨cs1, c1, c2, -, -⟩ := esp_calls drv port ps e.dev
    obtain ⟨m1, r1, r2⟩ := esp_round drv port hfuel hto hto' hq.1 e hce (rest := []) (by rw [hue, h.1]; rfl) hnl.1 hlen.1 e1 f0
    have hcut : cut c.size t.early = q := by rw [h.1, cut_line c.size _ [] hnl.1 hlen.1]
    obtain ⟨m2, d', cs2, r3, r4, r5, r6, r7⟩ := arduino_round t a hca hua (by rw [hcut, ← hst]; exact e1) (hout ▸ f0) f3
      (by rintro rfl; simp at f5)
    obtain ⟨e', a', ts, cs3, cs4, g1, g2, g3, g4, g5, g6, g7, g8, g9, g10, g11⟩ := ih hq.2
      ⟨st1, m1, o', ps.foldl (espNext drv port) e.dev, [] ++ t.late⟩ ⟨st1, m2, o', d', []⟩ rfl rfl e2 f2 r2 r4 (by simp [h.2]) rfl
      hnl.2 hlen.2
    refine ⟨e', a', tx :: ts, cs1 ++ cs3, cs2 ++ cs4, by rw [serve, r1]; exact g1, by rw [serve, r3]; exact g2,
      .cons _ _ _ _ _ _ _ _ e1 f4 g3, g4, g5, g6, g7, by rw [g8, c1, List.append_assoc],
      by rw [g9, r6, List.append_assoc], ?_, ?_⟩
    · rw [packets_append, c2, g10, written_snd_append, r7, List.map_map,
        show (Prod.snd ∘ fun p : List Byte => (100, p)) = id from rfl, List.map_id]
      simp only [r5]
    · rw [packets_append, c2, List.flatten_append, f5, g11]
      simp [wireOf]

/-- **C120** is false on Arduino for clients which do not wait: of two requests sent in one go, which an ESP32 would both
answer, an Arduino answers the first and then an empty one. -/
theorem arduino_forgets (size : Nat) (q1 q2 : List Byte) (h1 : 10 ∉ q1) (h2 : 10 ∉ q2) (hl : q1.length + 1 < size)
    (t1 t2 : Turn) (he : t1.early = q1 ++ [10] ++ (q2 ++ [10])) (hlate : t1.late = []) (he2 : t2.early = []) (hlate2 : t2.late = []) :
    InTime [] [t1, t2] [q1, q2] [] ∧ [t1, t2].map (fun t => cut size t.early) = [q1, []] := by
  constructor
  · refine .cons _ (q2 ++ [10]) _ _ _ _ _ (by rw [he]; simp) h1 ?_
    rw [hlate]
    refine .cons _ [] _ _ _ _ _ (by rw [he2]; simp) h2 ?_
    rw [hlate2]
    exact .nil _
  · simp only [List.map_cons, List.map_nil]
    rw [he, show q1 ++ [10] ++ (q2 ++ [10]) = q1 ++ 10 :: (q2 ++ [10]) by simp, cut_line size _ _ h1 hl, he2]
    simp [cut]

/-! ### Concrete cases -/

theorem not_wrong {cap : Nat} {signed : Bool} {i : SItem} (h : ∀ s : Shown, s.width = 0 → ¬ Undefined cap s (i.asked signed)) :
    ¬ Wrong cap signed [i] := by
  intro hw
  cases hw with
  | undef _ _ _ hu => exact h _ rfl hu
  | step _ _ _ _ _ _ _ h => cases h

/-- A program which counts its requests and prints the count. -/
def count (n : Nat) (_ : List Byte) : Res (Nat × List SItem) := .ok ((n + 1) % 1000, [.int ((n + 1) % 1000 : Nat)])

theorem count_sound : Sound count 8 true (fun n => n < 1000) := by
  intro n p hn
  refine ⟨_, _, rfl, by omega, ?_, ?_⟩
  · intro i hi
    cases List.mem_singleton.1 hi
    exact trivial
  · refine not_wrong (fun s hs => ?_)
    rintro ⟨d, -, -, h, -⟩
    omega

def setup : Setup := ⟨8, 0, 8, true⟩
def sampleDriver : Device.Driver := ⟨fun _ => true, fun _ => 65535, fun _ => none, fun _ => 128⟩
def espStart : State Nat Device.St := ⟨0, List.replicate 8 0, BOut.new (List.replicate 8 0), ⟨[], fun _ => true⟩, []⟩
def arduinoStart : State Nat ADev := ⟨0, List.replicate 8 0, BOut.new (List.replicate 8 0), ⟨1000, [], []⟩, []⟩
def turn (early late : List Byte) : Turn := ⟨early, late, fun k => BitVec.ofNat 32 (min k 1000), fun _ => 0⟩

/-- What a program has sent, on ESP32 and on Arduino. -/
def sentE : Res (State σ Device.St) → Option (List (List Byte))
  | .ok s => some (packets 1 s.dev.calls)
  | _ => none
def sentA : Res (State σ ADev) → Option (List (List Byte))
  | .ok s => some ((written 1000 s.dev.calls).map Prod.snd)
  | _ => none

/-- One byte at a time while answers are sent: on ESP32 nothing is lost. -/
example : sentE (serve (espRound count setup sampleDriver 1) espStart [turn [97, 10, 98] [99], turn [10] [10], turn [] []]) =
    some [[0x31, 10], [0x32, 10], [0x33, 10]] := by decide +kernel

example : InTime [] [turn [97, 10, 98] [99], turn [10] [10], turn [] []] [[97], [98, 99], []] [] :=
  .cons _ [98] _ _ _ _ _ rfl (by decide) (.cons _ [] _ _ _ _ _ rfl (by decide) (.cons _ [] _ _ _ _ _ rfl (by decide) (.nil _)))

/-- A program which prints back what it receives: to two requests in one burst, an ESP32 answers both, an Arduino the first
one and an empty one. -/
def echo (_ : Unit) (p : List Byte) : Res (Unit × List SItem) := .ok ((), [.bytes p])

example : sentE (serve (espRound echo setup sampleDriver 1) ⟨(), espStart.mem, espStart.out, espStart.dev, []⟩
      [turn [97, 10, 98, 10] [], turn [] []]) =
    some [[0x36, 0x31, 0x30, 0x41, 10], [0x36, 0x32, 0x30, 0x41, 10]] ∧
    sentA (serve (arduinoRound echo setup) ⟨(), arduinoStart.mem, arduinoStart.out, arduinoStart.dev, []⟩
      [turn [97, 10, 98, 10] [], turn [] []]) =
    some [[0x36, 0x31, 0x30, 0x41, 10], [0x30, 0x41, 10]] := by decide +kernel

example : LockStep [turn [97, 10] [], turn [98, 99, 10] []] [[97], [98, 99]] := .cons ⟨rfl, rfl⟩ (.cons ⟨rfl, rfl⟩ .nil)
example : Idle espStart.out 8 ∧ setup.Fine espStart.mem ∧ Quick ⟨(turn [] []).clock, fun _ => none⟩ setup.size 20 := by
  refine ⟨⟨by decide, by decide, rfl, by decide, by decide⟩, ⟨by decide, by decide, by decide⟩, ?_⟩
  intro i j h1 h2
  simp only [turn, setup, BitVec.toNat_ofNat] at h2 ⊢
  omega

end Verif.Uart.Server
