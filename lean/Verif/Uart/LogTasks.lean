import Verif.Uart.DebugLog
/-!
# C135: tasks which print on one serial port

`SerialOut` has no lock.  Tasks print lines, `out << item << … << endl`, and take turns: a schedule says which task performs
the next step.  A step is an insertion of one item, one of the three statements of `operator<<(endl)`, or (in these) one call
of `Send`.  `Send` is one call of the driver which moves data, `uart_write_bytes` (esp32-esp-idf/SimpleUartDevice.cpp:63-71);
the driver serialises such calls.

Simplification: steps of one task are not divided further.  With an output of its own for every task that makes no
difference, as nothing but the calls of the driver is shared.  With a shared output the code has a data race besides; the
findings only need the coarse interleavings.
-/
namespace Verif.Uart.LogTasks
open Verif Verif.Out Verif.Uart.Wire Verif.Uart.Lines Verif.Uart.Server Verif.Uart.DebugLog

/-! ## The code, step by step -/

/-- Steps of a task which prints. -/
inductive Micro where
  /-- `out << item`, SerialOut.h:18-83 -/
  | put (junk : Nat → Byte) (i : SItem)
  /-- `if (size() == capacity()) flush();`, SerialOut.h:93-96 -/
  | full
  /-- `bufferedOut.addChar('\n');`, SerialOut.h:97 -/
  | newline
  /-- `flush();`, SerialOut.h:98 -/
  | flush

/-- A line: its items, and what `std::to_chars` leaves behind when there is not enough room. -/
abbrev Line := (Nat → Byte) × List SItem

/-- `out << item << … << endl`. -/
def Line.steps (l : Line) : List Micro := l.2.map (.put l.1) ++ [.full, .newline, .flush]

/-- The lines one after the other. -/
def steps (ls : List Line) : List Micro := ls.flatMap Line.steps

/-- One step: the output behind it, and the packet handed to `Send` (SerialOut.cpp:4-9). -/
def Micro.run (signed : Bool) (o : BOut) : Micro → Res (BOut × Option (List Byte))
  | .put junk i => do
    let r ← SOut.item junk signed ⟨o, []⟩ i
    .ok (r.out, none)
  | .full => if o.size = o.capacity then .ok (o.clear, some o.data) else .ok (o, none)
  | .newline => do
    let o ← o.addChar 10
    .ok (o, none)
  | .flush => .ok (o.clear, some o.data)

/-- The packet, if there is one, is sent. -/
def sendOpt (send : δ → List Byte → Res δ) (d : δ) : Option (List Byte) → Res δ
  | none => .ok d
  | some p => send d p

/-- One step of a task, with its output and its remaining steps. -/
def turn (send : δ → List Byte → Res δ) (signed : Bool) (o : BOut) (d : δ) : List Micro → Res (BOut × List Micro × δ)
  | [] => .ok (o, [], d)
  | m :: ms => do
    let (o, p) ← m.run signed o
    let d ← sendOpt send d p
    .ok (o, ms, d)

/-- All steps of one task, without anybody else. -/
def solo (send : δ → List Byte → Res δ) (signed : Bool) (o : BOut) (d : δ) : List Micro → Res (BOut × δ)
  | [] => .ok (o, d)
  | m :: ms => do
    let (o, p) ← m.run signed o
    let d ← sendOpt send d p
    solo send signed o d ms

/-- A task with an output of its own. -/
structure Printer where
  out : BOut
  todo : List Micro

/-- Tasks with outputs of their own on one device. -/
def interleave (send : δ → List Byte → Res δ) (signed : Bool) : List Nat → List Printer → δ → Res (List Printer × δ)
  | [], ts, d => .ok (ts, d)
  | i :: s, ts, d => match ts[i]? with
    | none => interleave send signed s ts d
    | some t => do
      let (o, ms, d) ← turn send signed t.out d t.todo
      interleave send signed s (ts.set i ⟨o, ms⟩) d

/-- Tasks which share one output, for example `SerialDebug`. -/
def interleaveShared (send : δ → List Byte → Res δ) (signed : Bool) :
    List Nat → BOut → List (List Micro) → δ → Res (BOut × List (List Micro) × δ)
  | [], o, ts, d => .ok (o, ts, d)
  | i :: s, o, ts, d => match ts[i]? with
    | none => interleaveShared send signed s o ts d
    | some t => do
      let (o, ms, d) ← turn send signed o d t
      interleaveShared send signed s o (ts.set i ms) d

/-- Without anybody else the steps of a line are the printing of C85, C87 and C123. -/
theorem line_solo (send : δ → List Byte → Res δ) (signed : Bool) (l : Line) (o : BOut) (d : δ) :
    solo send signed o d l.steps =
      (do let w ← WOut.ops send l.1 signed ⟨o, d⟩ (l.2.map .put ++ [.endl]); .ok (w.out, w.dev)) := by
  obtain ⟨junk, items⟩ := l
  unfold Line.steps
  simp only
  induction items generalizing o with
  | nil =>
    simp only [List.map_nil, List.nil_append, solo, WOut.ops, WOut.op, Micro.run]
    by_cases hf : o.size = o.capacity
    · simp only [hf, if_true, Res.bind_ok, sendOpt, WOut.flush]
      cases send d o.data with
      | ub => rfl
      | hang => rfl
      | ok d =>
        simp only [Res.bind_ok]
        cases o.clear.addChar 10 with
        | ub => rfl
        | hang => rfl
        | ok o =>
          simp only [Res.bind_ok]
          cases send d o.data <;> rfl
    · simp only [hf, if_false, Res.bind_ok, sendOpt, WOut.flush]
      cases o.addChar 10 with
      | ub => rfl
      | hang => rfl
      | ok o =>
        simp only [Res.bind_ok]
        cases send d o.data <;> rfl
  | cons i items ih =>
    simp only [List.map_cons, List.cons_append, solo, WOut.ops, WOut.op, Micro.run]
    cases SOut.item junk signed ⟨o, []⟩ i with
    | ub => rfl
    | hang => rfl
    | ok r =>
      simp only [Res.bind_ok, sendOpt]
      exact ih r.out

/-! ## Specification -/

/-- `Merge ls m`: `m` consists of the elements of the lists `ls`, those of each list in their order. -/
inductive Merge {α : Type} : List (List α) → List α → Prop where
  | nil (ls : List (List α)) : (∀ l ∈ ls, l = []) → Merge ls []
  | cons (ls : List (List α)) (i : Nat) (x : α) (l m : List α) : ls[i]? = some (x :: l) → Merge (ls.set i l) m →
      Merge ls (x :: m)

/-- The packets of a line with the text `t`: one with the newline, or two if the text fills the buffer. -/
def packetsOf (cap : Nat) (t : List Byte) : List (List Byte) := if t.length < cap then [t ++ [10]] else [t, [10]]

/-- A task at its beginning: an idle output and correct lines. -/
structure Ready (signed : Bool) (o : BOut) (ls : List Line) : Prop where
  idle : Idle o o.capacity
  sane : ∀ l ∈ ls, (∀ i ∈ l.2, i.Valid) ∧ ¬ Wrong o.capacity signed l.2

/-- No line fills the buffer. -/
def Short (signed : Bool) (o : BOut) (ls : List Line) : Prop :=
  ∀ l ∈ ls, ∀ t, Reads o.capacity signed l.2 t → t.length < o.capacity

/-- The texts of the lines of a task. -/
def Texts (signed : Bool) (t : BOut × List Line) (texts : List (List Byte)) : Prop :=
  List.Forall₂ (Reads t.1.capacity signed) (t.2.map (·.2)) texts

/-- The tasks at their beginning. -/
def begin (ts : List (BOut × List Line)) : List Printer := ts.map fun t => ⟨t.1, steps t.2⟩

/-- Every task has enough turns. -/
def Enough (sched : List Nat) (ts : List Printer) : Prop :=
  ∀ i t, ts[i]? = some t → t.todo.length ≤ sched.count i

/-! ## Proof -/

/-- All steps of a task and the packets it hands to `Send`. -/
def trace (signed : Bool) (o : BOut) : List Micro → Res (BOut × List (List Byte))
  | [] => .ok (o, [])
  | m :: ms => do
    let (o, p) ← m.run signed o
    let (o, ps) ← trace signed o ms
    .ok (o, p.toList ++ ps)

theorem trace_append {signed : Bool} {a b : List Micro} {o o1 o2 : BOut} {ps qs : List (List Byte)}
    (h1 : trace signed o a = .ok (o1, ps)) (h2 : trace signed o1 b = .ok (o2, qs)) :
    trace signed o (a ++ b) = .ok (o2, ps ++ qs) := by
  induction a generalizing o ps with
  | nil => cases h1; exact h2
  | cons m a ih =>
    rw [trace, Res.bind_eq_ok] at h1
    obtain ⟨⟨o3, p⟩, e1, h1⟩ := h1
    rw [Res.bind_eq_ok] at h1
    obtain ⟨⟨o4, ps'⟩, e2, h1⟩ := h1
    cases h1
    rw [List.cons_append, trace, e1, Res.bind_ok]
    simp only
    rw [ih e2, Res.bind_ok]
    simp

theorem solo_trace (signed : Bool) (ms : List Micro) (o : BOut) (d : List (List Byte)) :
    solo (fun d p => .ok (d ++ [p])) signed o d ms = (do let (o, ps) ← trace signed o ms; .ok (o, d ++ ps)) := by
  induction ms generalizing o d with
  | nil => simp [solo, trace]
  | cons m ms ih =>
    rw [solo, trace]
    cases m.run signed o with
    | ub => rfl
    | hang => rfl
    | ok r =>
      obtain ⟨o, p⟩ := r
      simp only [Res.bind_ok]
      cases p with
      | none =>
        simp only [sendOpt, Res.bind_ok, ih, Option.toList_none, List.nil_append]
        cases trace signed o ms <;> rfl
      | some p =>
        simp only [sendOpt, Res.bind_ok, ih]
        cases trace signed o ms <;> simp

theorem run_small {signed : Bool} {o o' : BOut} {m : Micro} {p : List Byte} (h : m.run signed o = .ok (o', some p)) :
    p.length < 65536 := by
  have hd : o.data.length < 65536 := by
    have := Nat.mod_lt o.pos (show 0 < 2 ^ 16 by decide)
    simp only [BOut.data, List.length_take]
    omega
  cases m with
  | put junk i =>
    rw [Micro.run, Res.bind_eq_ok] at h
    obtain ⟨_, _, h⟩ := h
    cases h
  | full =>
    rw [Micro.run] at h
    split at h <;> cases h
    exact hd
  | newline =>
    rw [Micro.run, Res.bind_eq_ok] at h
    obtain ⟨_, _, h⟩ := h
    cases h
  | flush => cases h; exact hd

/-- The packets of a line within a program. -/
theorem serial_line_packets {cap : Nat} {signed : Bool} {s : Shown} {l : List SItem} {ps : List (List Byte)} {r : Shown}
    (h : Serial cap signed s (l.map .put ++ [.endl]) ps (some r)) :
    r = .fresh ∧ ∃ s1, Effects cap s (l.map (·.asked signed)) (some s1) ∧ ps = packetsOf cap s1.text := by
  induction l generalizing s ps with
  | nil =>
    simp only [List.map_nil, List.nil_append] at h ⊢
    generalize hr : some r = r' at h
    cases h with
    | endl _ _ ps' _ hl h' =>
      cases h'
      cases hr
      exact ⟨rfl, s, .nil _, by rw [packetsOf, if_pos hl]⟩
    | endlFull _ _ ps' _ hl h' =>
      cases h'
      cases hr
      exact ⟨rfl, s, .nil _, by rw [packetsOf, if_neg (by omega)]⟩
  | cons i l ih =>
    simp only [List.map_cons, List.cons_append] at h ⊢
    cases h with
    | put _ s1 _ _ _ _ hu he h' =>
      obtain ⟨k1, s2, k2, k3⟩ := ih h'
      exact ⟨k1, s2, .step _ _ _ _ _ hu he k2, k3⟩

theorem line_trace {signed : Bool} {cap : Nat} {o : BOut} (hi : Idle o cap) (l : Line) (hv : ∀ i ∈ l.2, i.Valid)
    (hw : ¬ Wrong cap signed l.2) :
    ∃ o' t, Idle o' cap ∧ Reads cap signed l.2 t ∧ trace signed o l.steps = .ok (o', packetsOf cap t) := by
  have hval : ∀ op ∈ l.2.map SOp.put ++ [.endl], op.Valid := by
    intro op hop
    simp only [List.mem_append, List.mem_map, List.mem_singleton] at hop
    rcases hop with ⟨i, h1, rfl⟩ | rfl
    · exact hv i h1
    · exact trivial
  rcases serial_exact l.1 signed ⟨o, []⟩ hi.wf (by simp only [hi.size]; exact hi.room) (by simp only [hi.size]; exact hi.small)
    _ hval with ⟨-, ps, g⟩ | ⟨s', ps, g1, g2, g3, g4, g5⟩
  · simp only [hi.size, hi.fresh] at g
    rcases serial_line g with ⟨s1, ps', -, k2, -⟩ | ⟨-, k⟩
    · cases k2
    · exact absurd k hw
  · simp only [hi.size, hi.fresh] at g5 g3
    obtain ⟨k1, s1, k2, k3⟩ := serial_line_packets g5
    refine ⟨s'.out, s1.text, ⟨g2, g3, k1, hi.room, hi.small⟩, ⟨s1, k2, rfl⟩, ?_⟩
    obtain ⟨qs, m1, -, m3⟩ := (wire_sends (fun d p => .ok (d ++ [p])) (fun (d : List (List Byte)) p => d ++ [p])
      (fun _ _ _ => rfl) l.1 signed (l.2.map .put ++ [.endl]) o [] []).2 s' g1
    obtain rfl : ps = qs := by rw [g4] at m1; simpa using m1
    have hfold : ∀ (qs acc : List (List Byte)), qs.foldl (fun d p => d ++ [p]) acc = acc ++ qs := by
      intro qs
      induction qs with
      | nil => simp
      | cons q qs ih => intro acc; rw [List.foldl_cons, ih]; simp
    have h := line_solo (fun d p => .ok (d ++ [p])) signed l o []
    rw [m3, Res.bind_ok, solo_trace, hfold] at h
    rw [Res.bind_eq_ok] at h
    obtain ⟨⟨o2, qs⟩, h1, h2⟩ := h
    rw [h1, ← k3]
    simp only [List.nil_append, Res.ok.injEq, Prod.mk.injEq] at h2 ⊢
    exact h2

theorem steps_trace {signed : Bool} {cap : Nat} (ls : List Line)
    (hs : ∀ l ∈ ls, (∀ i ∈ l.2, i.Valid) ∧ ¬ Wrong cap signed l.2) (o : BOut) (hi : Idle o cap) :
    ∃ o' texts, List.Forall₂ (Reads cap signed) (ls.map (·.2)) texts ∧
      trace signed o (steps ls) = .ok (o', texts.flatMap (packetsOf cap)) := by
  induction ls generalizing o with
  | nil => exact ⟨o, [], .nil, rfl⟩
  | cons l ls ih =>
    obtain ⟨o1, t, h1, h2, h3⟩ := line_trace hi l (hs l (by simp)).1 (hs l (by simp)).2
    obtain ⟨o2, texts, k1, k2⟩ := ih (fun l hl => hs l (by simp [hl])) o1 h1
    exact ⟨o2, t :: texts, .cons h2 k1, by simpa [steps] using trace_append h3 k2⟩

/-- The tasks will send the packets `rs`, each if alone. -/
def Will (signed : Bool) (ts : List Printer) (rs : List (List (List Byte))) : Prop :=
  List.Forall₂ (fun (t : Printer) r => ∃ o', trace signed t.out t.todo = .ok (o', r)) ts rs

theorem forall₂_get {R : α → β → Prop} {as : List α} {bs : List β} (h : List.Forall₂ R as bs) {i : Nat} {a : α}
    (hi : as[i]? = some a) : ∃ b, bs[i]? = some b ∧ R a b ∧ ∀ a' b', R a' b' → List.Forall₂ R (as.set i a') (bs.set i b') := by
  induction h generalizing i with
  | nil => simp at hi
  | @cons x y as bs hxy h ih =>
    cases i with
    | zero =>
      simp only [List.getElem?_cons_zero, Option.some.injEq] at hi
      subst hi
      exact ⟨y, rfl, hxy, fun a' b' h' => .cons h' h⟩
    | succ i =>
      rw [List.getElem?_cons_succ] at hi
      obtain ⟨b, h1, h2, h3⟩ := ih hi
      exact ⟨b, h1, h2, fun a' b' h' => .cons hxy (h3 a' b' h')⟩

theorem merged (send : δ → List Byte → Res δ) (f : δ → List Byte → δ)
    (hf : ∀ d p, p.length < 65536 → send d p = .ok (f d p)) (signed : Bool) (sched : List Nat) (ts : List Printer)
    (rs : List (List (List Byte))) (h : Will signed ts rs) (d : δ) :
    ∃ ts' rs' ps, interleave send signed sched ts d = .ok (ts', ps.foldl f d) ∧ Will signed ts' rs' ∧
      (∀ m, Merge rs' m → Merge rs (ps ++ m)) ∧
      (∀ (i : Nat) (t : Printer), ts[i]? = some t → ∃ t' : Printer, ts'[i]? = some t' ∧ t'.todo = t.todo.drop (sched.count i)) ∧
      ts'.length = ts.length ∧ ∀ p ∈ ps, p.length < 65536 := by
  induction sched generalizing ts rs d with
  | nil => exact ⟨ts, rs, [], rfl, h, fun m hm => hm, fun i t ht => ⟨t, ht, by simp⟩, rfl, by simp⟩
  | cons i sched ih =>
    rw [interleave]
    cases hi : ts[i]? with
    | none =>
      obtain ⟨ts', rs', ps, k1, k2, k3, k4, k5, k6⟩ := ih ts rs h d
      refine ⟨ts', rs', ps, k1, k2, k3, ?_, k5, k6⟩
      intro j t ht
      have : i ≠ j := by rintro rfl; rw [hi] at ht; cases ht
      rw [List.count_cons_of_ne this]
      exact k4 j t ht
    | some t =>
      obtain ⟨r, h1, ⟨o', h2⟩, h3⟩ := forall₂_get h hi
      simp only
      have hlt : i < ts.length := (List.getElem?_eq_some_iff.1 hi).1
      obtain ⟨o, todo⟩ := t
      cases todo with
      | nil =>
        rw [turn, Res.bind_ok]
        simp only
        obtain ⟨ts', rs', ps, k1, k2, k3, k4, k5, k6⟩ := ih (ts.set i ⟨o, []⟩) (rs.set i r) (h3 _ _ ⟨o', h2⟩) d
        refine ⟨ts', rs', ps, k1, k2, ?_, ?_, by rw [k5, List.length_set], k6⟩
        · have : rs.set i r = rs := by
            rw [List.getElem?_eq_some_iff] at h1
            obtain ⟨_, h1⟩ := h1
            rw [← h1, List.set_getElem_self]
          rwa [this] at k3
        · intro j t ht
          by_cases hj : i = j
          · subst hj
            rw [hi] at ht
            cases ht
            obtain ⟨t', g1, g2⟩ := k4 i ⟨o, []⟩ (by rw [List.getElem?_set_self hlt])
            exact ⟨t', g1, by simpa using g2⟩
          · rw [List.count_cons_of_ne hj]
            exact k4 j t (by rwa [List.getElem?_set_ne hj])
      | cons m ms =>
        rw [trace, Res.bind_eq_ok] at h2
        obtain ⟨⟨o1, p⟩, e1, h2⟩ := h2
        rw [Res.bind_eq_ok] at h2
        obtain ⟨⟨o2, qs⟩, e2, h2⟩ := h2
        simp only [Res.ok.injEq, Prod.mk.injEq] at h2
        obtain ⟨-, rfl⟩ := h2
        rw [turn, e1, Res.bind_ok]
        simp only
        have hs : sendOpt send d p = .ok (p.toList.foldl f d) := by
          cases p with
          | none => rfl
          | some p => exact hf d p (run_small e1)
        rw [hs, Res.bind_ok, Res.bind_ok]
        simp only
        obtain ⟨ts', rs', ps, k1, k2, k3, k4, k5, k6⟩ := ih (ts.set i ⟨o1, ms⟩) (rs.set i qs) (h3 _ _ ⟨o2, e2⟩) (p.toList.foldl f d)
        refine ⟨ts', rs', p.toList ++ ps, by rw [k1, List.foldl_append], k2, ?_, ?_, by rw [k5, List.length_set], ?_⟩
        · intro m' hm
          have := k3 m' hm
          cases p with
          | none =>
            have hset : rs.set i qs = rs := by
              rw [List.getElem?_eq_some_iff] at h1
              obtain ⟨_, h1⟩ := h1
              simp only [Option.toList_none, List.nil_append] at h1
              rw [← h1, List.set_getElem_self]
            rwa [hset] at this
          | some p => exact .cons rs i p qs _ h1 this
        · intro j t ht
          by_cases hj : i = j
          · subst hj
            rw [hi] at ht
            cases ht
            obtain ⟨t', g1, g2⟩ := k4 i ⟨o1, ms⟩ (by rw [List.getElem?_set_self hlt])
            exact ⟨t', g1, by simpa using g2⟩
          · rw [List.count_cons_of_ne hj]
            exact k4 j t (by rwa [List.getElem?_set_ne hj])
        · intro q hq
          rw [List.mem_append] at hq
          rcases hq with hq | hq
          · rw [Option.mem_toList] at hq
            cases hq
            exact run_small e1
          · exact k6 q hq

theorem begin_will (signed : Bool) (ts : List (BOut × List Line)) (h : ∀ t ∈ ts, Ready signed t.1 t.2) :
    ∃ tss, List.Forall₂ (Texts signed) ts tss ∧
      Will signed (begin ts) (List.zipWith (fun t texts => texts.flatMap (packetsOf t.1.capacity)) ts tss) := by
  induction ts with
  | nil => exact ⟨[], .nil, .nil⟩
  | cons t ts ih =>
    obtain ⟨tss, h1, h2⟩ := ih fun t ht => h t (by simp [ht])
    have ht := h t (by simp)
    obtain ⟨o', texts, k1, k2⟩ := steps_trace t.2 ht.sane t.1 ht.idle
    exact ⟨texts :: tss, .cons k1 h1, .cons ⟨o', k2⟩ h2⟩

theorem merge_map {α β : Type} (g : α → β) {ls : List (List β)} {m : List β} (h : Merge ls m) :
    ∀ (as : List (List α)), ls = as.map (·.map g) → ∃ m', m = m'.map g ∧ Merge as m' := by
  induction h with
  | nil ls hl =>
    rintro as rfl
    exact ⟨[], rfl, .nil _ fun l h => by simpa using hl (l.map g) (List.mem_map_of_mem h)⟩
  | cons ls i x l m hi _ ih =>
    rintro as rfl
    rw [List.getElem?_map, Option.map_eq_some_iff] at hi
    obtain ⟨a, h1, h2⟩ := hi
    cases a with
    | nil => cases h2
    | cons y a =>
      simp only [List.map_cons, List.cons.injEq] at h2
      obtain ⟨rfl, rfl⟩ := h2
      obtain ⟨m', rfl, k⟩ := ih (as.set i a) (by rw [List.map_set])
      exact ⟨y :: m', rfl, .cons as i y a m' h1 k⟩

/-! ## Properties -/

/-- **C135**: tasks with outputs of their own on one port, for all tasks, lines, schedules and devices.  Nothing goes wrong,
every task which has enough turns comes to its end, and when all have, the packets on the device are those each task would
have sent alone, each in one piece and in its order. -/
theorem packets_whole (send : δ → List Byte → Res δ) (f : δ → List Byte → δ)
    (hf : ∀ d p, p.length < 65536 → send d p = .ok (f d p)) (signed : Bool) (ts : List (BOut × List Line))
    (h : ∀ t ∈ ts, Ready signed t.1 t.2) (sched : List Nat) (d : δ) :
    ∃ ts' d', interleave send signed sched (begin ts) d = .ok (ts', d') ∧
      (∀ (i : Nat) (t : Printer), (begin ts)[i]? = some t → ∃ t' : Printer, ts'[i]? = some t' ∧ t'.todo = t.todo.drop (sched.count i)) ∧
      (Enough sched (begin ts) → ∃ tss ps, List.Forall₂ (Texts signed) ts tss ∧
        Merge (List.zipWith (fun t texts => texts.flatMap (packetsOf t.1.capacity)) ts tss) ps ∧ d' = ps.foldl f d ∧ ∀ p ∈ ps, p.length < 65536) := by
  obtain ⟨tss, h1, h2⟩ := begin_will signed ts h
  obtain ⟨ts', rs', ps, k1, k2, k3, k4, k5, k6⟩ := merged send f hf signed sched (begin ts) _ h2 d
  refine ⟨ts', _, k1, k4, fun he => ⟨tss, ps, h1, ?_, rfl, k6⟩⟩
  rw [← List.append_nil ps]
  refine k3 [] (.nil _ ?_)
  have hdone : ∀ t ∈ ts', t.todo = [] := by
    intro t ht
    obtain ⟨i, hi⟩ := List.mem_iff_getElem?.1 ht
    have hlt : i < (begin ts).length := by rw [← k5]; exact (List.getElem?_eq_some_iff.1 hi).1
    obtain ⟨t', g1, g2⟩ := k4 i _ (List.getElem?_eq_getElem hlt)
    rw [hi] at g1
    cases g1
    rw [g2, List.drop_eq_nil_iff]
    exact he i _ (List.getElem?_eq_getElem hlt)
  clear k1 k3 k4 k5 h2 he
  induction k2 with
  | nil => simp
  | @cons t r ts' rs' htr _ ih =>
    obtain ⟨o', htr⟩ := htr
    rw [hdone t (by simp)] at htr
    cases htr
    simp only [List.mem_cons, forall_eq_or_imp]
    exact ⟨trivial, ih fun t ht => hdone t (by simp [ht])⟩

theorem lines_merge (signed : Bool) (ts : List (BOut × List Line)) (hs : ∀ t ∈ ts, Short signed t.1 t.2)
    (tss : List (List (List Byte))) (h : List.Forall₂ (Texts signed) ts tss) (ps : List (List Byte))
    (hm : Merge (List.zipWith (fun t texts => texts.flatMap (packetsOf t.1.capacity)) ts tss) ps) :
    ∃ m, Merge tss m ∧ ps = m.map (· ++ [10]) := by
  have e : List.zipWith (fun (t : BOut × List Line) texts => texts.flatMap (packetsOf t.1.capacity)) ts tss =
      tss.map (·.map (· ++ [10])) := by
    clear hm
    induction h with
    | nil => rfl
    | @cons t texts ts tss ht _ ih =>
      rw [List.zipWith_cons_cons, List.map_cons, ih fun t h => hs t (by simp [h])]
      congr 1
      have hst : Short signed t.1 t.2 := hs t (by simp)
      obtain ⟨o, ls⟩ := t
      unfold Texts at ht
      simp only at ht hst ⊢
      clear ih hs
      induction ls generalizing texts with
      | nil => cases ht; rfl
      | cons l ls ih =>
        cases ht with
        | @cons _ x _ xs hx hxs =>
          rw [List.flatMap_cons, List.map_cons, ih (texts := xs) hxs fun l h => hst l (by simp [h])]
          rw [packetsOf, if_pos (hst l (by simp) x hx)]
          rfl
  obtain ⟨m, h1, h2⟩ := merge_map (· ++ [10]) hm tss e
  exact ⟨m, h2, h1⟩

/-- **C135**, ESP32: if no line fills its buffer and the driver accepts what it is given, then what is on the wire are the lines
of all tasks, each whole, those of each task in their order. -/
theorem esp_lines_whole (drv : Device.Driver) (port : Int) (hd : ∀ l, (65535 : Int) ≤ drv.written l) (signed : Bool)
    (ts : List (BOut × List Line)) (h : ∀ t ∈ ts, Ready signed t.1 t.2) (hs : ∀ t ∈ ts, Short signed t.1 t.2)
    (sched : List Nat) (d : Device.St) (he : Enough sched (begin ts)) :
    ∃ ts' d' cs tss m, interleave (espSend drv port) signed sched (begin ts) d = .ok (ts', d') ∧ d'.calls = d.calls ++ cs ∧
      List.Forall₂ (Texts signed) ts tss ∧ Merge tss m ∧ onWire drv port d.calls cs = wireOf m := by
  obtain ⟨ts', d', k1, -, k3⟩ := packets_whole (espSend drv port) (espNext drv port) (espSend_ok drv port) signed ts h sched d
  obtain ⟨tss, ps, g1, g2, g3, g4⟩ := k3 he
  obtain ⟨m, m1, m2⟩ := lines_merge signed ts hs tss g1 ps g2
  obtain ⟨cs, c1, -, -, c4⟩ := esp_calls drv port ps d
  refine ⟨ts', d', cs, tss, m, k1, by rw [g3, c1], g1, m1, ?_⟩
  rw [c4, m2]
  · rw [wireOf, List.flatMap_def]
  · intro l p hp
    have := g4 p hp
    have := hd l
    omega

/-! ## Findings -/

/-- A device which keeps what it is given. -/
def keep (d : List Byte) (p : List Byte) : Res (List Byte) := .ok (d ++ p)

/-- A line with one string. -/
def str (s : List Byte) : Line := (fun _ => 0, [.cstr s []])

/-- An output with a buffer of `cap` characters. -/
def output (cap : Nat) : BOut := BOut.new (List.replicate cap 0)

theorem output_idle (cap : Nat) (h0 : 0 < cap) (h1 : cap ≤ 65535) : Idle (output cap) (output cap).capacity := by
  have hc : (output cap).capacity = cap := by simp [output, BOut.new, BOut.clear, BOut.capacity]
  refine ⟨by simp [output, BOut.new, BOut.clear, BOut.WF], rfl, ?_, by omega, by omega⟩
  simp [output, BOut.new, BOut.clear, BOut.shown, BOut.text, Shown.fresh]

theorem output_ready (signed : Bool) (cap : Nat) (h0 : 0 < cap) (h1 : cap ≤ 65535) (ls : List Line)
    (h : ∀ l ∈ ls, ∀ i ∈ l.2, i.Valid ∧ Safe i) : Ready signed (output cap) ls :=
  ⟨output_idle cap h0 h1, fun l hl => ⟨fun i hi => (h l hl i hi).1, safe_effects l.2 (fun i hi => (h l hl i hi).2) .fresh rfl⟩⟩

theorem str_fine {s : List Byte} (hs : ∀ c ∈ s, c ≠ 0) : ∀ i ∈ (str s).2, i.Valid ∧ Safe i := by
  intro i hi
  simp only [str, List.mem_singleton] at hi
  subst hi
  exact ⟨hs, trivial⟩

/-- Finding for **C135**: why the lines must not fill the buffer, also with an output for each task: a line which fills it and
its newline are two packets, and a line of another task may come between. -/
theorem full_line_cut (signed : Bool) :
    ∃ ts : List (BOut × List Line), (∀ t ∈ ts, Ready signed t.1 t.2) ∧ ∃ sched, Enough sched (begin ts) ∧
      ∃ ts', interleave keep signed sched (begin ts) [] = .ok (ts', [97, 98, 99, 100, 120, 10, 10]) := by
  refine ⟨[(output 4, [str [97, 98, 99, 100]]), (output 4, [str [120]])], ?_, [0, 0, 1, 1, 1, 1, 0, 0], ?_, ?_⟩
  · simp only [List.mem_cons, List.not_mem_nil, or_false]
    rintro t (rfl | rfl)
    · refine output_ready signed 4 (by decide) (by decide) _ ?_
      simp only [List.mem_singleton, forall_eq]
      exact str_fine (by decide)
    · refine output_ready signed 4 (by decide) (by decide) _ ?_
      simp only [List.mem_singleton, forall_eq]
      exact str_fine (by decide)
  · intro i t ht
    match i with
    | 0 => cases ht; decide
    | 1 => cases ht; decide
    | i + 2 => cases ht
  · cases signed <;> exact ⟨_, rfl⟩

/-- Finding for **C135**: with one output for two tasks, as `SerialDebug` is, the lines are mixed: `"ab"` and `"cd"` come out as `"abcd"` and
an empty line. -/
theorem shared_mixed (signed : Bool) :
    ∃ sched o ts, interleaveShared keep signed sched serialDebug [(str [97, 98]).steps, (str [99, 100]).steps] [] =
      .ok (o, ts, [97, 98, 99, 100, 10, 10]) ∧ ts = [[], []] := by
  have h : (match interleaveShared keep signed [0, 1, 0, 0, 0, 1, 1, 1] serialDebug [(str [97, 98]).steps, (str [99, 100]).steps] [] with
      | .ok (_, ts, w) => ts.all (·.isEmpty) && ts.length == 2 && w == [97, 98, 99, 100, 10, 10]
      | _ => false) = true := by cases signed <;> decide +kernel
  generalize hr : interleaveShared keep signed _ _ _ _ = r at h
  cases r with
  | ub => cases h
  | hang => cases h
  | ok r =>
    obtain ⟨o, ts, w⟩ := r
    simp only [Bool.and_eq_true, List.all_eq_true, List.isEmpty_iff, beq_iff_eq] at h
    obtain ⟨⟨h1, h2⟩, h3⟩ := h
    refine ⟨_, o, ts, by rw [hr, h3], ?_⟩
    match ts, h2 with
    | [a, b], _ => rw [h1 a (by simp), h1 b (by simp)]

/-- Finding for **C135**: with one output for two tasks the buffer may be overrun, although each line alone has ample room:
here 127 characters, and a single byte. -/
theorem shared_overrun (signed : Bool) :
    ∃ l1 l2 : Line, Ready signed serialDebug [l1] ∧ Ready signed serialDebug [l2] ∧ Ready signed serialDebug [l1, l2] ∧
      ∃ sched, ∀ (δ : Type) (send : δ → List Byte → Res δ) (d : δ),
        interleaveShared send signed sched serialDebug [l1.steps, l2.steps] d = .ub := by
  have hb : ¬ Wrong 128 signed [.byte 7] := by
    intro h
    cases h with
    | undef _ _ _ h => 
      have : 128 < ([] : List Byte).length + 2 := h
      simp at this
    | step _ _ _ _ _ _ _ h => cases h
  have hc : serialDebug.capacity = 128 := by simp [serialDebug, BOut.new, BOut.clear, BOut.capacity]
  have hi : Idle serialDebug serialDebug.capacity := by rw [hc]; exact DebugLog.idle
  have hs := str_fine (s := List.replicate 127 120) fun c hc => by rw [List.eq_of_mem_replicate hc]; decide
  have h1 : (∀ i ∈ (str (List.replicate 127 120)).2, i.Valid) ∧ ¬ Wrong serialDebug.capacity signed (str (List.replicate 127 120)).2 :=
    ⟨fun i hi => (hs i hi).1, safe_effects _ (fun i hi => (hs i hi).2) .fresh rfl⟩
  have h2 : (∀ i ∈ [SItem.byte 7], i.Valid) ∧ ¬ Wrong serialDebug.capacity signed [.byte 7] := by
    rw [hc]
    refine ⟨?_, hb⟩
    intro i hi
    simp only [List.mem_singleton] at hi
    subst hi
    exact trivial
  refine ⟨str (List.replicate 127 120), (fun _ => 0, [.byte 7]), ⟨hi, ?_⟩, ⟨hi, ?_⟩, ⟨hi, ?_⟩, [0, 1], ?_⟩
  · simpa only [List.mem_singleton, forall_eq] using h1
  · simpa only [List.mem_singleton, forall_eq] using h2
  · simp only [List.mem_cons, List.not_mem_nil, or_false]
    rintro l (rfl | rfl)
    · exact h1
    · exact h2
  · intro δ send d
    have e1 : BOut.putCstr serialDebug (List.replicate 127 120 ++ [0]) = .ok ⟨List.replicate 127 120 ++ [0], 127, 0, 0, 32⟩ := by
      decide +kernel
    have e2 : BOut.putByte ⟨List.replicate 127 120 ++ [0], 127, 0, 0, 32⟩ 7 = .ub := by decide +kernel
    simp only [interleaveShared, List.getElem?_cons_zero, Line.steps, str, List.map_cons, List.map_nil, List.cons_append, turn,
      Micro.run, SOut.item, e1, Res.bind_ok, sendOpt, List.set_cons_zero, List.getElem?_cons_succ, e2]
    rfl

/-! ## A concrete case -/

/-- Two tasks with outputs of their own, and a schedule which cuts every line. -/
def pair : List (BOut × List Line) := [(output 8, [str [97, 98], str [99]]), (output 8, [str [120, 121]])]

example : ∀ t ∈ pair, Ready true t.1 t.2 := by
  simp only [pair, List.mem_cons, List.not_mem_nil, or_false]
  rintro t (rfl | rfl)
  · refine output_ready true 8 (by decide) (by decide) _ ?_
    simp only [List.mem_cons, List.not_mem_nil, or_false]
    rintro l (rfl | rfl)
    · exact str_fine (by decide)
    · exact str_fine (by decide)
  · refine output_ready true 8 (by decide) (by decide) _ ?_
    simp only [List.mem_singleton, forall_eq]
    exact str_fine (by decide)

example : ∀ t ∈ pair, Short true t.1 t.2 := by
  simp only [pair, List.mem_cons, List.not_mem_nil, or_false]
  have key : ∀ s : List Byte, s.length < 8 → ∀ t, Reads (output 8).capacity true (str s).2 t → t.length < (output 8).capacity := by
    rintro s hs t ⟨r, h, rfl⟩
    cases h with
    | step _ s1 _ _ _ _ he h =>
      cases h
      obtain rfl := he
      simp [output, BOut.new, BOut.clear, BOut.capacity, Shown.fresh, Piece.chars]
      omega
  rintro t (rfl | rfl) l hl t'
  · simp only [List.mem_cons, List.not_mem_nil, or_false] at hl
    rcases hl with rfl | rfl
    · exact key _ (by decide) t'
    · exact key _ (by decide) t'
  · simp only [List.mem_singleton] at hl
    subst hl
    exact key _ (by decide) t'

example : Enough [0, 1, 0, 1, 0, 1, 0, 0, 1, 0, 0, 0] (begin pair) := by
  intro i t ht
  match i with
  | 0 => cases ht; decide
  | 1 => cases ht; decide
  | i + 2 => cases ht

example : (match interleave keep true [0, 1, 0, 1, 0, 1, 0, 0, 1, 0, 0, 0] (begin pair) [] with
    | .ok (_, w) => w
    | _ => []) = [97, 98, 10, 120, 121, 10, 99, 10] := by decide +kernel

end Verif.Uart.LogTasks
