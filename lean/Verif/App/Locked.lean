import Verif.App.Lock
import Verif.Storage.Adder
import Verif.Uart.LogTasks
import Verif.Hal.I2cTasks
/-!
# C137: the storage, a serial output and an I2C bus used under a lock

The classes are those of C129, C135 and C136, divided into the same steps; the tasks take a lock around each use.
-/
namespace Verif.App.Locked
open Verif Verif.App.Lock

/-! ## The storage -/

namespace Store
open Verif.Storage

/-- Accesses of the storage as steps. -/
def machine (R : Type) : Machine Store (Acc R) R := ⟨Acc.step, Acc.result⟩

/-- A use: several calls, one after the other, on the map of C01. -/
def onMap {R : Type} (cap : Nat) : Storage.Prog R → AMap → R × AMap
  | .ret r, a => (r, a)
  | .get name n k, a => onMap cap (k (a.get name n)) a
  | .set name obj k, a => onMap cap (k (a.set cap name obj).2) (a.set cap name obj).1

/-- All calls are correct: names of at most four characters, records which fit the size field. -/
def Normal {R : Type} : Storage.Prog R → Prop
  | .ret _ => True
  | .get name n k => (Op.get name n).Normal ∧ ∀ r, Normal (k r)
  | .set name obj k => (Op.set name obj).Normal ∧ ∀ r, Normal (k r)

/-- The storage answers like the map. -/
def Like (cap : Nat) (s : Store) (a : AMap) : Prop := Answers s a ∧ s.mem.length = cap

/-- The effect of a use. -/
def effect (R : Type) (cap : Nat) : Effect (Storage.Prog R) R AMap := fun u a r a' => onMap cap u a = (r, a')

theorem completes {R : Type} {p : Acc R} {s s' : Store} {r : R} (h : p.exec s = .ok (r, s')) :
    Completes (machine R) p s r s' := by
  induction p generalizing s with
  | ret a => cases h; exact .done _ _ _ rfl
  | hang => cases h
  | head k ih => exact .step _ _ _ _ _ _ rfl rfl (ih _ h)
  | setHead n k ih => exact .step _ _ _ _ _ _ rfl rfl (ih h)
  | read i k ih =>
    rw [Acc.exec] at h
    cases hb : s.mem[i]? with
    | none => rw [hb] at h; cases h
    | some b =>
      rw [hb] at h
      exact .step _ (k b) _ s _ _ rfl (by simp only [machine, Acc.step, hb]) (ih _ h)
  | write i b k ih =>
    rw [Acc.exec] at h
    by_cases hb : i < s.mem.length
    · rw [if_pos hb] at h
      exact .step _ k _ ⟨s.mem.set i b, s.freeHead⟩ _ _ rfl (by simp only [machine, Acc.step, hb, if_true]) (ih h)
    · rw [if_neg hb] at h; cases h

theorem getA_exec_fuel {s : Store} {L : List (Nat × Nat)} (ho : Opened s L) (name : List Byte) (n : Nat) (fuel : Nat)
    (hfuel : s.freeHead < fuel) :
    (getA fuel name n).exec s = (get s name n >>= fun r => .ok (r, s)) := by
  rw [← getA_exec]
  unfold getA
  rw [Acc.exec_bind, Acc.exec_bind, getIdxLoopA_exec, getIdxLoopA_exec, getIdxLoop_list ho.cap ho.walk _ _ _ (by omega),
    getIdxLoop_list ho.cap ho.walk _ _ _ (by omega)]

theorem code_exec {R : Type} {cap : Nat} (p : Storage.Prog R) (hp : Normal p) {s : Store} {a : AMap} (h : Like cap s a) :
    ∃ s', (p.code (cap + 1) cap).exec s = .ok ((onMap cap p a).1, s') ∧ Like cap s' (onMap cap p a).2 := by
  induction p generalizing s a with
  | ret r => exact ⟨s, rfl, h⟩
  | get name n k ih =>
    obtain ⟨s1, h1, h2, h3⟩ := answers_step h.1 h.2 (.get name n) hp.1 (by simp)
    obtain ⟨l, ho, -⟩ := h.1
    have hh := ho.head
    rw [h.2] at hh
    rw [Storage.step, Res.bind_eq_ok] at h1
    obtain ⟨v, g1, g2⟩ := h1
    simp only [AMap.step, Res.ok.injEq, Prod.mk.injEq, Out.value.injEq] at g2 h2
    obtain ⟨rfl, rfl⟩ := g2
    obtain ⟨s', k1, k2⟩ := ih _ (hp.2 (a.get name n)) ⟨h2, h3⟩
    exact ⟨s', by rw [Prog.code, Acc.exec_bind, getA_exec_fuel ho name n _ (by omega), g1, Res.bind_ok, Res.bind_ok]; exact k1, k2⟩
  | set name obj k ih =>
    obtain ⟨s1, h1, h2, h3⟩ := answers_step h.1 h.2 (.set name obj) hp.1 (by simp)
    obtain ⟨l, ho, -⟩ := h.1
    have hh := ho.head
    rw [h.2] at hh
    rw [Storage.step, Res.bind_eq_ok] at h1
    obtain ⟨⟨s2, v⟩, g1, g2⟩ := h1
    simp only [AMap.step, Res.ok.injEq, Prod.mk.injEq, Out.flag.injEq] at g2 h2
    obtain ⟨rfl, rfl⟩ := g2
    obtain ⟨s', k1, k2⟩ := ih _ (hp.2 (a.set cap name obj).2) ⟨h2, h3⟩
    have hx := setA_exec_fuel ho name obj (cap + 1) (by omega)
    rw [h.2, g1, Res.bind_ok] at hx
    exact ⟨s', by rw [Prog.code, Acc.exec_bind, hx, Res.bind_ok]; exact k1, k2⟩

theorem implements (R : Type) (cap : Nat) :
    Implements (machine R) (Prog.code (cap + 1) cap) (Like cap) (effect R cap) Normal := by
  intro u s a hu hr
  obtain ⟨s', h1, h2⟩ := code_exec u hu hr
  exact ⟨_, _, s', rfl, completes h1, h2⟩

/-- **C137** for the storage: any number of tasks, each taking the lock for one or several calls at a time; the single accesses
to the memory interleave in any way.  Nothing is undefined and at every time the results of the tasks and the contents are
those of the map of C01 after some of the uses in some order. -/
theorem storage_serial {R α : Type} {cap : Nat} {s : Store} {a : AMap} (h : Like cap s a)
    (ps : Nat → Lock.Prog (Storage.Prog R) R α) (hp : ∀ i, Uses Normal (ps i)) (sched : List Nat) :
    ∃ c order ps' a', run (machine R) (Prog.code (cap + 1) cap) sched (start ps s) = .ok c ∧
      Serves (effect R cap) ps a order ps' a' ∧ Agrees (machine R) (Prog.code (cap + 1) cap) (Like cap) (effect R cap) c ps' a' :=
  serial (implements R cap) ps hp s a h sched

/-- **C137** for the storage: no deadlock. -/
theorem storage_ends {R α : Type} {cap : Nat} {s : Store} {a : AMap} (h : Like cap s a)
    (ps : Nat → Lock.Prog (Storage.Prog R) R α) (hp : ∀ i, Uses Normal (ps i)) (sched : List Nat) (n : Nat) :
    ∃ more c, run (machine R) (Prog.code (cap + 1) cap) (sched ++ more) (start ps s) = .ok c ∧ c.owner = none ∧
      ∀ i, i < n → ∃ x, c.tasks i = .out (.ret x) :=
  no_deadlock (implements R cap) ps hp s a h sched n

/-! ### Counting -/

/-- One is added to a counter of one byte. -/
def increment (name : List Byte) : Storage.Prog Unit :=
  .get name 1 fun
    | some [v] => .set name [v + 1] fun _ => .ret ()
    | _ => .ret ()

/-- That `m` times, each time with the lock. -/
def increments (name : List Byte) : Nat → Lock.Prog (Storage.Prog Unit) Unit Unit
  | 0 => .ret ()
  | m + 1 => .use (increment name) fun _ => increments name m

theorem increment_normal {name : List Byte} (hn : name.length ≤ 4) : Normal (increment name) := by
  refine ⟨⟨hn, by omega⟩, fun r => ?_⟩
  dsimp only
  split
  · exact ⟨⟨hn, by simp⟩, fun _ => trivial⟩
  · trivial

theorem increments_uses {name : List Byte} (hn : name.length ≤ 4) (m : Nat) : Uses Normal (increments name m) := by
  induction m with
  | zero => trivial
  | succ m ih => exact ⟨increment_normal hn, fun _ => ih⟩

theorem counted {cap : Nat} {name : List Byte} (m : Nat → Nat) {a a' : AMap} {v : Byte} (ha : a.get name 1 = some [v])
    {order : List Nat} {ps' : Nat → Lock.Prog (Storage.Prog Unit) Unit Unit}
    (h : Serves (effect Unit cap) (fun i => increments name (m i)) a order ps' a') :
    a'.get name 1 = some [v + BitVec.ofNat 8 order.length] ∧ ∀ i, order.count i ≤ m i ∧ ps' i = increments name (m i - order.count i) := by
  induction h with
  | nil => exact ⟨by simpa using ha, fun i => by simp⟩
  | snoc order ps' a1 i u k r a2 _ hi he ih =>
    obtain ⟨h1, h2⟩ := ih
    obtain ⟨g1, g2⟩ := h2 i
    cases hm : m i - order.count i with
    | zero => rw [hi, hm] at g2; cases g2
    | succ n =>
      rw [hi, hm, increments] at g2
      injection g2 with e1 e2
      subst e1 e2
      have hcount : ∀ j, (order ++ [i]).count j = order.count j + if i = j then 1 else 0 := by
        intro j
        rw [List.count_append, List.count_singleton]
        by_cases h : i = j <;> simp [h]
      refine ⟨?_, fun j => ?_⟩
      · have := congrArg Prod.snd he
        simp only [increment, onMap, h1] at this
        subst this
        have hset : a1.set cap name [v + BitVec.ofNat 8 order.length + 1] =
            (⟨a1.put name [v + BitVec.ofNat 8 order.length + 1], a1.used⟩, true) := by
          rw [AMap.set, if_pos (by simp [h1])]
        rw [hset]
        simp only [AMap.get, AMap.put, List.length_cons, List.length_nil, Nat.zero_add, and_self, if_true, List.length_append]
        rw [BitVec.ofNat_add, ← BitVec.add_assoc]
        rfl
      · rw [hcount]
        by_cases hj : j = i
        · subst hj
          rw [Lock.put_same, if_pos rfl]
          exact ⟨by omega, by rw [show m j - (order.count j + 1) = n by omega]⟩
        · rw [Lock.put_other _ _ hj, if_neg (Ne.symm hj)]
          exact h2 j

/-- **C137** for a counter in the storage, to which task `i` adds one `m i` times: no increment is lost.  When the lock is
free, the counter has been incremented once for each use which has been finished, and a task at its end has finished all of
its uses. -/
theorem no_lost_update {cap : Nat} {s : Store} {a : AMap} (h : Like cap s a) {name : List Byte} (hn : name.length ≤ 4) {v : Byte}
    (ha : a.get name 1 = some [v]) (m : Nat → Nat) (sched : List Nat) :
    ∃ c, run (machine Unit) (Prog.code (cap + 1) cap) sched (start (fun i => increments name (m i)) s) = .ok c ∧
      (c.owner = none → ∃ order : List Nat, get c.s name 1 = .ok (some [v + BitVec.ofNat 8 order.length]) ∧
        ∀ i, order.count i ≤ m i ∧ (c.tasks i = .out (.ret ()) → order.count i = m i)) := by
  obtain ⟨c, order, ps', a', h1, h2, h3⟩ := storage_serial h (fun i => increments name (m i))
    (fun i => increments_uses hn (m i)) sched
  refine ⟨c, h1, fun ho => ⟨order, ?_, fun i => ?_⟩⟩
  · rw [Agrees, ho] at h3
    obtain ⟨-, ⟨l, k1, -, k2⟩, -⟩ := h3
    rw [k1.get, ← k2 name 1 hn, (counted m ha h2).1]
  · obtain ⟨g1, g2⟩ := (counted m ha h2).2 i
    refine ⟨g1, fun hi => ?_⟩
    rw [Agrees, ho] at h3
    rw [h3.1 i, g2] at hi
    cases hm : m i - order.count i with
    | zero => omega
    | succ n => rw [hm] at hi; cases hi

end Store

/-! ## A serial output -/

namespace Log
open Verif.Out Verif.Uart.Wire Verif.Uart.Lines Verif.Uart.Server Verif.Uart.DebugLog Verif.Uart.LogTasks

variable {δ : Type}

/-- Steps of printing, on one output and one device. -/
def machine (send : δ → List Byte → Res δ) (signed : Bool) : Machine (BOut × δ) (List Micro) Unit where
  step ms s := do
    let (o, ms, d) ← Uart.LogTasks.turn send signed s.1 s.2 ms
    .ok (ms, o, d)
  done
    | [] => some ()
    | _ :: _ => none

/-- A line is printed: its packets are sent, one directly behind the other. -/
def effect (cap : Nat) (signed : Bool) : Effect Line Unit (List (List Byte)) :=
  fun l ps _ ps' => ∃ t, Reads cap signed l.2 t ∧ ps' = ps ++ packetsOf cap t

/-- The output is empty and the device has got the packets. -/
def Sent (f : δ → List Byte → δ) (d0 : δ) (cap : Nat) (s : BOut × δ) (ps : List (List Byte)) : Prop :=
  Idle s.1 cap ∧ s.2 = ps.foldl f d0

/-- A correct line. -/
def Sane (cap : Nat) (signed : Bool) (l : Line) : Prop := (∀ i ∈ l.2, i.Valid) ∧ ¬ Wrong cap signed l.2

theorem completes (send : δ → List Byte → Res δ) (f : δ → List Byte → δ)
    (hf : ∀ d p, p.length < 65536 → send d p = .ok (f d p)) (signed : Bool) (ms : List Micro) (o o' : BOut) (d : δ)
    (ps : List (List Byte)) (h : trace signed o ms = .ok (o', ps)) :
    Completes (machine send signed) ms (o, d) () (o', ps.foldl f d) := by
  induction ms generalizing o d ps with
  | nil => cases h; exact .done _ _ _ rfl
  | cons m ms ih =>
    rw [trace, Res.bind_eq_ok] at h
    obtain ⟨⟨o1, p⟩, e1, h⟩ := h
    rw [Res.bind_eq_ok] at h
    obtain ⟨⟨o2, qs⟩, e2, h⟩ := h
    simp only [Res.ok.injEq, Prod.mk.injEq] at h
    obtain ⟨rfl, rfl⟩ := h
    have hs : sendOpt send d p = .ok (p.toList.foldl f d) := by
      cases p with
      | none => rfl
      | some p => exact hf d p (run_small e1)
    refine .step _ ms _ (o1, p.toList.foldl f d) _ _ rfl ?_ ?_
    · simp only [machine, Uart.LogTasks.turn, e1, Res.bind_ok, hs]
    · rw [List.foldl_append]
      exact ih o1 _ qs e2

theorem implements (send : δ → List Byte → Res δ) (f : δ → List Byte → δ)
    (hf : ∀ d p, p.length < 65536 → send d p = .ok (f d p)) (signed : Bool) (cap : Nat) (d0 : δ) :
    Implements (machine send signed) Line.steps (Sent f d0 cap) (effect cap signed) (Sane cap signed) := by
  rintro l ⟨o, d⟩ ps hl ⟨h1, h2⟩
  simp only at h1 h2
  obtain ⟨o', t, g1, g2, g3⟩ := line_trace h1 l hl.1 hl.2
  refine ⟨(), ps ++ packetsOf cap t, (o', (packetsOf cap t).foldl f d), ⟨t, g2, rfl⟩, completes send f hf signed _ o o' d _ g3, g1, ?_⟩
  rw [List.foldl_append, ← h2]

/-- A task which prints lines. -/
def printing : List Line → Lock.Prog Line Unit Unit
  | [] => .ret ()
  | l :: ls => .use l fun _ => printing ls

theorem printing_uses {cap : Nat} {signed : Bool} {ls : List Line} (h : ∀ l ∈ ls, Sane cap signed l) :
    Uses (Sane cap signed) (printing ls) := by
  induction ls with
  | nil => trivial
  | cons l ls ih => exact ⟨h l (by simp), fun _ => ih fun l hl => h l (by simp [hl])⟩

theorem forall₂_snoc {A B : Type} {R : A → B → Prop} {as : List A} {bs : List B} (h : List.Forall₂ R as bs) {x : A} {y : B} (hr : R x y) :
    List.Forall₂ R (as ++ [x]) (bs ++ [y]) := by
  induction h with
  | nil => exact .cons hr .nil
  | cons h _ ih => exact .cons h ih

/-- The texts printed by a task. -/
def textsOf (i : Nat) (sent : List (Nat × List Byte)) : List (List Byte) := (sent.filter fun t => t.1 = i).map (·.2)

theorem printed {cap : Nat} {signed : Bool} (lines : Nat → List Line) {order : List Nat}
    {ps' : Nat → Lock.Prog Line Unit Unit} {a' : List (List Byte)}
    (h : Serves (effect cap signed) (fun i => printing (lines i)) [] order ps' a') :
    ∃ sent : List (Nat × List Byte), a' = sent.flatMap (fun t => packetsOf cap t.2) ∧
      ∀ i, ∃ done todo, lines i = done ++ todo ∧ List.Forall₂ (Reads cap signed) (done.map (·.2)) (textsOf i sent) ∧
        ps' i = printing todo := by
  induction h with
  | nil => exact ⟨[], rfl, fun i => ⟨[], lines i, rfl, .nil, rfl⟩⟩
  | snoc order ps' a1 i u k r a2 _ hi he ih =>
    obtain ⟨sent, rfl, h2⟩ := ih
    obtain ⟨done, todo, g1, g2, g3⟩ := h2 i
    obtain ⟨t, e1, rfl⟩ := he
    cases todo with
    | nil => rw [hi] at g3; cases g3
    | cons l ls =>
      rw [hi, printing] at g3
      injection g3 with m1 m2
      subst m1 m2
      refine ⟨sent ++ [(i, t)], by simp, fun j => ?_⟩
      by_cases hj : j = i
      · subst hj
        refine ⟨done ++ [u], ls, by simp [g1], ?_, Lock.put_same _ _ _⟩
        have : textsOf j (sent ++ [(j, t)]) = textsOf j sent ++ [t] := by simp [textsOf]
        rw [this, List.map_append]
        exact forall₂_snoc g2 e1
      · obtain ⟨done', todo', k1, k2, k3⟩ := h2 j
        refine ⟨done', todo', k1, ?_, by rw [Lock.put_other _ _ hj]; exact k3⟩
        have : textsOf j (sent ++ [(i, t)]) = textsOf j sent := by simp [textsOf, Ne.symm hj]
        rw [this]
        exact k2

/-- **C137** for a serial output, for example `SerialDebug`, used by any number of tasks with a lock around each line.  Nothing
is undefined; when the lock is free the device has got lines of the tasks one after the other, each line in one piece (also
one which fills the buffer), those of each task in their order; a task at its end has printed all of its lines. -/
theorem log_serial (send : δ → List Byte → Res δ) (f : δ → List Byte → δ)
    (hf : ∀ d p, p.length < 65536 → send d p = .ok (f d p)) (signed : Bool) (cap : Nat) (o : BOut) (ho : Idle o cap) (d : δ)
    (lines : Nat → List Line) (hl : ∀ i, ∀ l ∈ lines i, Sane cap signed l) (sched : List Nat) :
    ∃ c, run (machine send signed) Line.steps sched (start (fun i => printing (lines i)) (o, d)) = .ok c ∧
      (c.owner = none → ∃ sent : List (Nat × List Byte), c.s.2 = (sent.flatMap fun t => packetsOf cap t.2).foldl f d ∧
        ∀ i, ∃ done todo, lines i = done ++ todo ∧ List.Forall₂ (Reads cap signed) (done.map (·.2)) (textsOf i sent) ∧
          (c.tasks i = .out (.ret ()) → todo = [])) := by
  obtain ⟨c, order, ps', a', h1, h2, h3⟩ := serial (implements send f hf signed cap d) (fun i => printing (lines i))
    (fun i => printing_uses (hl i)) (o, d) [] ⟨ho, rfl⟩ sched
  refine ⟨c, h1, fun hf => ?_⟩
  obtain ⟨sent, rfl, k2⟩ := printed lines h2
  rw [Agrees, hf] at h3
  refine ⟨sent, h3.2.2, fun i => ?_⟩
  obtain ⟨done, todo, g1, g2, g3⟩ := k2 i
  refine ⟨done, todo, g1, g2, fun hi => ?_⟩
  rw [h3.1 i, g3] at hi
  cases todo with
  | nil => rfl
  | cons l ls => cases hi

/-- **C137** for a serial output: no deadlock. -/
theorem log_ends (send : δ → List Byte → Res δ) (f : δ → List Byte → δ)
    (hf : ∀ d p, p.length < 65536 → send d p = .ok (f d p)) (signed : Bool) (cap : Nat) (o : BOut) (ho : Idle o cap) (d : δ)
    (lines : Nat → List Line) (hl : ∀ i, ∀ l ∈ lines i, Sane cap signed l) (sched : List Nat) (n : Nat) :
    ∃ more c, run (machine send signed) Line.steps (sched ++ more) (start (fun i => printing (lines i)) (o, d)) = .ok c ∧
      c.owner = none ∧ ∀ i, i < n → ∃ x, c.tasks i = .out (.ret x) :=
  no_deadlock (implements send f hf signed cap d) _ (fun i => printing_uses (hl i)) (o, d) [] ⟨ho, rfl⟩ sched n

end Log

/-! ## An I2C bus -/

namespace I2c
open Verif.Hal.I2c Verif.Hal.I2c.Portable Verif.Hal.I2c.Shared Verif.Hal.I2c.Tasks

/-- Calls of the ESP32 driver as steps. -/
def espMachine (net : Net) (R : Type) : Machine World (Io R) R where
  step t w := .ok (t.step net w)
  done
    | .ret r => some r
    | _ => none

/-- Calls of `TwoWire` as steps. -/
def wireMachine (net : Net) (cap : Nat) (R : Type) : Machine (Wire × World) (Tw R) R where
  step t s := .ok (t.step net cap s)
  done
    | .ret r => some r
    | _ => none

/-- A program, call by call. -/
def progTw {R : Type} : Portable.Prog R → Tw R
  | .ret x => .ret x
  | .call a o k => (opTw a o).bind fun r => progTw (k r)

/-- The effect of a use on ESP32: that of C92. -/
def espEffect (net : Net) (period : Nat) (timeout : BitVec 32) (R : Type) : Effect (Portable.Prog R) R World :=
  fun u w r w' => u.run (Portable.Esp.call net period timeout) w = .ok (r, w')

/-- The effect of a use on Arduino: that of C92. -/
def wireEffect (net : Net) (cap : Nat) (R : Type) : Effect (Portable.Prog R) R World :=
  fun u w r w' => u.run (Portable.Arduino.call net cap) w = .ok (r, w')

theorem esp_completes (net : Net) {R : Type} (t : Io R) (w : World) :
    Completes (espMachine net R) t w (t.exec net w).1 (t.exec net w).2 := by
  induction t generalizing w with
  | ret x => exact .done _ _ _ rfl
  | write a d k ih => exact .step _ _ _ _ _ _ rfl rfl (ih _ _)
  | read a n k ih => exact .step _ _ _ _ _ _ rfl rfl (ih _ _)

theorem wire_completes (net : Net) (cap : Nat) {R : Type} (t : Tw R) (s : Wire × World) :
    Completes (wireMachine net cap R) t s (t.exec net cap s).1 (t.exec net cap s).2 := by
  induction t generalizing s with
  | ret x => exact .done _ _ _ rfl
  | beginTransmission a k ih => exact .step _ _ _ _ _ _ rfl rfl (ih _)
  | write d k ih => exact .step _ _ _ _ _ _ rfl rfl (ih _ _)
  | endTransmission k ih => exact .step _ _ _ _ _ _ rfl rfl (ih _ _)
  | requestFrom a n k ih => exact .step _ _ _ _ _ _ rfl rfl (ih _ _)
  | read k ih => exact .step _ _ _ _ _ _ rfl rfl (ih _ _)

/-- Without anybody else a program is that of C92. -/
theorem progTw_exec {R : Type} (net : Net) (cap : Nat) (p : Portable.Prog R) (s : Wire) (w : World) :
    p.run (Portable.Arduino.call net cap) w = .ok (((progTw p).exec net cap (s, w)).1, ((progTw p).exec net cap (s, w)).2.2) := by
  induction p generalizing s w with
  | ret x => rfl
  | call a o k ih =>
    rw [Prog.run, opTw_exec net cap a o s w, Res.bind_ok, progTw, Tw.exec_bind]
    exact ih _ _ _

theorem esp_implements (net : Net) (period : Nat) (timeout : BitVec 32) (R : Type) :
    Implements (espMachine net R) progIo (fun w a => w = a) (espEffect net period timeout R) (fun _ => True) := by
  rintro u w _ - rfl
  exact ⟨_, _, _, progIo_exec net period timeout u w, esp_completes net _ w, rfl⟩

theorem wire_implements (net : Net) (cap : Nat) (R : Type) :
    Implements (wireMachine net cap R) progTw (fun s a => s.2 = a) (wireEffect net cap R) (fun _ => True) := by
  rintro u ⟨s, w⟩ _ - rfl
  exact ⟨_, _, _, progTw_exec net cap u s w, wire_completes net cap _ (s, w), rfl⟩

theorem uses_true {C R α : Type} (p : Lock.Prog C R α) : Uses (fun _ => True) p := by
  induction p with
  | ret x => trivial
  | use u k ih => exact ⟨trivial, fun r => ih r⟩

/-- **C137** for an I2C bus on ESP32: tasks which take a lock for one or several calls at a time, whatever devices they use in
common: the results and the messages are those of the uses one after the other in some order. -/
theorem esp_serial {R α : Type} (net : Net) (period : Nat) (timeout : BitVec 32) (ps : Nat → Lock.Prog (Portable.Prog R) R α)
    (w : World) (sched : List Nat) :
    ∃ c order ps' w', run (espMachine net R) progIo sched (start ps w) = .ok c ∧
      Serves (espEffect net period timeout R) ps w order ps' w' ∧ Agrees (espMachine net R) progIo (fun w a => w = a) (espEffect net period timeout R) c ps' w' :=
  serial (esp_implements net period timeout R) ps (fun _ => uses_true _) w w rfl sched

/-- **C137** for an I2C bus on Arduino. -/
theorem wire_serial {R α : Type} (net : Net) (cap : Nat) (ps : Nat → Lock.Prog (Portable.Prog R) R α) (s : Wire) (w : World)
    (sched : List Nat) :
    ∃ c order ps' w', run (wireMachine net cap R) progTw sched (start ps (s, w)) = .ok c ∧
      Serves (wireEffect net cap R) ps w order ps' w' ∧ Agrees (wireMachine net cap R) progTw (fun s a => s.2 = a) (wireEffect net cap R) c ps' w' :=
  serial (wire_implements net cap R) ps (fun _ => uses_true _) (s, w) w rfl sched

/-- **C137** for an I2C bus: no deadlock. -/
theorem bus_ends {R α : Type} (net : Net) (cap : Nat) (ps : Nat → Lock.Prog (Portable.Prog R) R α) (s : Wire) (w : World)
    (sched : List Nat) (n : Nat) :
    (∃ more c, run (espMachine net R) progIo (sched ++ more) (start ps w) = .ok c ∧ c.owner = none ∧
      ∀ i, i < n → ∃ x, c.tasks i = .out (.ret x)) ∧
    ∃ more c, run (wireMachine net cap R) progTw (sched ++ more) (start ps (s, w)) = .ok c ∧ c.owner = none ∧
      ∀ i, i < n → ∃ x, c.tasks i = .out (.ret x) :=
  ⟨no_deadlock (esp_implements net 1 0 R) ps (fun _ => uses_true _) w w rfl sched n,
    no_deadlock (wire_implements net cap R) ps (fun _ => uses_true _) (s, w) w rfl sched n⟩

end I2c

/-! ## A concrete case -/

/-- Every storage in use answers like a map. -/
theorem Store.inUse_like {s : Storage.Store} (h : Storage.InUse s) : ∃ a, Store.Like s.mem.length s a := by
  obtain ⟨l, ho⟩ := h.opened'
  exact ⟨_, ho.answers, rfl⟩

/-- The storage with two counters. -/
example : ∃ a, Store.Like 32 Storage.counters a ∧ a.get [0x42] 1 = some [5] := by
  obtain ⟨a, h⟩ := Store.inUse_like Storage.counters_inUse
  refine ⟨a, h, ?_⟩
  obtain ⟨⟨l, k1, -, k2⟩, -⟩ := h
  rw [k2 [0x42] 1 (by decide)]
  have := k1.get [0x42] 1
  rw [show Storage.get Storage.counters [0x42] 1 = .ok (some [5]) by decide +kernel] at this
  exact (Res.ok.inj this).symm

/-- Two tasks add two each to the second one, in turns at every access. -/
example : (match run (Store.machine Unit) (Storage.Prog.code 33 32) (List.replicate 200 [0, 1]).flatten
      (start (fun i => Store.increments [0x42] (if i ≤ 1 then 2 else 0)) Storage.counters) with
    | .ok c => (c.owner, c.s.mem.take 14)
    | _ => (none, [])) = (none, [7, 0, 0x41, 0, 0, 0, 1, 7, 0, 0x42, 0, 0, 0, 9]) := by decide +kernel

/-- Without the lock an increment is lost. -/
example : (match Storage.interleave (List.replicate 200 [false, true]).flatten
      (fun _ => (Store.increment [0x42]).code 33 32) Storage.counters with
    | .ok (_, s) => s.mem.take 14
    | _ => []) = [7, 0, 0x41, 0, 0, 0, 1, 7, 0, 0x42, 0, 0, 0, 6] := by decide +kernel

/-- Two tasks print on one output with eight characters, one of them a line which fills it. -/
def Log.pair (i : Nat) : List Uart.LogTasks.Line :=
  if i = 0 then [Uart.LogTasks.str [97, 98, 99, 100, 101, 102, 103, 104]] else if i = 1 then [Uart.LogTasks.str [120], Uart.LogTasks.str [121]] else []

example : ∀ i, ∀ l ∈ Log.pair i, Log.Sane 8 true l := by
  have key : ∀ s : List Byte, (∀ c ∈ s, c ≠ 0) → Log.Sane 8 true (Uart.LogTasks.str s) := fun s hs =>
    (Uart.LogTasks.output_ready true 8 (by decide) (by decide) [Uart.LogTasks.str s] (by
      simp only [List.mem_singleton, forall_eq]
      exact Uart.LogTasks.str_fine hs)).sane _ (by simp)
  intro i l hl
  unfold Log.pair at hl
  split at hl
  · simp only [List.mem_singleton] at hl
    subst hl
    exact key _ (by decide)
  · split at hl
    · simp only [List.mem_cons, List.not_mem_nil, or_false] at hl
      rcases hl with rfl | rfl <;> exact key _ (by decide)
    · cases hl

/-- Turn by turn; compare `full_line_cut` and `shared_mixed` of C135. -/
example : (match run (Log.machine Uart.LogTasks.keep true) Uart.LogTasks.Line.steps (List.replicate 20 [0, 1]).flatten
      (start (fun i => Log.printing (Log.pair i)) (Uart.LogTasks.output 8, [])) with
    | .ok c => (c.owner, c.s.2)
    | _ => (none, [])) = (none, [97, 98, 99, 100, 101, 102, 103, 104, 10, 120, 10, 121, 10]) := by decide +kernel

/-- Two tasks read registers of one device, as in `register_mixed` of C136, now with the lock. -/
example : (match run (I2c.espMachine (fun _ => Hal.I2c.Tasks.registers id) (Option (List Byte))) Hal.I2c.Tasks.progIo
      (List.replicate 8 [0, 1]).flatten (start (fun i => .use (.call 0x76 (.sendThenReceive [BitVec.ofNat 8 i] 1) .ret) .ret) []) with
    | .ok c => (match c.tasks 0, c.tasks 1 with
      | .out (.ret x), .out (.ret y) => [x, y]
      | _, _ => [])
    | _ => []) = [some [0], some [1]] := by decide +kernel

end Verif.App.Locked
