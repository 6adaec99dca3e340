import Verif.App.Locked
/-!
# C139: power losses while tasks use a storage under a lock

The tasks and the storage are those of C137.  At any moment of any schedule power is lost: the memory keeps what has been
written so far (in the order of the program), everything else is forgotten, and a new storage object is made over the memory.
-/
namespace Verif.App.LockedPower
open Verif Verif.App.Lock Verif.App.Locked Verif.App.Locked.Store Verif.Storage

/-! ## Specification -/

/-- The objects which a use saves, when it begins with the contents `a`. -/
def sets {R : Type} (cap : Nat) : Storage.Prog R → AMap → List (List Byte × List Byte)
  | .ret _, _ => []
  | .get name n k, a => sets cap (k (a.get name n)) a
  | .set name obj k, a => (name, obj) :: sets cap (k (a.set cap name obj).2) (a.set cap name obj).1

/-- A use which has begun and not ended saves `o` under this name and size. -/
def Saving {R α : Type} (cap : Nat) (c : Conf (Storage.Prog R) Store (Acc R) R α) (ps : Nat → Lock.Prog (Storage.Prog R) R α)
    (a : AMap) (name : List Byte) (n : Nat) (o : List Byte) : Prop :=
  ∃ i u k name', c.owner = some i ∧ ps i = .use u k ∧ (name', o) ∈ sets cap u a ∧ stripNul name' = stripNul name ∧ o.length = n

/-! ## The writes of a program -/

/-- The program writes nothing. -/
def Silent {α : Type} : Acc α → Prop
  | .ret _ => True
  | .hang => True
  | .head k => ∀ n, Silent (k n)
  | .setHead _ _ => False
  | .read _ k => ∀ b, Silent (k b)
  | .write _ _ _ => False

/-- All writes to the memory. -/
def writes {α : Type} : Acc α → Store → List (Nat × Byte)
  | .ret _, _ => []
  | .hang, _ => []
  | .head k, s => writes (k s.freeHead) s
  | .setHead n k, s => writes k ⟨s.mem, n⟩
  | .read i k, s => match s.mem[i]? with
    | some b => writes (k b) s
    | none => []
  | .write i b k, s => (i, b) :: writes k ⟨s.mem.set i b, s.freeHead⟩

theorem Silent.bind {α β : Type} {p : Acc α} {f : α → Acc β} (hp : Silent p) (hf : ∀ r, Silent (f r)) : Silent (p.bind f) := by
  induction p with
  | ret a => exact hf a
  | hang => trivial
  | head k ih => exact fun n => ih n (hp n)
  | setHead n k => cases hp
  | read i k ih => exact fun b => ih b (hp b)
  | write i b k => cases hp

theorem Silent.writes {α : Type} {p : Acc α} (hp : Silent p) (s : Store) : writes p s = [] := by
  induction p with
  | ret a => rfl
  | hang => rfl
  | head k ih => exact ih _ (hp _)
  | setHead n k => cases hp
  | read i k ih =>
    rw [LockedPower.writes]
    cases s.mem[i]? with
    | none => rfl
    | some b => exact ih b (hp b)
  | write i b k => cases hp

theorem readNA_silent (p n : Nat) : Silent (readNA p n) := by
  induction n generalizing p with
  | zero => trivial
  | succ n ih => exact fun b => (ih (p + 1)).bind fun _ => trivial

theorem nodeSizeA_silent (p : Nat) : Silent (nodeSizeA p) := fun _ _ => trivial

theorem nodeMatchesA_silent (p : Nat) (name : List Byte) (n : Nat) : Silent (nodeMatchesA p name n) := by
  unfold nodeMatchesA
  split
  · trivial
  · refine (readNA_silent _ _).bind fun idx => ?_
    split
    · exact (nodeSizeA_silent p).bind fun _ => trivial
    · trivial

theorem getIdxLoopA_silent (name : List Byte) (n fuel pos : Nat) : Silent (getIdxLoopA name n fuel pos) := by
  induction fuel generalizing pos with
  | zero => trivial
  | succ f ih =>
    intro fh
    dsimp only
    split
    · refine (nodeMatchesA_silent _ _ _).bind fun b => ?_
      cases b with
      | true => trivial
      | false => exact (nodeSizeA_silent pos).bind fun sz => ih _
    · trivial

theorem getA_silent (fuel : Nat) (name : List Byte) (n : Nat) : Silent (getA fuel name n) := by
  refine (getIdxLoopA_silent _ _ _ _).bind fun r => ?_
  cases r with
  | none => trivial
  | some pos =>
    refine (nodeMatchesA_silent _ _ _).bind fun b => ?_
    cases b with
    | true => exact (readNA_silent _ _).bind fun _ => trivial
    | false => trivial

theorem writes_bind {α β : Type} {p : Acc α} {f : α → Acc β} {s s' : Store} {r : α} (h : p.exec s = .ok (r, s')) :
    writes (p.bind f) s = writes p s ++ writes (f r) s' := by
  induction p generalizing s with
  | ret a => cases h; rfl
  | hang => cases h
  | head k ih => exact ih _ h
  | setHead n k ih => exact ih h
  | read i k ih =>
    rw [Acc.exec] at h
    rw [Acc.bind, writes, writes]
    cases hb : s.mem[i]? with
    | none => rw [hb] at h; cases h
    | some b => rw [hb] at h; exact ih b h
  | write i b k ih =>
    rw [Acc.exec] at h
    split at h
    · rw [Acc.bind, writes, writes, List.cons_append, ih h]
    · cases h

theorem writeNA_writes (p : Nat) (bs : List Byte) (s : Store) : writes (writeNA p bs) s = writesAt p bs := by
  induction bs generalizing p s with
  | nil => rfl
  | cons b bs ih => rw [writesAt_cons, writeNA, writes, ih]

/-- The writes of `set` are those of the plan. -/
theorem setA_writes {s s' : Store} {L : List (Nat × Nat)} (ho : Opened s L) (name obj : List Byte) (fuel : Nat)
    (hfuel : s.freeHead < fuel) {plan : Plan} (hp : setPlan s name obj = .ok plan) {b : Bool}
    (hs : Storage.set s name obj = .ok (s', b)) :
    writes (setA fuel s.mem.length name obj) s = plan.writes := by
  have hx : (getIdxLoopA name obj.length fuel 0).exec s = (getIdx s name obj.length >>= fun r => .ok (r, s)) := by
    rw [getIdxLoopA_exec, getIdx, getIdxLoop_list ho.cap ho.walk _ _ _ (by omega), getIdxLoop_list ho.cap ho.walk _ _ _ (by omega)]
  unfold Storage.set at hs
  rw [hp, Res.bind_ok, Res.bind_eq_ok] at hs
  obtain ⟨m, hm, -⟩ := hs
  unfold setPlan at hp
  rw [Res.bind_eq_ok] at hp
  obtain ⟨o, h1, hp⟩ := hp
  rw [h1, Res.bind_ok] at hx
  rw [setA, writes_bind hx, (getIdxLoopA_silent _ _ _ _).writes, List.nil_append]
  cases o with
  | some pos =>
    cases hp
    have h2 := writeNA_exec (pos + descSize) obj s
    rw [hm, Res.bind_ok] at h2
    dsimp only
    rw [writes_bind h2, writeNA_writes, writes, List.append_nil]
  | none =>
    dsimp only at hp ⊢
    rw [writes]
    by_cases hr : s.freeHead + (descSize + obj.length) > s.mem.length
    · rw [if_pos hr] at hp ⊢
      cases hp
      rfl
    · rw [if_neg hr] at hp ⊢
      cases hp
      simp only [applyWrites_append, Res.bind_eq_ok] at hm
      obtain ⟨m2, ⟨m1, e1, e2⟩, e3⟩ := hm
      have w1 := writeNA_exec (s.freeHead + 2) (storedIdx name) s
      rw [e1, Res.bind_ok] at w1
      have w2 := writeNA_exec s.freeHead (le16 (descSize + obj.length)) ⟨m1, s.freeHead⟩
      rw [e2, Res.bind_ok] at w2
      have w3 := writeNA_exec (s.freeHead + descSize) obj ⟨m2, s.freeHead⟩
      rw [e3, Res.bind_ok] at w3
      rw [writes, writes_bind w1, writes_bind w2, writes_bind w3, writeNA_writes, writeNA_writes, writeNA_writes]
      simp [writes]

/-- The steps so far have performed a first part of the writes. -/
theorem steps_writes {R : Type} {p p' : Acc R} {s s' : Store} (h : Steps (machine R) p s p' s') :
    ∃ ws, writes p s = ws ++ writes p' s' ∧ applyWrites s.mem ws = .ok s'.mem := by
  induction h with
  | nil => exact ⟨[], rfl, rfl⟩
  | snoc p' p'' s s' s'' _ hd hstep ih =>
    obtain ⟨ws, h1, h2⟩ := ih
    simp only [machine] at hd hstep
    cases p' with
    | ret a => cases hd
    | hang => cases hstep
    | head k => cases hstep; exact ⟨ws, h1, h2⟩
    | setHead n k => cases hstep; exact ⟨ws, h1, h2⟩
    | read i k =>
      rw [writes] at h1
      rw [Acc.step] at hstep
      cases hb : s'.mem[i]? with
      | none => rw [hb] at hstep; cases hstep
      | some b => rw [hb] at hstep h1; cases hstep; exact ⟨ws, h1, h2⟩
    | write i b k =>
      rw [Acc.step] at hstep
      split at hstep
      · rename_i hi
        cases hstep
        refine ⟨ws ++ [(i, b)], by rw [h1, writes, List.append_assoc]; rfl, ?_⟩
        rw [applyWrites_append, h2, Res.bind_ok, applyWrites, if_pos hi]
        rfl
      · cases hstep

/-- Power is lost during or after these calls of `set`, then the storage is opened again. -/
inductive Broken : Store → List (List Byte × List Byte) → Store → Prop where
  | here (s s' : Store) (name obj : List Byte) (cs) : Happens s (.crash name obj) s' → Broken s ((name, obj) :: cs) s'
  | later (s s1 s' : Store) (name obj : List Byte) (b : Bool) (cs) : Storage.set s name obj = .ok (s1, b) → Broken s1 cs s' →
      Broken s ((name, obj) :: cs) s'
  | done (s s' : Store) : Happens s .reopen s' → Broken s [] s'

/-- That is a history of the events of C81. -/
theorem Broken.history {s s' : Store} {cs : List (List Byte × List Byte)} (h : Broken s cs s') :
    ∃ es, Later s es s' ∧ ∀ e ∈ es, ∀ name n o, e.Writes name n o →
      ∃ name', (name', o) ∈ cs ∧ stripNul name' = stripNul name ∧ o.length = n := by
  induction h with
  | here s s' name obj cs he =>
    refine ⟨[.crash name obj], .cons _ _ _ _ _ he (.nil _), fun e he name' n o hw => ?_⟩
    rw [List.mem_singleton] at he
    subst he
    obtain ⟨w1, w2, rfl⟩ := hw
    exact ⟨name, by simp, w1, w2⟩
  | later s s1 s' name obj b cs hs _ ih =>
    obtain ⟨es, k1, k2⟩ := ih
    refine ⟨.set name obj :: es, .cons _ _ _ _ _ (.set _ _ _ _ _ hs) k1, fun e he name' n o hw => ?_⟩
    rw [List.mem_cons] at he
    rcases he with rfl | he
    · obtain ⟨w1, w2, rfl⟩ := hw
      exact ⟨name, by simp, w1, w2⟩
    · obtain ⟨name'', q1, q2, q3⟩ := k2 e he name' n o hw
      exact ⟨name'', List.mem_cons_of_mem _ q1, q2, q3⟩
  | done s s' he =>
    refine ⟨[.reopen], .cons _ _ _ _ _ he (.nil _), fun e he name n o hw => ?_⟩
    rw [List.mem_singleton] at he
    subst he
    cases hw

/-- Power is lost after a first part of the writes of a use. -/
theorem broken {R : Type} {cap : Nat} (p : Storage.Prog R) (hp : Normal p) {s s' : Store} {a : AMap} (h : Like cap s a)
    {ws rest : List (Nat × Byte)} (hw : writes (p.code (cap + 1) cap) s = ws ++ rest) {m : List Byte}
    (hm : applyWrites s.mem ws = .ok m) (hs : create m false = .ok s') : Broken s (sets cap p a) s' := by
  induction p generalizing s a ws with
  | ret r =>
    rw [Prog.code, writes] at hw
    obtain ⟨rfl, -⟩ := List.append_eq_nil_iff.1 hw.symm
    cases hm
    exact .done _ _ (.reopen _ _ hs)
  | get name n k ih =>
    obtain ⟨s1, h1, h2, h3⟩ := answers_step h.1 h.2 (.get name n) hp.1 (by simp)
    obtain ⟨l, ho, -⟩ := h.1
    have hh := ho.head
    rw [h.2] at hh
    rw [Storage.step, Res.bind_eq_ok] at h1
    obtain ⟨v, g1, g2⟩ := h1
    simp only [AMap.step, Res.ok.injEq, Prod.mk.injEq, Out.value.injEq] at g2 h2
    obtain ⟨rfl, rfl⟩ := g2
    have hx := getA_exec_fuel ho name n (cap + 1) (by omega)
    rw [g1, Res.bind_ok] at hx
    rw [Prog.code, writes_bind hx, (getA_silent _ _ _).writes, List.nil_append] at hw
    exact ih _ (hp.2 _) ⟨h2, h3⟩ hw hm
  | set name obj k ih =>
    obtain ⟨s1, h1, h2, h3⟩ := answers_step h.1 h.2 (.set name obj) hp.1 (by simp)
    obtain ⟨l, ho, -⟩ := h.1
    have hh := ho.head
    rw [h.2] at hh
    rw [Storage.step, Res.bind_eq_ok] at h1
    obtain ⟨⟨s2, v⟩, g1, g2⟩ := h1
    simp only [AMap.step, Res.ok.injEq, Prod.mk.injEq, Out.flag.injEq] at g2 h2
    obtain ⟨rfl, rfl⟩ := g2
    have hx := setA_exec_fuel ho name obj (cap + 1) (by omega)
    rw [h.2, g1, Res.bind_ok] at hx
    have g1' := g1
    unfold Storage.set at g1'
    rw [Res.bind_eq_ok] at g1'
    obtain ⟨plan, hplan, g1'⟩ := g1'
    rw [Res.bind_eq_ok] at g1'
    obtain ⟨m1, hm1, g1'⟩ := g1'
    simp only [Res.ok.injEq, Prod.mk.injEq] at g1'
    obtain ⟨rfl, hb⟩ := g1'
    have hpw := setA_writes ho name obj (cap + 1) (by omega) hplan g1
    rw [h.2] at hpw
    rw [Prog.code, writes_bind hx, hpw] at hw
    rcases List.append_eq_append_iff.1 hw with ⟨t, rfl, ht⟩ | ⟨t, ht, -⟩
    · rw [applyWrites_append, hm1, Res.bind_ok] at hm
      exact .later _ _ _ _ _ _ _ g1 (ih _ (hp.2 _) ⟨h2, h3⟩ ht hm)
    · refine .here _ _ _ _ _ (.crash _ _ _ _ _ m hplan ⟨ws, fun w hw => ?_, hm⟩ hs)
      rw [ht]
      exact List.mem_append_left _ hw

/-! ## Properties -/

/-- **C139**: power is lost at any moment of any schedule of any number of tasks which use a storage under a lock.  The memory
can be opened, and everything which the storage held after the finished uses is found; it has not changed unless the use which
had begun saves that object, and then each byte is the old one or one of those being saved. -/
theorem power_loss {R α : Type} {cap : Nat} {s : Store} {a : AMap} (h : Like cap s a)
    (ps : Nat → Lock.Prog (Storage.Prog R) R α) (hp : ∀ i, Uses Normal (ps i)) (sched : List Nat) :
    ∃ c order ps' a' s', run (machine R) (Prog.code (cap + 1) cap) sched (start ps s) = .ok c ∧
      Serves (effect R cap) ps a order ps' a' ∧ Agrees (machine R) (Prog.code (cap + 1) cap) (Like cap) (effect R cap) c ps' a' ∧
      create c.s.mem false = .ok s' ∧ s'.mem.length = cap ∧
      ∀ name n v, name.length ≤ 4 → a'.get name n = some v → ∃ v', get s' name n = .ok (some v') ∧ v'.length = v.length ∧
        ((∀ o, ¬ Saving cap c ps' a' name n o) → v' = v) ∧
        ∀ i : Nat, v'[i]? = v[i]? ∨ ∃ o, Saving cap c ps' a' name n o ∧ v'[i]? = o[i]? := by
  obtain ⟨c, order, ps', a', h1, h2, h3⟩ := storage_serial h ps hp sched
  have key : ∃ s0 s' es, Like cap s0 a' ∧ (create c.s.mem false = .ok s' ∧ s'.mem.length = cap) ∧ Later s0 es s' ∧ ∀ e ∈ es, ∀ name n o, e.Writes name n o →
      Saving cap c ps' a' name n o := by
    cases ho : c.owner with
    | none =>
      have h3 := h3
      rw [Agrees, ho] at h3
      obtain ⟨-, h3⟩ := h3
      obtain ⟨l, ho', -⟩ := h3.1
      obtain ⟨s', k1, k2, -⟩ := open_total c.s.mem ho'.cap
      refine ⟨c.s, s', [.reopen], h3, ⟨k1, by rw [k2]; exact h3.2⟩, .cons _ _ _ _ _ (.reopen _ _ k1) (.nil _), fun e he name n o hw => ?_⟩
      rw [List.mem_singleton] at he
      subst he
      cases hw
    | some i =>
      have h3 := h3
      rw [Agrees, ho] at h3
      obtain ⟨⟨u, k, s0, p, r, a2, s2, g1, -, ⟨g2, g3⟩, -⟩, -⟩ := h3
      obtain ⟨ws, w1, w2⟩ := steps_writes g3
      obtain ⟨l, ho', -⟩ := g2.1
      obtain ⟨s', k1, k2, -⟩ := open_total c.s.mem (by rw [(applyWrites_frame w2).1]; exact ho'.cap)
      have hu := h2.uses hp i
      rw [g1] at hu
      obtain ⟨es, e1, e2⟩ := (broken u hu.1 g2 w1 w2 k1).history
      refine ⟨s0, s', es, g2, ⟨k1, by rw [k2, (applyWrites_frame w2).1]; exact g2.2⟩, e1, fun e he name n o hw => ?_⟩
      obtain ⟨name', q1, q2, q3⟩ := e2 e he name n o hw
      exact ⟨i, u, k, name', ho, g1, q1, q2, q3⟩
  obtain ⟨s0, s', es, k1, ⟨k2, k5⟩, k3, k4⟩ := key
  refine ⟨c, order, ps', a', s', h1, h2, h3, k2, k5, fun name n v hn hv => ?_⟩
  obtain ⟨⟨l, ho, -, hg⟩, -⟩ := k1
  have hget : get s0 name n = .ok (some v) := by rw [ho.get, ← hg name n hn, hv]
  have hk := Kept.of_walk ho.cap ho.head ho.walk hget
  have hlen : v.length = n := by obtain ⟨_, _, hk⟩ := hk; exact hk.length
  obtain ⟨v', ⟨l', p, e1⟩, e2, e3, e4⟩ := hk.events k3
  refine ⟨v', e1.get, by omega, fun hno => e3 fun e he o hw => hno o (k4 e he _ _ _ hw), fun i => ?_⟩
  rcases e4 i with h | ⟨e, he, o, hw, hi⟩
  · exact .inl h
  · exact .inr ⟨o, k4 e he _ _ _ hw, hi⟩

/-- **C139** for the counter of C137: after a power loss at any moment the counter has been incremented once for each finished
use, or once more (by the use which had begun). -/
theorem counter_power_loss {cap : Nat} {s : Store} {a : AMap} (h : Like cap s a) {name : List Byte} (hn : name.length ≤ 4)
    {v : Byte} (ha : a.get name 1 = some [v]) (m : Nat → Nat) (sched : List Nat) :
    ∃ (c : Conf (Storage.Prog Unit) Store (Acc Unit) Unit Unit) (order : List Nat) (s' : Store),
      run (machine Unit) (Prog.code (cap + 1) cap) sched (start (fun i => increments name (m i)) s) = .ok c ∧
      create c.s.mem false = .ok s' ∧ (∀ i, order.count i ≤ m i ∧ (c.tasks i = .out (.ret ()) → order.count i = m i)) ∧
      (get s' name 1 = .ok (some [v + BitVec.ofNat 8 order.length]) ∨
       c.owner ≠ none ∧ get s' name 1 = .ok (some [v + BitVec.ofNat 8 order.length + 1])) := by
  obtain ⟨c, order, ps', a', s', h1, h2, h3, h4, -, h5⟩ := power_loss h (fun i => increments name (m i))
    (fun i => increments_uses hn (m i)) sched
  obtain ⟨k1, k2⟩ := counted m ha h2
  refine ⟨c, order, s', h1, h4, fun i => ⟨(k2 i).1, fun hi => ?_⟩, ?_⟩
  · obtain ⟨g1, g2⟩ := k2 i
    have hps : ps' i = .ret () := by
      cases ho : c.owner with
      | none =>
        rw [Agrees, ho] at h3
        have := h3.1 i
        rw [hi] at this
        injection this with this
        exact this.symm
      | some j =>
        rw [Agrees, ho] at h3
        obtain ⟨⟨u, k, s0, p, r, a2, s2, -, e1, -⟩, e2⟩ := h3
        by_cases hij : i = j
        · subst hij
          rw [hi] at e1
          cases e1
        · have := e2 i hij
          rw [hi] at this
          injection this with this
          exact this.symm
    rw [g2] at hps
    cases hm : m i - order.count i with
    | zero => omega
    | succ n => rw [hm] at hps; cases hps
  · obtain ⟨v', e1, e2, e3, e4⟩ := h5 name 1 _ hn k1
    have hsav : ∀ o, Saving cap c ps' a' name 1 o → c.owner ≠ none ∧ o = [v + BitVec.ofNat 8 order.length + 1] := by
      rintro o ⟨i, u, k, name', q1, q2, q3, -⟩
      refine ⟨by rw [q1]; simp, ?_⟩
      rw [(k2 i).2] at q2
      cases hm : m i - order.count i with
      | zero => rw [hm] at q2; cases q2
      | succ n =>
        rw [hm, increments] at q2
        injection q2 with e1 e2
        subst e1
        simp only [increment, sets, k1, List.mem_cons, List.not_mem_nil, or_false, Prod.mk.injEq] at q3
        exact q3.2
    match v', e2 with
    | [x], _ =>
      rcases e4 0 with h | ⟨o, ho, h⟩
      · left
        simp only [List.getElem?_cons_zero, Option.some.injEq] at h
        rw [e1, h]
      · right
        obtain ⟨q1, rfl⟩ := hsav o ho
        simp only [List.getElem?_cons_zero, Option.some.injEq] at h
        exact ⟨q1, by rw [e1, h]⟩

/-! ### Many boots -/

/-- The use saves nothing under this name and size. -/
def Avoids {R : Type} (name : List Byte) (n : Nat) : Storage.Prog R → Prop
  | .ret _ => True
  | .get _ _ k => ∀ r, Avoids name n (k r)
  | .set name' obj k => (stripNul name' = stripNul name → obj.length ≠ n) ∧ ∀ r, Avoids name n (k r)

/-- Any number of boots: in each one tasks which do not save the object run for some time, then power is lost and the memory is
opened again, without finding an entry of one byte at the end (C08). -/
inductive Boots (R α : Type) (cap : Nat) (name : List Byte) (n : Nat) : Store → Store → Prop where
  | none (s : Store) : Boots R α cap name n s s
  | more (s s' s'' : Store) (ps : Nat → Lock.Prog (Storage.Prog R) R α) (sched : List Nat)
      (c : Conf (Storage.Prog R) Store (Acc R) R α) : Boots R α cap name n s s' →
      (∀ i, Uses (fun u => Normal u ∧ Avoids name n u) (ps i)) →
      run (machine R) (Prog.code (cap + 1) cap) sched (start ps s') = .ok c → create c.s.mem false = .ok s'' →
      ¬ OneByteTail s'' → Boots R α cap name n s s''

theorem Avoids.onMap {R : Type} {name : List Byte} {n : Nat} {cap : Nat} (p : Storage.Prog R) (hp : Avoids name n p) (a : AMap) :
    (onMap cap p a).2.get name n = a.get name n := by
  induction p generalizing a with
  | ret r => rfl
  | get name' n' k ih => exact ih _ (hp _) a
  | set name' obj k ih =>
    rw [Locked.Store.onMap, ih _ (hp.2 _)]
    have hne : ¬ (stripNul name = stripNul name' ∧ n = obj.length) := fun h => hp.1 h.1.symm h.2.symm
    unfold AMap.set
    split
    · simp only [AMap.get, AMap.put, if_neg hne]
    · split
      · simp only [AMap.get, AMap.put, if_neg hne]
      · rfl

theorem Avoids.sets {R : Type} {name : List Byte} {n : Nat} {cap : Nat} (p : Storage.Prog R) (hp : Avoids name n p) (a : AMap)
    {name' o : List Byte} (h : (name', o) ∈ sets cap p a) : ¬ (stripNul name' = stripNul name ∧ o.length = n) := by
  induction p generalizing a with
  | ret r => cases h
  | get name' n' k ih => exact ih _ (hp _) a h
  | set name' obj k ih =>
    rw [LockedPower.sets, List.mem_cons] at h
    rcases h with h | h
    · cases h
      exact fun h => hp.1 h.1 h.2
    · exact ih _ (hp.2 _) _ h

theorem uses_mono {R α : Type} {Ok Ok' : Storage.Prog R → Prop} (h : ∀ u, Ok u → Ok' u) {p : Lock.Prog (Storage.Prog R) R α}
    (hp : Uses Ok p) : Uses Ok' p := by
  induction p with
  | ret x => trivial
  | use u k ih => exact ⟨h u hp.1, fun r => ih r (hp.2 r)⟩

/-- **C139**: an object of the storage is found with its value after any number of boots with power losses at any moment, if
the tasks save nothing under its name and size. -/
theorem boots_keep {R α : Type} {cap : Nat} {s s' : Store} {a : AMap} (h : Like cap s a) {name : List Byte} (hn : name.length ≤ 4)
    {n : Nat} {v : List Byte} (ha : a.get name n = some v) (hb : Boots R α cap name n s s') :
    get s' name n = .ok (some v) ∧ ∃ a', Like cap s' a' := by
  induction hb with
  | none =>
    obtain ⟨⟨l, ho, -, hg⟩, -⟩ := id h
    exact ⟨by rw [ho.get, ← hg name n hn, ha], a, h⟩
  | more s' s'' ps sched c _ hu hr hs ht ih =>
    obtain ⟨k1, a1, k2⟩ := ih
    have ha1 : a1.get name n = some v := by
      obtain ⟨⟨l, ho, -, hg⟩, -⟩ := id k2
      rw [ho.get, ← hg name n hn] at k1
      exact Res.ok.inj k1
    obtain ⟨c', order, ps', a', s2, h1, h2, h3, h4, h5, h6⟩ := power_loss k2 ps (fun i => uses_mono (fun u hu => hu.1) (hu i)) sched
    rw [hr] at h1
    cases h1
    rw [hs] at h4
    cases h4
    have hkeep : a'.get name n = some v := by
      clear h3 h5 h6
      have hu' : ∀ {order : List Nat} {ps' : Nat → Lock.Prog (Storage.Prog R) R α} {a' : AMap},
          Serves (effect R cap) ps a1 order ps' a' → ∀ i, Uses (fun u => Normal u ∧ Avoids name n u) (ps' i) := fun h => h.uses hu
      induction h2 with
      | nil => exact ha1
      | snoc order ps1 a2 i u k r a3 hsv hi he ih =>
        have := hu' hsv i
        rw [hi] at this
        have he' := congrArg Prod.snd he
        simp only at he'
        rw [← he', Avoids.onMap u this.1.2, ih]
    obtain ⟨v', e1, -, e2, -⟩ := h6 name n v hn hkeep
    have hv : v' = v := e2 fun o ho => by
      obtain ⟨i, u, k, name', q1, q2, q3, q4⟩ := ho
      have := h2.uses hu i
      rw [q2] at this
      exact Avoids.sets u this.1.2 a' q3 q4
    subst hv
    refine ⟨e1, ?_⟩
    obtain ⟨⟨l, ho, -⟩, hl⟩ := k2
    have hm : c.s.mem = s''.mem := by
      unfold create at hs
      simp only [Bool.false_eq_true, if_false, Res.bind_eq_ok] at hs
      obtain ⟨fh, -, hs⟩ := hs
      cases hs
      rfl
    obtain ⟨l', ho'⟩ := opened_of_create (by rw [hm, h5, ← hl]; exact ho.cap) hs ht
    exact ⟨_, ho'.answers, h5⟩

/-! ### What the lock does not do -/

/-- A storage with one object of two bytes. -/
def pair : Store := ⟨[8, 0, 0x41, 0, 0, 0, 1, 1] ++ List.replicate 24 0, 8⟩

/-- One task replaces it. -/
def replacing : Nat → Lock.Prog (Storage.Prog Unit) Unit Unit
  | 0 => .use (.set [0x41] [2, 2] fun _ => .ret ()) fun _ => .ret ()
  | _ => .ret ()

/-- **C139**, finding: the lock does not make a save atomic with respect to power losses: the object found afterwards can be
neither the old one nor the new one. -/
theorem torn_under_lock : ∃ sched c s', get pair [0x41] 2 = .ok (some [1, 1]) ∧
    run (machine Unit) (Prog.code 33 32) sched (start replacing pair) = .ok c ∧ create c.s.mem false = .ok s' ∧
    get s' [0x41] 2 = .ok (some [2, 1]) := by
  have h : (match run (machine Unit) (Prog.code 33 32) (List.replicate 9 0) (start replacing pair) with
    | .ok c => (match create c.s.mem false with
      | .ok s => get s [0x41] 2 == .ok (some [2, 1])
      | _ => false)
    | _ => false) = true := by decide +kernel
  cases hr : run (machine Unit) (Prog.code 33 32) (List.replicate 9 0) (start replacing pair) with
  | ub => rw [hr] at h; cases h
  | hang => rw [hr] at h; cases h
  | ok c =>
    rw [hr] at h
    dsimp only at h
    cases hc : create c.s.mem false with
    | ub => rw [hc] at h; cases h
    | hang => rw [hc] at h; cases h
    | ok s =>
      rw [hc] at h
      exact ⟨_, c, s, by decide +kernel, hr, hc, by simpa using h⟩

/-! ### A concrete case -/

/-- Two tasks add two each to the second counter of C129; power is lost after 160 turns, while one of them has the lock: two
increments are kept. -/
example : (match run (machine Unit) (Prog.code 33 32) (List.replicate 80 [0, 1]).flatten
      (start (fun i => increments [0x42] (if i ≤ 1 then 2 else 0)) counters) with
    | .ok c => (match create c.s.mem false with
      | .ok s => (c.owner, s.mem.take 14)
      | _ => (none, []))
    | _ => (none, [])) = (some 0, [7, 0, 0x41, 0, 0, 0, 1, 7, 0, 0x42, 0, 0, 0, 7]) := by decide +kernel

/-- These tasks save nothing under the name of the first counter. -/
example : ∀ i, Uses (fun u => Normal u ∧ Avoids [0x41] 1 u) (increments [0x42] (if i ≤ 1 then 2 else 0)) := by
  have key : ∀ m, Uses (fun u => Normal u ∧ Avoids [0x41] 1 u) (increments [0x42] m) := by
    intro m
    induction m with
    | zero => trivial
    | succ m ih =>
      refine ⟨⟨increment_normal (by decide), fun r => ?_⟩, fun _ => ih⟩
      dsimp only
      split
      · exact ⟨fun h => absurd h (by decide), fun _ => trivial⟩
      · trivial
  exact fun i => key _

end Verif.App.LockedPower
