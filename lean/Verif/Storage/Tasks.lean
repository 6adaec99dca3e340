import Verif.Storage.Durable
/-!
# Tasks which share a storage (C129)

PersistentStorage has no lock.  On a system with several tasks (the library has a FreeRTOS flavour) or with interrupt
handlers the calls of different tasks interleave, access by access.  Here `get` and `set` are written once more as
programs of single accesses to the bytes of the region and to `free_head_`, in the order of the source text; tasks are
programs of calls, and a schedule says which task performs the next access.

Simplifications: accesses are performed one after the other (sequential consistency); that is what C++ guarantees for
programs without data races, and `no_race` shows that there are none.  A comparison of an `idx` reads all four bytes,
also when an earlier one differs.  Copies are done byte by byte in ascending order.
-/
namespace Verif.Storage

/-- Programs of single accesses to the data members of a storage. -/
inductive Acc (α : Type) where
  | ret (a : α)
  /-- a loop which never ends -/
  | hang
  /-- `free_head_` is read -/
  | head (k : Nat → Acc α)
  /-- `free_head_` is written -/
  | setHead (n : Nat) (k : Acc α)
  /-- the byte at `i` is read -/
  | read (i : Nat) (k : Byte → Acc α)
  /-- the byte at `i` is written -/
  | write (i : Nat) (b : Byte) (k : Acc α)

namespace Acc

/-- Sequencing. -/
def bind {α β : Type} : Acc α → (α → Acc β) → Acc β
  | .ret a, f => f a
  | .hang, _ => .hang
  | .head k, f => .head fun n => (k n).bind f
  | .setHead n k, f => .setHead n (k.bind f)
  | .read i k, f => .read i fun b => (k b).bind f
  | .write i b k, f => .write i b (k.bind f)

/-- One access; outside of the region it is undefined. -/
def step {α : Type} : Acc α → Store → Res (Acc α × Store)
  | .ret a, s => .ok (.ret a, s)
  | .hang, _ => .hang
  | .head k, s => .ok (k s.freeHead, s)
  | .setHead n k, s => .ok (k, ⟨s.mem, n⟩)
  | .read i k, s => match s.mem[i]? with
    | some b => .ok (k b, s)
    | none => .ub
  | .write i b k, s => if i < s.mem.length then .ok (k, ⟨s.mem.set i b, s.freeHead⟩) else .ub

/-- The whole program without anybody else. -/
def exec {α : Type} : Acc α → Store → Res (α × Store)
  | .ret a, s => .ok (a, s)
  | .hang, _ => .hang
  | .head k, s => (k s.freeHead).exec s
  | .setHead n k, s => k.exec ⟨s.mem, n⟩
  | .read i k, s => match s.mem[i]? with
    | some b => (k b).exec s
    | none => .ub
  | .write i b k, s => if i < s.mem.length then k.exec ⟨s.mem.set i b, s.freeHead⟩ else .ub

/-- The next access reads or writes the byte at `i`. -/
def Touches {α : Type} (i : Nat) : Acc α → Prop
  | .read j _ => j = i
  | .write j _ _ => j = i
  | _ => False

/-- The next access writes the byte at `i`. -/
def Alters {α : Type} (i : Nat) : Acc α → Prop
  | .write j _ _ => j = i
  | _ => False

/-- The next access writes `free_head_`. -/
def AltersHead {α : Type} : Acc α → Prop
  | .setHead _ _ => True
  | _ => False

/-- The result, if the program has come to its end. -/
def result {α : Type} : Acc α → Option α
  | .ret a => some a
  | _ => none

end Acc

/-! ## The code, access by access -/

/-- `n` bytes from `p` on are read. -/
def readNA (p : Nat) : Nat → Acc (List Byte)
  | 0 => .ret []
  | n + 1 => .read p fun b => (readNA (p + 1) n).bind fun bs => .ret (b :: bs)

/-- The bytes are written from `p` on (`memcpy`, `idx.copy`). -/
def writeNA (p : Nat) : List Byte → Acc Unit
  | [] => .ret ()
  | b :: bs => .write p b (writeNA (p + 1) bs)

/-- The field `size` is read, PersistentStorage.h:96. -/
def nodeSizeA (p : Nat) : Acc Nat := .read p fun lo => .read (p + 1) fun hi => .ret (lo.toNat + 256 * hi.toNat)

/-- `node.idx == idx && node.size == sizeof(Node<T>)`, PersistentStorage.h:19-40, 81 and 130. -/
def nodeMatchesA (p : Nat) (name : List Byte) (n : Nat) : Acc Bool :=
  if 4 < name.length then .ret false
  else (readNA (p + 2) 4).bind fun idx =>
    if idx.take name.length == name && (idx.drop name.length).all (· == 0) then
      (nodeSizeA p).bind fun sz => .ret (sz == descSize + n)
    else .ret false

/-- The loop of `getIdx`, PersistentStorage.h:127-135; `free_head_` is read in every round. -/
def getIdxLoopA (name : List Byte) (n : Nat) : Nat → Nat → Acc (Option Nat)
  | 0, _ => .hang
  | fuel + 1, pos => .head fun fh =>
    if pos + descSize ≤ fh then
      (nodeMatchesA pos name n).bind fun
        | true => .ret (some pos)
        | false => (nodeSizeA pos).bind fun sz => getIdxLoopA name n fuel (add32 pos sz)
    else .ret none

/-- `get<T>(idx)`, PersistentStorage.h:76-87. -/
def getA (fuel : Nat) (name : List Byte) (n : Nat) : Acc (Option (List Byte)) :=
  (getIdxLoopA name n fuel 0).bind fun
    | some pos => (nodeMatchesA pos name n).bind fun
      | true => (readNA (pos + descSize) n).bind fun d => .ret (some d)
      | false => .ret none
    | none => .ret none

/-- `set<T>(idx, object)`, PersistentStorage.h:50-74; `cap = buffer_.size()`.  `free_head_` is read for the test (60),
for the place of the record (65) and for the sum (72). -/
def setA (fuel cap : Nat) (name obj : List Byte) : Acc Bool :=
  (getIdxLoopA name obj.length fuel 0).bind fun
    | some pos => (writeNA (pos + descSize) obj).bind fun _ => .ret true
    | none => .head fun fh =>
      if fh + (descSize + obj.length) > cap then .ret false
      else .head fun at_ => (writeNA (at_ + 2) (storedIdx name)).bind fun _ =>
        (writeNA at_ (le16 (descSize + obj.length))).bind fun _ =>
        (writeNA (at_ + descSize) obj).bind fun _ => .head fun fh' => .setHead (add32 fh' (descSize + obj.length)) (.ret true)

/-! ### Without anybody else this is the model of C01 – C05 -/

theorem Acc.exec_bind {α β : Type} (p : Acc α) (f : α → Acc β) (s : Store) :
    (p.bind f).exec s = (p.exec s >>= fun r => (f r.1).exec r.2) := by
  induction p generalizing s with
  | ret a => rfl
  | hang => rfl
  | head k ih => exact ih _ s
  | setHead n k ih => exact ih _
  | read i k ih =>
    simp only [bind, exec]
    cases s.mem[i]? with
    | none => rfl
    | some b => exact ih b s
  | write i b k ih =>
    simp only [bind, exec]
    by_cases h : i < s.mem.length
    · rw [if_pos h, if_pos h]; exact ih _
    · rw [if_neg h, if_neg h]; rfl

theorem readNA_exec (p n : Nat) (s : Store) (h : p + n ≤ s.mem.length) : (readNA p n).exec s = .ok (sub s.mem p n, s) := by
  induction n generalizing p with
  | zero => simp [readNA, Acc.exec, sub]
  | succ n ih =>
    simp only [readNA, Acc.exec]
    rw [List.getElem?_eq_getElem (by omega)]
    simp only [Acc.exec_bind]
    rw [ih (p + 1) (by omega)]
    simp only [Res.bind_ok, Acc.exec, sub, Res.ok.injEq, Prod.mk.injEq, and_true]
    rw [List.drop_eq_getElem_cons (i := p) (by omega), List.take_succ_cons]

theorem readNA_ub (p n : Nat) (s : Store) (hn : n ≠ 0) (h : ¬ p + n ≤ s.mem.length) : (readNA p n).exec s = .ub := by
  induction n generalizing p with
  | zero => exact absurd rfl hn
  | succ n ih =>
    simp only [readNA, Acc.exec]
    by_cases hp : p < s.mem.length
    · rw [List.getElem?_eq_getElem hp]
      simp only [Acc.exec_bind]
      rw [ih (p + 1) (by omega) (by omega)]
      rfl
    · rw [List.getElem?_eq_none (by omega)]

theorem nodeSizeA_exec (p : Nat) (s : Store) : (nodeSizeA p).exec s = (nodeSize s.mem p >>= fun v => .ok (v, s)) := by
  unfold nodeSizeA nodeSize
  simp only [Acc.exec]
  cases s.mem[p]? with
  | none => rfl
  | some lo => cases s.mem[p + 1]? <;> rfl

theorem nodeMatchesA_exec (p : Nat) (name : List Byte) (n : Nat) (s : Store) :
    (nodeMatchesA p name n).exec s = (nodeMatches s.mem p name n >>= fun b => .ok (b, s)) := by
  unfold nodeMatchesA nodeMatches idxEq nodeIdx readN
  by_cases h4 : 4 < name.length
  · rw [if_pos h4, if_pos h4]; rfl
  · rw [if_neg h4, if_neg h4, Acc.exec_bind]
    by_cases hp : p + 2 + 4 ≤ s.mem.length
    · rw [readNA_exec _ _ _ hp, if_pos hp]
      simp only [Res.bind_ok, sub]
      split
      · rename_i h
        rw [Acc.exec_bind, nodeSizeA_exec]
        cases nodeSize s.mem p <;> rfl
      · rfl
    · rw [readNA_ub _ _ _ (by decide) hp, if_neg hp]; rfl

theorem getIdxLoopA_exec (name : List Byte) (n fuel pos : Nat) (s : Store) :
    (getIdxLoopA name n fuel pos).exec s = (getIdxLoop s.mem s.freeHead name n fuel pos >>= fun r => .ok (r, s)) := by
  induction fuel generalizing pos with
  | zero => rfl
  | succ f ih =>
    rw [getIdxLoopA, getIdxLoop]
    simp only [Acc.exec]
    by_cases h : pos + descSize ≤ s.freeHead
    · rw [if_pos h, if_pos h, Acc.exec_bind, nodeMatchesA_exec]
      cases nodeMatches s.mem pos name n with
      | ub => rfl
      | hang => rfl
      | ok b =>
        cases b with
        | true => rfl
        | false =>
          simp only [Res.bind_ok, Acc.exec_bind, nodeSizeA_exec]
          cases nodeSize s.mem pos with
          | ub => rfl
          | hang => rfl
          | ok v => simp only [Res.bind_ok]; rw [ih]; rfl
    · rw [if_neg h, if_neg h]; rfl

theorem nodeMatches_room {m : List Byte} {p : Nat} {name : List Byte} {n : Nat} (h : nodeMatches m p name n = .ok true) :
    p + 6 ≤ m.length := by
  unfold nodeMatches idxEq nodeIdx readN at h
  by_cases h4 : 4 < name.length
  · rw [if_pos h4] at h; cases h
  · rw [if_neg h4] at h
    by_cases hp : p + 2 + 4 ≤ m.length
    · omega
    · rw [if_neg hp] at h; cases h

/-- The accesses of `get`, performed one after the other, are the model's `get`. -/
theorem getA_exec (name : List Byte) (n : Nat) (s : Store) :
    (getA (s.freeHead + 1) name n).exec s = (get s name n >>= fun r => .ok (r, s)) := by
  unfold getA get getIdx
  rw [Acc.exec_bind, getIdxLoopA_exec]
  cases getIdxLoop s.mem s.freeHead name n (s.freeHead + 1) 0 with
  | ub => rfl
  | hang => rfl
  | ok r =>
    cases r with
    | none => rfl
    | some pos =>
      simp only [Res.bind_ok, Acc.exec_bind, nodeMatchesA_exec]
      cases hm : nodeMatches s.mem pos name n with
      | ub => rfl
      | hang => rfl
      | ok b =>
        cases b with
        | false => rfl
        | true =>
          have := nodeMatches_room hm
          simp only [Res.bind_ok, Acc.exec_bind]
          unfold readN
          by_cases hr : pos + descSize + n ≤ s.mem.length
          · rw [readNA_exec _ _ _ hr, if_pos trivial, if_pos hr]; rfl
          · rw [readNA_ub _ _ _ (by simp only [descSize] at hr; omega) hr, if_pos trivial, if_neg hr]; rfl

theorem writeNA_exec (p : Nat) (bs : List Byte) (s : Store) :
    (writeNA p bs).exec s = (applyWrites s.mem (writesAt p bs) >>= fun m => .ok ((), ⟨m, s.freeHead⟩)) := by
  induction bs generalizing p s with
  | nil => rfl
  | cons b bs ih =>
    rw [writesAt_cons]
    simp only [writeNA, Acc.exec, applyWrites]
    by_cases h : p < s.mem.length
    · rw [if_pos h, if_pos h]; exact ih (p + 1) ⟨s.mem.set p b, s.freeHead⟩
    · rw [if_neg h, if_neg h]; rfl

/-- The accesses of `set`, performed one after the other, are the model's `set`. -/
theorem setA_exec (name obj : List Byte) (s : Store) :
    (setA (s.freeHead + 1) s.mem.length name obj).exec s = (set s name obj >>= fun r => .ok (r.2, r.1)) := by
  unfold setA set setPlan getIdx
  rw [Acc.exec_bind, getIdxLoopA_exec]
  cases getIdxLoop s.mem s.freeHead name obj.length (s.freeHead + 1) 0 with
  | ub => rfl
  | hang => rfl
  | ok r =>
    cases r with
    | some pos =>
      simp only [Res.bind_ok, Acc.exec_bind, writeNA_exec]
      cases applyWrites s.mem (writesAt (pos + descSize) obj) <;> rfl
    | none =>
      simp only [Res.bind_ok, Acc.exec]
      by_cases hr : s.freeHead + (descSize + obj.length) > s.mem.length
      · rw [if_pos hr, if_pos hr]; rfl
      · rw [if_neg hr, if_neg hr]
        simp only [Acc.exec, Acc.exec_bind, writeNA_exec, Res.bind_ok, applyWrites_append]
        cases applyWrites s.mem (writesAt (s.freeHead + 2) (storedIdx name)) with
        | ub => rfl
        | hang => rfl
        | ok m1 =>
          simp only [Res.bind_ok]
          cases applyWrites m1 (writesAt s.freeHead (le16 (descSize + obj.length))) with
          | ub => rfl
          | hang => rfl
          | ok m2 =>
            simp only [Res.bind_ok]
            cases applyWrites m2 (writesAt (s.freeHead + descSize) obj) <;> rfl

/-! ## Tasks -/

/-- A task: a program of calls, which may depend on the answers. -/
inductive Prog (β : Type) where
  | ret (b : β)
  | get (name : List Byte) (n : Nat) (k : Option (List Byte) → Prog β)
  | set (name obj : List Byte) (k : Bool → Prog β)

/-- The accesses of a task. -/
def Prog.code {β : Type} (fuel cap : Nat) : Prog β → Acc β
  | .ret b => .ret b
  | .get name n k => (getA fuel name n).bind fun r => (k r).code fuel cap
  | .set name obj k => (setA fuel cap name obj).bind fun r => (k r).code fuel cap

/-- The task without the others. -/
def Prog.alone {β : Type} : Prog β → Store → Res (β × Store)
  | .ret b, s => .ok (b, s)
  | .get name n k, s => do (k (← Storage.get s name n)).alone s
  | .set name obj k, s => do
    let (s', r) ← Storage.set s name obj
    (k r).alone s'

/-- Replace the program of one task. -/
def put {ι α : Type} [DecidableEq ι] (f : ι → α) (t : ι) (a : α) : ι → α := fun u => if u = t then a else f u

/-- The schedule says who performs the next access; a task which has come to its end does nothing. -/
def interleave {ι β : Type} [DecidableEq ι] : List ι → (ι → Acc β) → Store → Res ((ι → Acc β) × Store)
  | [], ps, s => .ok (ps, s)
  | t :: ts, ps, s => do
    let (p, s') ← (ps t).step s
    interleave ts (put ps t p) s'

/-- Two names and sizes mean the same object: NULs at the end of a name do not count. -/
def Same (a : List Byte) (n : Nat) (b : List Byte) (m : Nat) : Prop := stripNul a = stripNul b ∧ n = m

/-- The task writes only objects it owns, and reads no object which another task owns. -/
def Prog.Polite {β : Type} (mine others : List Byte → Nat → Prop) : Prog β → Prop
  | .ret _ => True
  | .get name n k => (∀ b m, others b m → ¬ Same name n b m) ∧ ∀ r, (k r).Polite mine others
  | .set name obj k => mine name obj.length ∧ ∀ r, (k r).Polite mine others

/-! ## Programs within a part of the region -/

/-- Alone on `m`, the program reads only in `R`, writes only in `W`, does not write `free_head_`, has no undefined
access, ends, and then `Q` holds. -/
def Acc.Safe {α : Type} (R W : Nat → Prop) (fh : Nat) : Acc α → List Byte → (α → List Byte → Prop) → Prop
  | .ret a, m, Q => Q a m
  | .hang, _, _ => False
  | .head k, m, Q => (k fh).Safe R W fh m Q
  | .setHead _ _, _, _ => False
  | .read i k, m, Q => R i ∧ ∃ b, m[i]? = some b ∧ (k b).Safe R W fh m Q
  | .write i b k, m, Q => W i ∧ i < m.length ∧ k.Safe R W fh (m.set i b) Q

theorem Acc.Safe.mono {α : Type} {R W : Nat → Prop} {fh : Nat} {p : Acc α} {m : List Byte} {Q Q' : α → List Byte → Prop}
    (h : p.Safe R W fh m Q) (hq : ∀ a m, Q a m → Q' a m) : p.Safe R W fh m Q' := by
  induction p generalizing m with
  | ret a => exact hq _ _ h
  | hang => exact h
  | head k ih => exact ih _ h
  | setHead n k ih => exact h
  | read i k ih => obtain ⟨h1, b, h2, h3⟩ := h; exact ⟨h1, b, h2, ih b h3⟩
  | write i b k ih => obtain ⟨h1, h2, h3⟩ := h; exact ⟨h1, h2, ih h3⟩

theorem Acc.Safe.bind {α β : Type} {R W : Nat → Prop} {fh : Nat} {p : Acc α} {f : α → Acc β} {m : List Byte}
    {Q : β → List Byte → Prop} (h : p.Safe R W fh m fun a m' => (f a).Safe R W fh m' Q) : (p.bind f).Safe R W fh m Q := by
  induction p generalizing m with
  | ret a => exact h
  | hang => exact h
  | head k ih => exact ih _ h
  | setHead n k ih => exact h
  | read i k ih => obtain ⟨h1, b, h2, h3⟩ := h; exact ⟨h1, b, h2, ih b h3⟩
  | write i b k ih => obtain ⟨h1, h2, h3⟩ := h; exact ⟨h1, h2, ih h3⟩

/-- `n` accesses of a program which is alone. -/
def Acc.steps {α : Type} : Nat → Acc α → Store → Res (Acc α × Store)
  | 0, p, s => .ok (p, s)
  | n + 1, p, s => do
    let (p', s') ← p.step s
    p'.steps n s'

theorem Acc.steps_ret {α : Type} (n : Nat) (a : α) (s : Store) : (Acc.ret a).steps n s = .ok (.ret a, s) := by
  induction n with
  | zero => rfl
  | succ n ih => exact ih

theorem Acc.Safe.ends {α : Type} {R W : Nat → Prop} {fh : Nat} {p : Acc α} {m : List Byte} {Q : α → List Byte → Prop}
    (h : p.Safe R W fh m Q) : ∃ (a : α) (m' : List Byte) (N : Nat), Q a m' ∧ ∀ n, N ≤ n → p.steps n ⟨m, fh⟩ = .ok (.ret a, ⟨m', fh⟩) := by
  induction p generalizing m with
  | ret a => exact ⟨a, m, 0, h, fun n _ => steps_ret n a _⟩
  | hang => exact h.elim
  | head k ih =>
    obtain ⟨a, m', N, hq, hs⟩ := ih _ h
    refine ⟨a, m', N + 1, hq, fun n hn => ?_⟩
    obtain ⟨n, rfl⟩ : ∃ j, n = j + 1 := ⟨n - 1, by omega⟩
    exact hs n (by omega)
  | setHead n k ih => exact h.elim
  | read i k ih =>
    obtain ⟨h1, b, h2, h3⟩ := h
    obtain ⟨a, m', N, hq, hs⟩ := ih b h3
    refine ⟨a, m', N + 1, hq, fun n hn => ?_⟩
    obtain ⟨n, rfl⟩ : ∃ j, n = j + 1 := ⟨n - 1, by omega⟩
    simp only [steps, step, h2]
    exact hs n (by omega)
  | write i b k ih =>
    obtain ⟨h1, h2, h3⟩ := h
    obtain ⟨a, m', N, hq, hs⟩ := ih h3
    refine ⟨a, m', N + 1, hq, fun n hn => ?_⟩
    obtain ⟨n, rfl⟩ : ∃ j, n = j + 1 := ⟨n - 1, by omega⟩
    simp only [steps, step, if_pos h2]
    exact hs n (by omega)

/-- One access of a safe program, in a memory which agrees with its own on what it may read. -/
theorem Acc.Safe.step {α : Type} {R W : Nat → Prop} {fh : Nat} {p : Acc α} {m g : List Byte} {Q : α → List Byte → Prop}
    (h : p.Safe R W fh m Q) (hl : g.length = m.length) (hg : ∀ i, R i → g[i]? = m[i]?) :
    ∃ (p' : Acc α) (m' g' : List Byte), p.step ⟨m, fh⟩ = .ok (p', ⟨m', fh⟩) ∧ p.step ⟨g, fh⟩ = .ok (p', ⟨g', fh⟩) ∧ p'.Safe R W fh m' Q ∧
      m'.length = m.length ∧ g'.length = g.length ∧ (∀ i : Nat, g[i]? = m[i]? → g'[i]? = m'[i]?) ∧
      ∀ i, ¬ W i → g'[i]? = g[i]? := by
  cases p with
  | ret a => exact ⟨_, m, g, rfl, rfl, h, rfl, rfl, fun _ hi => hi, fun _ _ => rfl⟩
  | hang => exact h.elim
  | head k => exact ⟨_, m, g, rfl, rfl, h, rfl, rfl, fun _ hi => hi, fun _ _ => rfl⟩
  | setHead n k => exact h.elim
  | read i k =>
    obtain ⟨h1, b, h2, h3⟩ := h
    refine ⟨k b, m, g, ?_, ?_, h3, rfl, rfl, fun _ hi => hi, fun _ _ => rfl⟩
    · simp only [Acc.step, h2]
    · simp only [Acc.step, hg i h1, h2]
  | write i b k =>
    obtain ⟨h1, h2, h3⟩ := h
    refine ⟨k, m.set i b, g.set i b, ?_, ?_, h3, by simp, by simp, fun j hj => ?_, fun j hj => ?_⟩
    · simp only [Acc.step, if_pos h2]
    · simp only [Acc.step]; rw [if_pos (by omega)]
    · simp only [List.getElem?_set, hl, hj]
    · rw [List.getElem?_set, if_neg]
      rintro rfl; exact hj h1

theorem put_same {ι α : Type} [DecidableEq ι] (f : ι → α) (t : ι) (a : α) : put f t a t = a := if_pos rfl
theorem put_other {ι α : Type} [DecidableEq ι] (f : ι → α) {t u : ι} (a : α) (h : u ≠ t) : put f t a u = f u := if_neg h

/-- Programs which write in disjoint parts, and read nothing which another one may write, run in every interleaving as
if they were alone: after any schedule each of them is where it would be after as many accesses of its own, and the
memory it may read is what it would be. -/
theorem interleave_alone {ι β : Type} [DecidableEq ι] {R W : ι → Nat → Prop} {fh : Nat} {Q : ι → β → List Byte → Prop}
    (hdis : ∀ t u i, t ≠ u → W t i → ¬ R u i) (sched : List ι) :
    ∀ (ps : ι → Acc β) (ms : ι → List Byte) (g : List Byte), (∀ t, (ps t).Safe (R t) (W t) fh (ms t) (Q t)) →
      (∀ t, (ms t).length = g.length) → (∀ t i, R t i → g[i]? = (ms t)[i]?) →
      ∃ (ps' : ι → Acc β) (ms' : ι → List Byte) (g' : List Byte), interleave sched ps ⟨g, fh⟩ = .ok (ps', ⟨g', fh⟩) ∧
        (∀ t, (ps t).steps (sched.count t) ⟨ms t, fh⟩ = .ok (ps' t, ⟨ms' t, fh⟩)) ∧
        (∀ t, (ps' t).Safe (R t) (W t) fh (ms' t) (Q t)) ∧ g'.length = g.length ∧ (∀ t i, R t i → g'[i]? = (ms' t)[i]?) ∧
        ∀ i, (∀ t, ¬ W t i) → g'[i]? = g[i]? := by
  induction sched with
  | nil => intro ps ms g h1 h2 h3; exact ⟨ps, ms, g, rfl, fun _ => rfl, h1, rfl, h3, fun _ _ => rfl⟩
  | cons t ts ih =>
    intro ps ms g h1 h2 h3
    obtain ⟨p', m', g1, k1, k2, k3, k4, k5, k6, k7⟩ := (h1 t).step (h2 t).symm (h3 t)
    obtain ⟨ps', ms', g', j1, j2, j3, j4, j5, j6⟩ := ih (put ps t p') (put ms t m') g1
      (fun u => by
        by_cases hu : u = t
        · subst hu; rw [put_same, put_same]; exact k3
        · rw [put_other _ _ hu, put_other _ _ hu]; exact h1 u)
      (fun u => by
        by_cases hu : u = t
        · subst hu; rw [put_same, k4, h2, k5]
        · rw [put_other _ _ hu, h2, k5])
      (fun u i hi => by
        by_cases hu : u = t
        · subst hu; rw [put_same]; exact k6 i (h3 u i hi)
        · rw [put_other _ _ hu, k7 i fun hw => hdis t u i (Ne.symm hu) hw hi]; exact h3 u i hi)
    refine ⟨ps', ms', g', ?_, fun u => ?_, j3, by rw [j4, k5], j5, fun i hi => by rw [j6 i hi, k7 i (hi t)]⟩
    · rw [interleave, k2]; exact j1
    · have := j2 u
      by_cases hu : u = t
      · subst hu
        rw [put_same, put_same] at this
        rw [List.count_cons_self, Acc.steps, k1]; exact this
      · rw [put_other _ _ hu, put_other _ _ hu] at this
        rw [List.count_cons_of_ne (Ne.symm hu)]; exact this

/-! ## The footprint of the calls -/

theorem Acc.Safe.exact {α : Type} {R W : Nat → Prop} {fh : Nat} {p : Acc α} {m : List Byte}
    (h : p.Safe R W fh m fun _ _ => True) {a : α} {m' : List Byte} {fh' : Nat} (he : p.exec ⟨m, fh⟩ = .ok (a, ⟨m', fh'⟩)) :
    p.Safe R W fh m fun a1 m1 => a1 = a ∧ m1 = m' := by
  induction p generalizing m with
  | ret a => cases he; exact ⟨rfl, rfl⟩
  | hang => exact h
  | head k ih => exact ih _ h he
  | setHead n k ih => exact h
  | read i k ih =>
    obtain ⟨h1, b, h2, h3⟩ := h
    simp only [exec, h2] at he
    exact ⟨h1, b, h2, ih b h3 he⟩
  | write i b k ih =>
    obtain ⟨h1, h2, h3⟩ := h
    simp only [exec] at he
    rw [if_pos h2] at he
    exact ⟨h1, h2, ih h3 he⟩

theorem readNA_safe {R W : Nat → Prop} {fh p n : Nat} {m : List Byte} (hr : ∀ i, p ≤ i → i < p + n → R i)
    (h : p + n ≤ m.length) : (readNA p n).Safe R W fh m fun r m' => r = sub m p n ∧ m' = m := by
  refine Acc.Safe.exact ?_ (readNA_exec p n ⟨m, fh⟩ h)
  induction n generalizing p with
  | zero => trivial
  | succ n ih =>
    refine ⟨hr p (by omega) (by omega), _, List.getElem?_eq_getElem (by omega), ?_⟩
    exact (ih (fun i h1 h2 => hr i (by omega) (by omega)) (by omega)).bind (Q := fun _ _ => True)

theorem nodeSizeA_safe {R W : Nat → Prop} {fh p v : Nat} {m : List Byte} (h0 : R p) (h1 : R (p + 1))
    (hv : nodeSize m p = .ok v) : (nodeSizeA p).Safe R W fh m fun r m' => r = v ∧ m' = m := by
  refine Acc.Safe.exact ?_ (by rw [nodeSizeA_exec]; simp only [hv]; rfl)
  unfold nodeSize at hv
  rw [Res.bind_eq_ok] at hv
  obtain ⟨lo, k1, hv⟩ := hv
  rw [Res.bind_eq_ok] at hv
  obtain ⟨hi, k2, -⟩ := hv
  cases e1 : m[p]? with
  | none => rw [e1] at k1; cases k1
  | some b1 =>
    cases e2 : m[p + 1]? with
    | none => rw [e2] at k2; cases k2
    | some b2 => exact ⟨h0, b1, e1, h1, b2, e2, trivial⟩

theorem nodeMatchesA_safe {R W : Nat → Prop} {fh p v : Nat} {m : List Byte} (hr : ∀ i, p ≤ i → i < p + 6 → R i)
    (hp : p + 6 ≤ m.length) (hv : nodeSize m p = .ok v) (name : List Byte) (n : Nat) :
    (nodeMatchesA p name n).Safe R W fh m fun r m' => r = hit m name n (p, v) ∧ m' = m := by
  refine Acc.Safe.exact ?_ (by rw [nodeMatchesA_exec, nodeMatches_hit hp hv]; rfl)
  unfold nodeMatchesA
  split
  · trivial
  · refine Acc.Safe.bind ((readNA_safe (fun i h1 h2 => hr i (by omega) (by omega)) (by omega)).mono ?_)
    rintro idx m' ⟨-, rfl⟩
    split
    · refine Acc.Safe.bind ((nodeSizeA_safe (hr _ (by omega) (by omega)) (hr _ (by omega) (by omega)) hv).mono ?_)
      intros; trivial
    · trivial

theorem getIdxLoopA_safe {R W : Nat → Prop} {m : List Byte} (hcap : CapOk m.length) {fh pos : Nat} {l : List (Nat × Nat)}
    (hw : WalkL m pos l fh) (hr : ∀ e ∈ l, ∀ i, e.1 ≤ i → i < e.1 + 6 → R i) (name : List Byte) (n fuel : Nat)
    (hfuel : fh - pos < fuel) :
    (getIdxLoopA name n fuel pos).Safe R W fh m fun r m' => r = (l.find? (hit m name n)).map Prod.fst ∧ m' = m := by
  refine Acc.Safe.exact ?_ (by rw [getIdxLoopA_exec, getIdxLoop_list hcap hw name n fuel hfuel]; rfl)
  induction fuel generalizing pos l with
  | zero => omega
  | succ f ih =>
    rw [getIdxLoopA]
    simp only [Acc.Safe]
    split
    · rename_i h6
      simp only [descSize] at h6
      cases hw with
      | nil => omega
      | cons _ v _ l h1 h2 h3 h4 h5 =>
        have hle := h5.le
        refine Acc.Safe.bind ((nodeMatchesA_safe (hr (pos, v) (by simp)) h1 h2 name n).mono ?_)
        rintro b m' ⟨-, rfl⟩
        cases b with
        | true => trivial
        | false =>
          refine Acc.Safe.bind ((nodeSizeA_safe (hr (pos, v) (by simp) _ (by simp) (by simp))
            (hr (pos, v) (by simp) _ (by simp) (by simp)) h2).mono ?_)
          rintro w m'' ⟨rfl, rfl⟩
          simp only [CapOk] at hcap
          rw [add32_of_lt (by omega)]
          exact ih h5 (fun e he => hr e (by simp [he])) (by omega)
    · trivial

theorem getA_safe {R W : Nat → Prop} {m : List Byte} {fh : Nat} {l : List (Nat × Nat)} (ho : Opened ⟨m, fh⟩ l)
    (hr : ∀ e ∈ l, ∀ i, e.1 ≤ i → i < e.1 + 6 → R i) (name : List Byte) (n : Nat)
    (hd : ∀ e, l.find? (hit m name n) = some e → ∀ i, e.1 + 6 ≤ i → i < e.1 + 6 + n → R i) (fuel : Nat) (hfuel : fh < fuel) :
    (getA fuel name n).Safe R W fh m fun r m' => get ⟨m, fh⟩ name n = .ok r ∧ m' = m := by
  refine Acc.Safe.bind ((getIdxLoopA_safe ho.cap ho.walk hr name n fuel (by simpa using hfuel)).mono ?_)
  rintro r m' ⟨rfl, rfl⟩
  rw [ho.get]
  unfold view
  cases hf : l.find? (hit m' name n) with
  | none => exact ⟨rfl, rfl⟩
  | some e =>
    have he := List.mem_of_find?_eq_some hf
    obtain ⟨g1, g2, g3, g4, g5, g6⟩ := ho.walk.mem e he
    obtain ⟨k1, k2, k3⟩ := hit_size (List.find?_some hf)
    have hh := List.find?_some hf
    refine Acc.Safe.bind ((nodeMatchesA_safe (hr e he) g4 g3 name n).mono ?_)
    rintro b m'' ⟨rfl, rfl⟩
    rw [hh]
    simp only at g6
    refine Acc.Safe.bind ((readNA_safe (hd e hf) (by omega)).mono ?_)
    rintro d m3 ⟨rfl, rfl⟩
    exact ⟨rfl, rfl⟩

theorem writeNA_safe {R W : Nat → Prop} {fh p : Nat} {bs m : List Byte} (hr : ∀ i, p ≤ i → i < p + bs.length → W i)
    (h : p + bs.length ≤ m.length) :
    (writeNA p bs).Safe R W fh m fun _ m' => applyWrites m (writesAt p bs) = .ok m' := by
  induction bs generalizing p m with
  | nil => rfl
  | cons b bs ih =>
    rw [List.length_cons] at hr h
    refine ⟨hr p (by omega) (by omega), by omega, ?_⟩
    refine (ih (fun i h1 h2 => hr i (by omega) (by omega)) (by rw [List.length_set]; omega)).mono ?_
    intro _ m' hm
    rw [writesAt_cons, applyWrites, if_pos (by omega)]
    exact hm

theorem setA_safe {R W : Nat → Prop} {m : List Byte} {fh : Nat} {l : List (Nat × Nat)} (ho : Opened ⟨m, fh⟩ l)
    (hr : ∀ e ∈ l, ∀ i, e.1 ≤ i → i < e.1 + 6 → R i) (name obj : List Byte) {e : Nat × Nat}
    (hf : l.find? (hit m name obj.length) = some e) (hd : ∀ i, e.1 + 6 ≤ i → i < e.1 + 6 + obj.length → W i)
    (fuel cap : Nat) (hfuel : fh < fuel) :
    (setA fuel cap name obj).Safe R W fh m fun r m' => r = true ∧ set ⟨m, fh⟩ name obj = .ok (⟨m', fh⟩, r) ∧
      m'.length = m.length ∧ ∀ i, i < e.1 + 6 ∨ e.1 + 6 + obj.length ≤ i → m'[i]? = m[i]? := by
  refine Acc.Safe.bind ((getIdxLoopA_safe ho.cap ho.walk hr name obj.length fuel (by simpa using hfuel)).mono ?_)
  rintro r m1 ⟨rfl, rfl⟩
  rw [hf]
  obtain ⟨g1, g2, g3, g4, g5, g6⟩ := ho.walk.mem e (List.mem_of_find?_eq_some hf)
  obtain ⟨k1, k2, k3⟩ := hit_size (List.find?_some hf)
  simp only at g6
  refine Acc.Safe.bind ((writeNA_safe hd (by omega)).mono ?_)
  intro _ m' hm
  refine ⟨rfl, ?_, (applyWrites_frame hm).1, fun i hi => (applyWrites_frame hm).2.1 i ?_⟩
  · unfold set setPlan getIdx
    rw [getIdxLoop_list ho.cap ho.walk _ _ _ (by simp), hf]
    simp only [Option.map_some, Res.bind_ok, hm]
  · intro w hw hwi
    unfold writesAt at hw
    rw [List.mem_mapIdx] at hw
    obtain ⟨j, hj, rfl⟩ := hw
    simp only at hwi
    omega

/-! ## Objects with owners -/

section Owners
variable {ι β : Type} {m0 : List Byte} {fh : Nat} {l : List (Nat × Nat)} {Own : ι → List Byte → Nat → Prop}

/-- The bytes of the objects of a task. -/
def Mine (Own : ι → List Byte → Nat → Prop) (m0 : List Byte) (l : List (Nat × Nat)) (t : ι) (i : Nat) : Prop :=
  ∃ name n e, Own t name n ∧ l.find? (hit m0 name n) = some e ∧ e.1 + 6 ≤ i ∧ i < e.1 + 6 + n

/-- What no other task may write. -/
def Quiet (Own : ι → List Byte → Nat → Prop) (m0 : List Byte) (l : List (Nat × Nat)) (t : ι) (i : Nat) : Prop :=
  ∀ u, u ≠ t → ¬ Mine Own m0 l u i

/-- The descriptors are what they were. -/
def Heads (m0 : List Byte) (l : List (Nat × Nat)) (m : List Byte) : Prop :=
  m.length = m0.length ∧ ∀ e ∈ l, ∀ i, e.1 ≤ i → i < e.1 + 6 → m[i]? = m0[i]?

theorem Heads.opened {m : List Byte} (h : Heads m0 l m) (ho : Opened ⟨m0, fh⟩ l) : Opened ⟨m, fh⟩ l := by
  obtain ⟨hl, hm⟩ := h
  refine ⟨by simp only [hl]; exact ho.cap, by simp only [hl]; exact ho.head, ?_, ho.tail⟩
  exact ho.walk.congr hl fun e he => nodeSize_congr (hm e he _ (by omega) (by omega)) (hm e he _ (by omega) (by omega))

theorem Heads.hits {m : List Byte} (h : Heads m0 l m) (name : List Byte) (n : Nat) :
    l.find? (hit m name n) = l.find? (hit m0 name n) := by
  apply find_congr
  intro e he
  unfold hit
  rw [sub_congr (m' := m) (m := m0) fun i h1 h2 => h.2 e he i (by omega) (by omega)]

theorem header_clear (hw : WalkL m0 0 l fh) {e f : Nat × Nat} (he : e ∈ l) (hf : f ∈ l) {n i : Nat} (hn : f.2 = 6 + n)
    (h1 : e.1 ≤ i) (h2 : i < e.1 + 6) : i < f.1 + 6 ∨ f.1 + 6 + n ≤ i := by
  obtain ⟨-, -, -, -, h0, -⟩ := hw.mem e he
  rcases hw.disjoint e f he hf with rfl | hd | hd
  · exact .inl h2
  · exact .inr (by omega)
  · exact .inl (by omega)

theorem header_not_mine (hw : WalkL m0 0 l fh) {e : Nat × Nat} (he : e ∈ l) {i : Nat} (h1 : e.1 ≤ i) (h2 : i < e.1 + 6)
    (t : ι) : ¬ Mine Own m0 l t i := by
  rintro ⟨name, n, f, -, hf, g1, g2⟩
  have := header_clear hw he (List.mem_of_find?_eq_some hf) (hit_size (List.find?_some hf)).2.1 h1 h2
  omega

/-- Objects which are not the same do not overlap. -/
theorem data_apart (hw : WalkL m0 0 l fh) {a b : List Byte} {n k : Nat} (hs : ¬ Same a n b k) {e f : Nat × Nat}
    (he : l.find? (hit m0 a n) = some e) (hf : l.find? (hit m0 b k) = some f) {i : Nat} (h1 : e.1 + 6 ≤ i)
    (h2 : i < e.1 + 6 + n) : ¬ (f.1 + 6 ≤ i ∧ i < f.1 + 6 + k) := by
  obtain ⟨a1, a2, a3⟩ := hit_size (List.find?_some he)
  obtain ⟨b1, b2, b3⟩ := hit_size (List.find?_some hf)
  rcases hw.disjoint e f (List.mem_of_find?_eq_some he) (List.mem_of_find?_eq_some hf) with rfl | hd | hd
  · exact absurd ⟨(storedIdx_eq_iff a1 b1).1 (a3.symm.trans b3), by omega⟩ hs
  · omega
  · omega

theorem code_safe (ho : Opened ⟨m0, fh⟩ l) (fuel cap : Nat) (hfuel : fh < fuel) (t : ι)
    (hown : ∀ name n, Own t name n → ∃ v, get ⟨m0, fh⟩ name n = .ok (some v)) (p : Prog β) :
    ∀ m, Heads m0 l m → p.Polite (Own t) (fun b k => ∃ u, u ≠ t ∧ Own u b k) →
      (p.code fuel cap).Safe (Quiet Own m0 l t) (Mine Own m0 l t) fh m fun b m' =>
        p.alone ⟨m, fh⟩ = .ok (b, ⟨m', fh⟩) ∧ Heads m0 l m' := by
  have hhead : ∀ e ∈ l, ∀ i, e.1 ≤ i → i < e.1 + 6 → Quiet Own m0 l t i :=
    fun e he i h1 h2 u _ => header_not_mine ho.walk he h1 h2 u
  induction p with
  | ret b => intro m hm _; exact ⟨rfl, hm⟩
  | get name n k ih =>
    rintro m hm ⟨hp, hk⟩
    refine Acc.Safe.bind ((getA_safe (hm.opened ho) hhead name n ?_ fuel hfuel).mono ?_)
    · intro e he i h1 h2 u hu ⟨b, k, f, o1, o2, o3, o4⟩
      rw [hm.hits] at he
      exact data_apart ho.walk (hp b k ⟨u, hu, o1⟩) he o2 h1 h2 ⟨o3, o4⟩
    · rintro r m' ⟨hr, rfl⟩
      refine (ih r m' hm (hk r)).mono fun b m2 h => ⟨?_, h.2⟩
      simp only [Prog.alone, hr, Res.bind_ok]; exact h.1
  | set name obj k ih =>
    rintro m hm ⟨hp, hk⟩
    obtain ⟨v, hv⟩ := hown name obj.length hp
    rw [ho.get] at hv
    have hv := Res.ok.inj hv
    unfold view at hv
    rw [Option.map_eq_some_iff] at hv
    obtain ⟨e, he, -⟩ := hv
    have hem := List.mem_of_find?_eq_some he
    obtain ⟨k1, k2, k3⟩ := hit_size (List.find?_some he)
    refine Acc.Safe.bind ((setA_safe (hm.opened ho) hhead name obj (by rw [hm.hits]; exact he) ?_ fuel cap hfuel).mono ?_)
    · exact fun i h1 h2 => ⟨name, _, e, hp, he, h1, h2⟩
    · rintro r m' ⟨rfl, hs, hl, ho'⟩
      have hm' : Heads m0 l m' :=
        ⟨by rw [hl, hm.1], fun f hf i h1 h2 => by rw [ho' i (header_clear ho.walk hf hem k2 h1 h2), hm.2 f hf i h1 h2]⟩
      refine (ih true m' hm' (hk true)).mono fun b m2 h => ⟨?_, h.2⟩
      simp only [Prog.alone, hs, Res.bind_ok]; exact h.1

end Owners

/-! ## The theorems -/

theorem view_congr {m m' : List Byte} {l : List (Nat × Nat)} {name : List Byte} {n : Nat}
    (hh : l.find? (hit m' name n) = l.find? (hit m name n))
    (hd : ∀ e, l.find? (hit m name n) = some e → ∀ i, e.1 + 6 ≤ i → i < e.1 + 6 + n → m'[i]? = m[i]?) :
    view m' l name n = view m l name n := by
  unfold view
  rw [hh]
  cases hf : l.find? (hit m name n) with
  | none => rfl
  | some e => simp only [Option.map_some]; rw [sub_congr (hd e hf)]

/-- **C129**: tasks share a storage without any lock.  If every task overwrites only objects of its own which are
present already, and reads no object of another task, then in every interleaving of their accesses no access is
undefined, every task gets the answers it would get if it were alone (`res`), and has them after a number of accesses
which does not depend on the schedule (`need`); its objects are then what they would be if it were alone; and objects
without an owner never change. -/
theorem tasks_isolated {ι β : Type} [DecidableEq ι] {s : Store} (hu : InUse s) (Own : ι → List Byte → Nat → Prop)
    (hown : ∀ t name n, Own t name n → ∃ v, get s name n = .ok (some v))
    (hdis : ∀ t u a n b k, t ≠ u → Own t a n → Own u b k → ¬ Same a n b k)
    (progs : ι → Prog β) (hpol : ∀ t, (progs t).Polite (Own t) fun b k => ∃ u, u ≠ t ∧ Own u b k)
    (fuel : Nat) (hfuel : s.freeHead < fuel) :
    ∃ (res : ι → β) (fin : ι → Store) (need : ι → Nat), (∀ t, (progs t).alone s = .ok (res t, fin t)) ∧
      ∀ sched : List ι, ∃ (ps : ι → Acc β) (s' : Store),
        interleave sched (fun t => (progs t).code fuel s.mem.length) s = .ok (ps, s') ∧
        (∀ t b, ps t = .ret b → b = res t) ∧
        (∀ t, need t ≤ sched.count t → ps t = .ret (res t)) ∧
        (∀ t, ps t = .ret (res t) → ∀ name n, Own t name n → get s' name n = get (fin t) name n) ∧
        ∀ name n, (∀ t b k, Own t b k → ¬ Same name n b k) → get s' name n = get s name n := by
  obtain ⟨l, ho⟩ := hu.opened'
  obtain ⟨m0, fh⟩ := s
  have hsafe := fun t => code_safe ho fuel m0.length hfuel t (hown t) (progs t) m0 ⟨rfl, fun _ _ _ _ _ => rfl⟩ (hpol t)
  have hq : ∀ t u i, t ≠ u → Mine Own m0 l t i → ¬ Quiet Own m0 l u i := fun t u i htu h1 h2 => h2 t htu h1
  have hmq : ∀ t name n e, Own t name n → l.find? (hit m0 name n) = some e → ∀ i, e.1 + 6 ≤ i → i < e.1 + 6 + n →
      Quiet Own m0 l t i := by
    rintro t name n e h1 h2 i h3 h4 u hut ⟨b, k, f, o1, o2, o3, o4⟩
    exact data_apart ho.walk (hdis t u _ _ _ _ (Ne.symm hut) h1 o1) h2 o2 h3 h4 ⟨o3, o4⟩
  have hends := fun t => (hsafe t).ends
  have hex : ∃ (res : ι → β) (fin : ι → List Byte) (need : ι → Nat),
      (∀ t, (progs t).alone ⟨m0, fh⟩ = .ok (res t, ⟨fin t, fh⟩)) ∧ ∀ t n, need t ≤ n →
        ((progs t).code fuel m0.length).steps n ⟨m0, fh⟩ = .ok (.ret (res t), ⟨fin t, fh⟩) :=
    ⟨fun t => (hends t).choose, fun t => (hends t).choose_spec.choose, fun t => (hends t).choose_spec.choose_spec.choose,
      fun t => (hends t).choose_spec.choose_spec.choose_spec.1.1, fun t => (hends t).choose_spec.choose_spec.choose_spec.2⟩
  obtain ⟨res, fin, need, halone, hneed⟩ := hex
  refine ⟨res, fun t => ⟨fin t, fh⟩, need, halone, fun sched => ?_⟩
  obtain ⟨ps, ms, g, j1, j2, j3, j4, j5, j6⟩ := interleave_alone hq sched _ (fun _ => m0) m0 hsafe (fun _ => rfl)
    (fun _ _ _ => rfl)
  have hg : Heads m0 l g := ⟨j4, fun e he i h1 h2 => j6 i fun t => header_not_mine ho.walk he h1 h2 t⟩
  have hfin : ∀ t b, ps t = .ret b → b = res t ∧ ms t = fin t := by
    intro t b hb
    have h := halone t
    have h' := j3 t
    rw [hb] at h'
    rw [show _ = _ from h'.1] at h
    simp only [Res.ok.injEq, Prod.mk.injEq, Store.mk.injEq, and_true] at h
    exact h
  refine ⟨ps, ⟨g, fh⟩, j1, fun t b hb => (hfin t b hb).1, fun t ht => ?_, fun t ht name n hn => ?_, fun name n hn => ?_⟩
  · have h := hneed t _ ht
    have h' := (j2 t).symm.trans h
    simp only [Res.ok.injEq, Prod.mk.injEq] at h'
    exact h'.1
  · have h' := j3 t
    rw [ht] at h'
    have hm := (hfin t _ ht).2
    simp only [← hm]
    rw [(hg.opened ho).get, (Heads.opened h'.2 ho).get]
    congr 1
    refine view_congr (by rw [hg.hits, Heads.hits h'.2]) fun e he i h1 h2 => ?_
    rw [Heads.hits h'.2] at he
    exact j5 t i (hmq t name n e hn he i h1 h2)
  · rw [(hg.opened ho).get, ho.get]
    congr 1
    refine view_congr (by rw [hg.hits]) fun e he i h1 h2 => j6 i ?_
    rintro t ⟨b, k, f, o1, o2, o3, o4⟩
    exact data_apart ho.walk (hn t b k o1) he o2 h1 h2 ⟨o3, o4⟩

/-- Under the same conditions there is no data race: at no time one task is about to write what another one is about to
read or to write, and nobody ever writes `free_head_`. -/
theorem no_race {ι β : Type} [DecidableEq ι] {s : Store} (hu : InUse s) (Own : ι → List Byte → Nat → Prop)
    (hown : ∀ t name n, Own t name n → ∃ v, get s name n = .ok (some v))
    (hdis : ∀ t u a n b k, t ≠ u → Own t a n → Own u b k → ¬ Same a n b k)
    (progs : ι → Prog β) (hpol : ∀ t, (progs t).Polite (Own t) fun b k => ∃ u, u ≠ t ∧ Own u b k)
    (fuel : Nat) (hfuel : s.freeHead < fuel) (sched : List ι) :
    ∃ (ps : ι → Acc β) (s' : Store), interleave sched (fun t => (progs t).code fuel s.mem.length) s = .ok (ps, s') ∧
      (∀ t, ¬ (ps t).AltersHead) ∧ ∀ t u i, t ≠ u → (ps t).Alters i → ¬ (ps u).Touches i := by
  obtain ⟨l, ho⟩ := hu.opened'
  obtain ⟨m0, fh⟩ := s
  have hsafe := fun t => code_safe ho fuel m0.length hfuel t (hown t) (progs t) m0 ⟨rfl, fun _ _ _ _ _ => rfl⟩ (hpol t)
  have hq : ∀ t u i, t ≠ u → Mine Own m0 l t i → ¬ Quiet Own m0 l u i := fun t u i htu h1 h2 => h2 t htu h1
  have hmm : ∀ t u i, t ≠ u → Mine Own m0 l t i → ¬ Mine Own m0 l u i := by
    rintro t u i htu ⟨a, n, e, h1, h2, h3, h4⟩ ⟨b, k, f, o1, o2, o3, o4⟩
    exact data_apart ho.walk (hdis t u _ _ _ _ htu h1 o1) h2 o2 h3 h4 ⟨o3, o4⟩
  obtain ⟨ps, ms, g, j1, j2, j3, j4, j5, j6⟩ := interleave_alone hq sched _ (fun _ => m0) m0 hsafe (fun _ => rfl)
    (fun _ _ _ => rfl)
  refine ⟨ps, ⟨g, fh⟩, j1, fun t ht => ?_, fun t u i htu h1 h2 => ?_⟩
  · have h := j3 t
    cases hp : ps t <;> rw [hp] at ht h <;> first | exact ht | exact h
  · have k1 := j3 t
    have k2 := j3 u
    have hw : Mine Own m0 l t i := by
      cases hp : ps t with
      | write j b k => rw [hp] at h1 k1; cases h1; exact k1.1
      | _ => rw [hp] at h1; exact h1.elim
    cases hp : ps u with
    | read j k => rw [hp] at h2 k2; cases h2; exact hq t u i htu hw k2.1
    | write j b k => rw [hp] at h2 k2; cases h2; exact hmm t u i htu hw k2.1
    | _ => rw [hp] at h2; exact h2.elim

/-! ## Without these conditions -/

/-- Two tasks which store new objects. -/
def adders : Bool → Prog Bool
  | false => .set [0x41] [1] .ret
  | true => .set [0x42] [2] .ret

/-- Both call `set` at the same time. -/
def clash : List Bool := (List.replicate 20 [false, true]).flatten

/-- Storing new objects concurrently: both calls of `set` report success, and one of the objects is lost. -/
theorem lost_object : ∃ ps s', interleave clash (fun t => (adders t).code 100 32) ⟨List.replicate 32 0, 0⟩ = .ok (ps, s') ∧
    (ps false).result = some true ∧ (ps true).result = some true ∧
    get s' [0x41] 1 = .ok none ∧ get s' [0x42] 1 = .ok (some [2]) := by
  have h : (match interleave clash (fun t => (adders t).code 100 32) ⟨List.replicate 32 0, 0⟩ with
    | .ok (ps, s') => decide ((ps false).result = some true ∧ (ps true).result = some true ∧
        get s' [0x41] 1 = .ok none ∧ get s' [0x42] 1 = .ok (some [2]))
    | _ => false) = true := by decide +kernel
  split at h
  · rename_i ps s' he
    exact ⟨ps, s', he, of_decide_eq_true h⟩
  · cases h

/-- A storage with the object `A` of two bytes. -/
def withA : Store := ⟨[8, 0, 0x41, 0, 0, 0, 1, 1] ++ List.replicate 24 0, 8⟩

/-- One task writes the object which another one reads. -/
def writerReader : Bool → Prog (Option (List Byte))
  | false => .set [0x41] [2, 2] fun _ => .ret none
  | true => .get [0x41] 2 .ret

/-- Reading an object while another task writes it: the answer is a value which was never stored. -/
theorem torn_read : ∃ sched ps s', interleave sched (fun t => (writerReader t).code 100 32) withA = .ok (ps, s') ∧
    (ps true).result = some (some [1, 2]) ∧ get withA [0x41] 2 = .ok (some [1, 1]) ∧ get s' [0x41] 2 = .ok (some [2, 2]) := by
  have h : (match interleave (List.replicate 14 true ++ List.replicate 30 false ++ List.replicate 30 true)
      (fun t => (writerReader t).code 100 32) withA with
    | .ok (ps, s') => decide ((ps true).result = some (some [1, 2]) ∧ get withA [0x41] 2 = .ok (some [1, 1]) ∧
        get s' [0x41] 2 = .ok (some [2, 2]))
    | _ => false) = true := by decide +kernel
  split at h
  · rename_i ps s' he
    exact ⟨_, ps, s', he, of_decide_eq_true h⟩
  · cases h

/-! ## An example -/

/-- Two counters of one byte. -/
def counters : Store := ⟨[7, 0, 0x41, 0, 0, 0, 1, 7, 0, 0x42, 0, 0, 0, 5] ++ List.replicate 18 0, 14⟩

theorem counters_inUse : InUse counters := by
  have h0 : InUse ⟨List.replicate 32 0, 0⟩ := .fresh (List.replicate 32 0) _ (by simp [CapOk]) (by decide +kernel)
  have h1 : InUse ⟨[7, 0, 0x41, 0, 0, 0, 1] ++ List.replicate 25 0, 7⟩ :=
    .set _ _ [0x41] [1] true h0 (by decide) (by decide) (by decide +kernel)
  exact .set _ _ [0x42] [5] true h1 (by decide) (by decide) (by decide +kernel)

/-- The counter of a task. -/
def slotOf : Bool → List Byte
  | false => [0x41]
  | true => [0x42]

/-- Add one to a counter and answer the new value. -/
def count (name : List Byte) : Prog (Option (List Byte)) :=
  .get name 1 fun v => .set name [match v with | some [b] => b + 1 | _ => 0] fun _ =>
    .get name 1 .ret

/-- Each task has its own counter. -/
example : ∃ (res : Bool → Option (List Byte)) (fin : Bool → Store) (need : Bool → Nat),
    (∀ t, (count (slotOf t)).alone counters = .ok (res t, fin t)) ∧
    ∀ sched : List Bool, ∃ (ps : Bool → Acc (Option (List Byte))) (s' : Store),
      interleave sched (fun t => (count (slotOf t)).code 15 32) counters = .ok (ps, s') ∧
      ∀ t, need t ≤ sched.count t → ps t = .ret (res t) := by
  obtain ⟨res, fin, need, h1, h2⟩ := tasks_isolated counters_inUse
    (fun (t : Bool) name n => name = slotOf t ∧ n = 1)
    (by
      rintro t name n ⟨rfl, rfl⟩
      cases t
      · exact ⟨[1], by decide +kernel⟩
      · exact ⟨[5], by decide +kernel⟩)
    (by
      rintro t u a n b k htu ⟨rfl, rfl⟩ ⟨rfl, rfl⟩ ⟨h, -⟩
      cases t <;> cases u <;> first | exact htu rfl | exact absurd h (by decide))
    (fun t => count (slotOf t))
    (by
      intro t
      refine ⟨?_, fun r => ⟨⟨rfl, ?_⟩, fun r => ⟨?_, fun _ => trivial⟩⟩⟩
      · rintro b m ⟨u, hu, rfl, rfl⟩ ⟨h, -⟩
        cases t <;> cases u <;> first | exact hu rfl | exact absurd h (by decide)
      · rfl
      · rintro b m ⟨u, hu, rfl, rfl⟩ ⟨h, -⟩
        cases t <;> cases u <;> first | exact hu rfl | exact absurd h (by decide))
    15 (by decide)
  refine ⟨res, fin, need, h1, fun sched => ?_⟩
  obtain ⟨ps, s', k1, -, k2, -⟩ := h2 sched
  exact ⟨ps, s', k1, k2⟩

/-- What the first counter answers. -/
example : (count [0x41]).alone counters = .ok (some [2], ⟨[7, 0, 0x41, 0, 0, 0, 2, 7, 0, 0x42, 0, 0, 0, 5] ++ List.replicate 18 0, 14⟩) := by
  decide +kernel

end Verif.Storage
