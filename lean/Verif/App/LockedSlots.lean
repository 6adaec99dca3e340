import Verif.App.LockedPower
import Verif.App.TwoSlots
import Mathlib.Logic.Function.Iterate
/-!
# C140: tasks share a value in two slots, with power losses

A lock alone does not make an update atomic with respect to power losses (`torn_under_lock` of C139); two slots alone do not make
it atomic with respect to other tasks.  Here both are combined: the value of C124 is read and replaced under the lock of C137.
-/
namespace Verif.App.LockedSlots
open Verif Verif.App.Lock Verif.App.Locked Verif.App.Locked.Store Verif.App.LockedPower Verif.App.TwoSlots Verif.Storage

/-! ## The program -/

/-- A use of the storage under the lock. -/
inductive Use (R : Type) where
  /-- the value is replaced by a function of it, with a result; `bad` if the value is missing -/
  | modify (f : List Byte → List Byte × R) (bad : R)
  /-- anything else -/
  | other (p : Storage.Prog R)

/-- The calls; `n` is the size of the value. -/
def Use.calls {R : Type} (n : Nat) : Use R → Storage.Prog R
  | .modify f bad => .get sel 1 fun
    | none => .ret bad
    | some b => .get (current b) n fun
      | none => .ret bad
      | some v => .set (spare b) (f v).1 fun _ => .set sel (flipped b) fun _ => .ret (f v).2
  | .other p => p

/-- The accesses. -/
def code {R : Type} (n cap : Nat) (u : Use R) : Acc R := (u.calls n).code (cap + 1) cap

/-! ## Specification -/

/-- Correct uses: the size of the value stays, other uses do not save the objects of the two slots. -/
def Fine {R : Type} (n : Nat) : Use R → Prop
  | .modify f _ => ∀ v, (f v).1.length = n
  | .other p => Normal p ∧ Avoids slotA n p ∧ Avoids slotB n p ∧ Avoids sel 1 p

/-- A variable which is replaced at once. -/
def effect {R : Type} : Effect (Use R) R (List Byte)
  | .modify f _, v, r, v' => (v', r) = f v
  | .other _, v, _, v' => v' = v

/-- The slots are in place and hold the value. -/
def Shows (n cap : Nat) (s : Store) (v : List Byte) : Prop :=
  6 + n < 65536 ∧ ∃ a, Like cap s a ∧ ∃ b w, a.get sel 1 = some b ∧ a.get (current b) n = some v ∧ a.get (spare b) n = some w

/-! ## Proof -/

theorem like_kept {cap : Nat} {s : Store} {a : AMap} (h : Like cap s a) {name : List Byte} (hn : name.length ≤ 4) {n : Nat}
    {v : List Byte} (hv : a.get name n = some v) : Kept s name n v := by
  obtain ⟨⟨l, ho, -, hg⟩, -⟩ := h
  exact Kept.of_walk ho.cap ho.head ho.walk (by rw [ho.get, ← hg name n hn, hv])

theorem kept_like {cap : Nat} {s : Store} {a : AMap} (h : Like cap s a) {name : List Byte} (hn : name.length ≤ 4) {n : Nat}
    {v : List Byte} (hv : Kept s name n v) : a.get name n = some v := by
  obtain ⟨⟨l, ho, -, hg⟩, -⟩ := h
  have := Kept_get hv
  rw [ho.get, ← hg name n hn] at this
  exact Res.ok.inj this

theorem names_short (b : List Byte) : sel.length ≤ 4 ∧ (current b).length ≤ 4 ∧ (spare b).length ≤ 4 := by
  rcases current_or b with h | h <;> rw [h.1, h.2.1] <;> decide

theorem Shows.holds {n cap : Nat} {s : Store} {v : List Byte} (h : Shows n cap s v) : Holds s n v := by
  obtain ⟨-, a, hl, b, w, h1, h2, h3⟩ := h
  obtain ⟨k1, k2, k3⟩ := names_short b
  exact ⟨b, w, like_kept hl k1 h1, like_kept hl k2 h2, like_kept hl k3 h3⟩

theorem shows_of {n cap : Nat} {s : Store} {a : AMap} {v : List Byte} (hn : 6 + n < 65536) (hl : Like cap s a) (h : Holds s n v) :
    Shows n cap s v := by
  obtain ⟨b, w, h1, h2, h3⟩ := h
  obtain ⟨k1, k2, k3⟩ := names_short b
  exact ⟨hn, a, hl, b, w, kept_like hl k1 h1, kept_like hl k2 h2, kept_like hl k3 h3⟩

theorem Shows.length {n cap : Nat} {s : Store} {v : List Byte} (h : Shows n cap s v) : v.length = n := by
  obtain ⟨b, w, -, h, -⟩ := h.holds
  exact Kept_length h

/-- An object of the map is replaced. -/
theorem set_put {a : AMap} {cap n : Nat} {name obj old : List Byte} (h : a.get name n = some old) (ho : obj.length = n) :
    a.set cap name obj = (⟨a.put name obj, a.used⟩, true) := by
  subst ho
  rw [AMap.set, if_pos (by simp [h])]

theorem put_get_same (a : AMap) (name obj : List Byte) (u : Nat) : (⟨a.put name obj, u⟩ : AMap).get name obj.length = some obj := by
  simp [AMap.get, AMap.put]

theorem put_get_other (a : AMap) {name name' : List Byte} (obj : List Byte) (u n : Nat) (h : stripNul name' ≠ stripNul name) :
    (⟨a.put name obj, u⟩ : AMap).get name' n = a.get name' n := by
  simp [AMap.get, AMap.put, h]

theorem calls_normal {R : Type} {n : Nat} (hn : 6 + n < 65536) {u : Use R} (hu : Fine n u) : Normal (u.calls n) := by
  cases u with
  | other p => exact hu.1
  | modify f bad =>
    refine ⟨⟨by decide, by decide⟩, fun r => ?_⟩
    cases r with
    | none => trivial
    | some b =>
      obtain ⟨k1, k2, k3⟩ := names_short b
      refine ⟨⟨k2, by omega⟩, fun r => ?_⟩
      cases r with
      | none => trivial
      | some v =>
        refine ⟨⟨k3, by rw [hu v]; exact hn⟩, fun _ => ⟨⟨by decide, by rw [flipped_length]; decide⟩, fun _ => trivial⟩⟩

theorem implements (R : Type) (n cap : Nat) : Implements (machine R) (code n cap) (Shows n cap) effect (Fine (R := R) n) := by
  rintro u s v hu ⟨hn, a, hl, b, w, h1, h2, h3⟩
  obtain ⟨s', e1, e2⟩ := code_exec (u.calls n) (calls_normal hn hu) hl
  cases u with
  | other p =>
    obtain ⟨-, p1, p2, p3⟩ := hu
    refine ⟨_, v, s', rfl, completes e1, hn, _, e2, b, w, ?_, ?_, ?_⟩
    · exact (Avoids.onMap p p3 a).trans h1
    · rcases current_or b with k | k <;> rw [k.1] at h2 ⊢
      · exact (Avoids.onMap p p1 a).trans h2
      · exact (Avoids.onMap p p2 a).trans h2
    · rcases current_or b with k | k <;> rw [k.2.1] at h3 ⊢
      · exact (Avoids.onMap p p2 a).trans h3
      · exact (Avoids.onMap p p1 a).trans h3
  | modify f bad =>
    obtain ⟨n1, n2, n3, n4⟩ := spare_ne b
    have hset1 := set_put (cap := cap) h3 (hu v)
    have g1 : (⟨a.put (spare b) (f v).1, a.used⟩ : AMap).get sel 1 = some b := by rw [put_get_other _ _ _ _ n3, h1]
    have g2 : (⟨a.put (spare b) (f v).1, a.used⟩ : AMap).get (current b) n = some v := by rw [put_get_other _ _ _ _ n1.symm, h2]
    have g3 : (⟨a.put (spare b) (f v).1, a.used⟩ : AMap).get (spare b) n = some (f v).1 := by
      have := put_get_same a (spare b) (f v).1 a.used
      rwa [hu v] at this
    have hset2 := set_put (cap := cap) g1 (flipped_length b)
    have hmap : onMap cap ((Use.modify f bad).calls n) a =
        ((f v).2, ⟨(⟨a.put (spare b) (f v).1, a.used⟩ : AMap).put sel (flipped b), a.used⟩) := by
      simp only [Use.calls, onMap, h1, h2, hset1, hset2]
    rw [hmap] at e1 e2
    refine ⟨(f v).2, (f v).1, s', rfl, completes e1, hn, _, e2, flipped b, v, ?_, ?_, ?_⟩
    · have := put_get_same (⟨a.put (spare b) (f v).1, a.used⟩ : AMap) sel (flipped b) a.used
      rwa [flipped_length] at this
    · rw [current_flipped, put_get_other _ _ _ _ n2, g3]
    · rw [spare_flipped, put_get_other _ _ _ _ n4.symm, g2]

/-- Power is lost within a use. -/
theorem use_broken {R : Type} {n cap : Nat} {s s' : Store} {v : List Byte} (h : Shows n cap s v) {u : Use R} (hu : Fine n u)
    {p : Acc R} {t : Store} (hp : Steps (machine R) (code n cap u) s p t) (hs : create t.mem false = .ok s') :
    Holds s' n v ∨ ∃ f bad, u = .modify f bad ∧ Holds s' n (f v).1 := by
  have hh := h.holds
  obtain ⟨hn, a, hl, b, w, h1, h2, h3⟩ := h
  obtain ⟨ws, w1, w2⟩ := steps_writes hp
  have hb := broken (u.calls n) (calls_normal hn hu) hl w1 w2 hs
  cases u with
  | other q =>
    left
    obtain ⟨-, p1, p2, p3⟩ := hu
    obtain ⟨es, k1, k2⟩ := hb.history
    have hk : ∀ e ∈ es, Other n e := fun e he o => by
      refine ⟨fun hw => ?_, fun hw => ?_, fun hw => ?_⟩ <;> obtain ⟨name', q1, q2⟩ := k2 e he _ _ _ hw
      · exact Avoids.sets q p1 a q1 q2
      · exact Avoids.sets q p2 a q1 q2
      · exact Avoids.sets q p3 a q1 q2
    clear k2 hb h1 h2 h3 hl w1 w2 hp
    induction k1 with
    | nil => exact hh
    | cons s s1 s2 e es h1 _ ih =>
      exact ih hs (hh.other (hk e (by simp)) h1) (fun e' he' => hk e' (by simp [he']))
  | modify f bad =>
    obtain ⟨k1, k2, k3⟩ := names_short b
    have hset1 := set_put (cap := cap) h3 (hu v)
    have hsets : sets cap ((Use.modify f bad).calls n) a = [(spare b, (f v).1), (sel, flipped b)] := by
      simp only [Use.calls, LockedPower.sets, h1, h2]
    rw [hsets] at hb
    have hup := Holds.updates (like_kept hl k1 h1) (f v).1
    have hc : Cut s [(spare b, (f v).1), (sel, flipped b)] s' := by
      cases hb with
      | here _ _ _ _ _ he => exact .here _ _ _ _ _ he
      | later _ s1 _ _ _ c1 _ hs1 hb =>
        obtain ⟨s1', e1, q1, q2, q3⟩ := Holds.first (like_kept hl k1 h1) (like_kept hl k2 h2) (like_kept hl k3 h3) (hu v)
        rw [hs1] at e1
        cases e1
        refine .later _ _ _ _ _ _ hs1 ?_
        cases hb with
        | here _ _ _ _ _ he => exact .here _ _ _ _ _ he
        | later _ s2 _ _ _ c2 _ hs2 hb =>
          obtain ⟨s2', e2, -⟩ := Holds.second q1 q2 q3
          rw [hs2] at e2
          cases e2
          refine .later _ _ _ _ _ _ hs2 ?_
          cases hb with
          | done _ _ he => exact .done _ _ he
    rcases hh.cut (hu v) hup hc with h | h
    · exact .inl h
    · exact .inr ⟨f, bad, rfl, h⟩

/-! ## Properties -/

/-- **C140**: tasks which read and replace a value in two slots under a lock, for all programs and schedules: the value is that
after some of the uses one after the other, each of which replaces it at once. -/
theorem slots_serial {R α : Type} {n cap : Nat} {s : Store} {v : List Byte} (h : Shows n cap s v) (ps : Nat → Lock.Prog (Use R) R α)
    (hp : ∀ i, Uses (Fine n) (ps i)) (sched : List Nat) :
    ∃ c order ps' v', run (machine R) (code n cap) sched (start ps s) = .ok c ∧ Serves effect ps v order ps' v' ∧
      Agrees (machine R) (code n cap) (Shows n cap) effect c ps' v' ∧ (c.owner = none → TwoSlots.read c.s n = .ok (some v')) := by
  obtain ⟨c, order, ps', v', h1, h2, h3⟩ := serial (implements R n cap) ps hp s v h sched
  refine ⟨c, order, ps', v', h1, h2, h3, fun ho => ?_⟩
  rw [Agrees, ho] at h3
  exact h3.2.holds.read

/-- **C140**: if power is lost at any moment of the schedule, the value found afterwards is that after the finished uses, or that
after one more, the one which had begun: never anything else.  The next boot can go on like this one unless the memory has an
entry of one byte at the end (C08). -/
theorem slots_power_loss {R α : Type} {n cap : Nat} {s : Store} {v : List Byte} (h : Shows n cap s v)
    (ps : Nat → Lock.Prog (Use R) R α) (hp : ∀ i, Uses (Fine n) (ps i)) (sched : List Nat) :
    ∃ c order ps' v' s' v'', run (machine R) (code n cap) sched (start ps s) = .ok c ∧ Serves effect ps v order ps' v' ∧
      Agrees (machine R) (code n cap) (Shows n cap) effect c ps' v' ∧
      create c.s.mem false = .ok s' ∧ TwoSlots.read s' n = .ok (some v'') ∧ (¬ OneByteTail s' → Shows n cap s' v'') ∧
      (v'' = v' ∨ ∃ i f bad k, c.owner = some i ∧ ps' i = .use (.modify f bad) k ∧ v'' = (f v').1) := by
  obtain ⟨c, order, ps', v', h1, h2, h3⟩ := serial (implements R n cap) ps hp s v h sched
  have key : ∃ s0 s', Shows n cap s0 v' ∧ create c.s.mem false = .ok s' ∧ c.s.mem.length = cap ∧
      (Holds s' n v' ∨ ∃ i f bad k, c.owner = some i ∧ ps' i = .use (.modify f bad) k ∧ Holds s' n (f v').1) := by
    cases ho : c.owner with
    | none =>
      have h3 := h3
      rw [Agrees, ho] at h3
      obtain ⟨-, h3⟩ := h3
      obtain ⟨-, a, ⟨⟨l, ho', -⟩, hl⟩, -⟩ := id h3
      obtain ⟨s', k1, -⟩ := open_total c.s.mem ho'.cap
      exact ⟨c.s, s', h3, k1, hl, .inl (h3.holds.other (fun o => ⟨id, id, id⟩) (.reopen _ _ k1))⟩
    | some i =>
      have h3 := h3
      rw [Agrees, ho] at h3
      obtain ⟨⟨u, k, s0, p, r, a2, s2, g1, -, ⟨g2, g3⟩, -⟩, -⟩ := h3
      obtain ⟨ws, w1, w2⟩ := steps_writes g3
      obtain ⟨-, a, ⟨⟨l, ho', -⟩, hl⟩, -⟩ := id g2
      have hlen : c.s.mem.length = cap := by rw [(applyWrites_frame w2).1]; exact hl
      obtain ⟨s', k1, -⟩ := open_total c.s.mem (by rw [hlen, ← hl]; exact ho'.cap)
      have hu := h2.uses hp i
      rw [g1] at hu
      rcases use_broken g2 hu.1 g3 k1 with q | ⟨f, bad, rfl, q⟩
      · exact ⟨s0, s', g2, k1, hlen, .inl q⟩
      · exact ⟨s0, s', g2, k1, hlen, .inr ⟨i, f, bad, k, rfl, g1, q⟩⟩
  obtain ⟨s0, s', g1, g2, g3, g4⟩ := key
  have hshow : ∀ v'', Holds s' n v'' → ¬ OneByteTail s' → Shows n cap s' v'' := by
    intro v'' hh ht
    obtain ⟨hn, a, ⟨⟨l, ho', -⟩, hl⟩, -⟩ := g1
    obtain ⟨s2, k1, k2, -⟩ := open_total c.s.mem (by rw [g3, ← hl]; exact ho'.cap)
    rw [g2] at k1
    cases k1
    obtain ⟨l', ho''⟩ := opened_of_create (by rw [g3, ← hl]; exact ho'.cap) g2 ht
    exact shows_of hn ⟨ho''.answers, by rw [k2, g3]⟩ hh
  rcases g4 with g4 | ⟨i, f, bad, k, e1, e2, g4⟩
  · exact ⟨c, order, ps', v', s', v', h1, h2, h3, g2, g4.read, hshow _ g4, .inl rfl⟩
  · exact ⟨c, order, ps', v', s', _, h1, h2, h3, g2, g4.read, hshow _ g4, .inr ⟨i, f, bad, k, e1, e2, rfl⟩⟩

/-- **C140**: no deadlock. -/
theorem slots_ends {R α : Type} {n cap : Nat} {s : Store} {v : List Byte} (h : Shows n cap s v) (ps : Nat → Lock.Prog (Use R) R α)
    (hp : ∀ i, Uses (Fine n) (ps i)) (sched : List Nat) (m : Nat) :
    ∃ more c, run (machine R) (code n cap) (sched ++ more) (start ps s) = .ok c ∧ c.owner = none ∧
      ∀ i, i < m → ∃ x, c.tasks i = .out (.ret x) :=
  no_deadlock (implements R n cap) ps hp s v h sched m

/-! ### Counting over many boots -/

/-- A function is applied to the value `m` times, each time with the lock. -/
def repeated (f : List Byte → List Byte) : Nat → Lock.Prog (Use Unit) Unit Unit
  | 0 => .ret ()
  | m + 1 => .use (.modify (fun v => (f v, ())) ()) fun _ => repeated f m

/-- The tasks have finished these uses, given in any order: task `i` has begun with `m i` of them. -/
def Finished (f : List Byte → List Byte) (m : Nat → Nat) (c : Conf (Use Unit) Store (Acc Unit) Unit Unit) (order : List Nat) : Prop :=
  ∀ i, ∃ rest, m i = order.count i + rest ∧ (c.tasks i = .out (repeated f rest) ∨
    ∃ p k, c.tasks i = .inside p k ∧ repeated f rest = .use (.modify (fun v => (f v, ())) ()) k)

/-- `Life f n cap s boots done s'`: boots of a system whose tasks apply a function to the value, each ended by a power loss at
some moment; `done` uses have been finished. -/
inductive Life (f : List Byte → List Byte) (n cap : Nat) : Store → Nat → Nat → Store → Prop where
  | none (s : Store) : Life f n cap s 0 0 s
  | boot (s s' s'' : Store) (boots done : Nat) (m : Nat → Nat) (sched : List Nat) (c : Conf (Use Unit) Store (Acc Unit) Unit Unit)
      (order : List Nat) : Life f n cap s boots done s' →
      run (machine Unit) (code n cap) sched (start (fun i => repeated f (m i)) s') = .ok c → Finished f m c order →
      create c.s.mem false = .ok s'' → ¬ OneByteTail s'' → Life f n cap s (boots + 1) (done + order.length) s''

theorem repeated_uses {f : List Byte → List Byte} {n : Nat} (hf : ∀ v, (f v).length = n) (m : Nat) : Uses (Fine n) (repeated f m) := by
  induction m with
  | zero => trivial
  | succ m ih => exact ⟨hf, fun _ => ih⟩

theorem repeated_inj (f : List Byte → List Byte) {a b : Nat} (h : repeated f a = repeated f b) : a = b := by
  induction a generalizing b with
  | zero => cases b with
    | zero => rfl
    | succ b => cases h
  | succ a ih => cases b with
    | zero => cases h
    | succ b =>
      rw [repeated, repeated] at h
      injection h with h1 h2
      rw [ih (congrFun h2 ())]

theorem repeated_serves {f : List Byte → List Byte} (m : Nat → Nat) {v v' : List Byte} {order : List Nat}
    {ps' : Nat → Lock.Prog (Use Unit) Unit Unit} (h : Serves effect (fun i => repeated f (m i)) v order ps' v') :
    v' = f^[order.length] v ∧ ∀ i, ∃ rest, m i = order.count i + rest ∧ ps' i = repeated f rest := by
  induction h with
  | nil => exact ⟨rfl, fun i => ⟨m i, by simp, rfl⟩⟩
  | snoc order ps' v1 i u k r v2 _ hi he ih =>
    obtain ⟨h1, h2⟩ := ih
    obtain ⟨rest, g1, g2⟩ := h2 i
    cases rest with
    | zero => rw [hi] at g2; cases g2
    | succ rest =>
      rw [hi, repeated] at g2
      injection g2 with e1 e2
      subst e1 e2
      simp only [effect, Prod.mk.injEq] at he
      refine ⟨by rw [he.1, h1, List.length_append, List.length_singleton, Function.iterate_succ_apply'], fun j => ?_⟩
      rw [List.count_append, List.count_singleton]
      by_cases hj : j = i
      · subst hj
        rw [Lock.put_same]
        exact ⟨rest, by simp; omega, rfl⟩
      · rw [Lock.put_other _ _ hj]
        obtain ⟨rest', q1, q2⟩ := h2 j
        exact ⟨rest', by simp [Ne.symm hj]; omega, q2⟩

/-- **C140**: over any number of boots, each ended by a power loss at any moment, the function has been applied once for every
finished use, and at most once more for each boot. -/
theorem life_counts {f : List Byte → List Byte} {n cap : Nat} (hf : ∀ v, (f v).length = n) {s s' : Store} {v : List Byte}
    (h : Shows n cap s v) {boots done : Nat} (hl : Life f n cap s boots done s') :
    ∃ N, done ≤ N ∧ N ≤ done + boots ∧ TwoSlots.read s' n = .ok (some (f^[N] v)) := by
  suffices hs : ∃ N, done ≤ N ∧ N ≤ done + boots ∧ Shows n cap s' (f^[N] v) by
    obtain ⟨N, h1, h2, h3⟩ := hs
    exact ⟨N, h1, h2, h3.holds.read⟩
  induction hl with
  | none => exact ⟨0, Nat.le_refl 0, Nat.le_refl 0, h⟩
  | boot s' s'' boots done m sched c order _ hr hfin hc ht ih =>
    obtain ⟨N, k1, k2, k3⟩ := ih
    obtain ⟨c', order', ps', v', s2, v'', e1, e2, e3, e4, -, e5, e6⟩ :=
      slots_power_loss k3 (fun i => repeated f (m i)) (fun i => repeated_uses hf (m i)) sched
    rw [hr] at e1
    cases e1
    rw [hc] at e4
    cases e4
    obtain ⟨g1, g2⟩ := repeated_serves m e2
    have htask : ∀ i, c.tasks i = .out (ps' i) ∨ ∃ u k p, ps' i = .use u k ∧ c.tasks i = .inside p k := by
      intro i
      cases ho : c.owner with
      | none =>
        rw [Agrees, ho] at e3
        exact .inl (e3.1 i)
      | some j =>
        rw [Agrees, ho] at e3
        obtain ⟨⟨u, k, s0, p, r, a2, s2, q1, q2, -⟩, q3⟩ := e3
        by_cases hij : i = j
        · subst hij; exact .inr ⟨u, k, p, q1, q2⟩
        · exact .inl (q3 i hij)
    have hlen : order.length = order'.length := by
      refine (List.perm_iff_count.2 fun i => ?_).length_eq
      obtain ⟨rest, a1, a2⟩ := hfin i
      obtain ⟨rest', b1, b2⟩ := g2 i
      have hrest : rest = rest' := by
        refine repeated_inj f ?_
        rw [← b2]
        rcases htask i with t | ⟨u, k, p, t1, t2⟩
        · rcases a2 with a2 | ⟨p, k, a2, a3⟩
          · rw [t] at a2; injection a2 with a2; exact a2.symm
          · rw [t] at a2; cases a2
        · rcases a2 with a2 | ⟨p', k', a2, a3⟩
          · rw [t2] at a2; cases a2
          · rw [t2] at a2
            injection a2 with _ a2
            subst a2
            rw [a3, t1]
            rw [b2] at t1
            cases rest' with
            | zero => cases t1
            | succ r =>
              rw [repeated] at t1
              injection t1 with t1
              rw [t1]
      omega
    rcases e6 with e6 | ⟨i, f', bad, k, q1, q2, e6⟩
    · refine ⟨N + order.length, by omega, by omega, ?_⟩
      rw [Nat.add_comm N, Function.iterate_add_apply, hlen, ← g1, ← e6]
      exact e5 ht
    · refine ⟨N + order.length + 1, by omega, by omega, ?_⟩
      have hf' : (f' v').1 = f v' := by
        obtain ⟨rest', -, b2⟩ := g2 i
        rw [q2] at b2
        cases rest' with
        | zero => cases b2
        | succ r =>
          rw [repeated] at b2
          injection b2 with b2
          injection b2 with b2
          rw [b2]
      rw [Function.iterate_succ_apply', Nat.add_comm N, Function.iterate_add_apply, hlen, ← g1, ← hf', ← e6]
      exact e5 ht

/-! ### A concrete case -/

/-- A counter of two bytes, the lower one first. -/
def inc : List Byte → List Byte
  | [lo, hi] => if lo = 255 then [0, hi + 1] else [lo + 1, hi]
  | _ => [0, 0]

example : ∀ v, (inc v).length = 2 := by
  intro v
  unfold inc
  split
  · split <;> rfl
  · rfl

/-- It is set up in a region of 24 bytes with 255. -/
def begun : Store :=
  ⟨[8, 0, 0x63, 0x66, 0x67, 0x41, 255, 0] ++ [8, 0, 0x63, 0x66, 0x67, 0x42, 255, 0] ++ [7, 0, 0x63, 0x66, 0x67, 0x53, 0] ++ [0], 23⟩

example : Shows 2 24 begun [255, 0] := by
  have hu : InUse ⟨List.replicate 24 0, 0⟩ := .fresh (List.replicate 24 0xFF) _ (by simp [CapOk]) (by decide +kernel)
  have hi : install ⟨List.replicate 24 0, 0⟩ [255, 0] = .ok (begun, true) := by decide +kernel
  have hh := install_holds hu [255, 0] (by decide) hi
  have hu' : InUse begun := by
    unfold install at hi
    obtain ⟨s1, e1, hi⟩ := sets_cons hi
    obtain ⟨s2, e2, hi⟩ := sets_cons hi
    obtain ⟨s3, e3, hi⟩ := sets_cons hi
    cases hi
    exact (InUse_set (InUse_set (InUse_set hu (by decide) (by decide) e1).1 (by decide) (by decide) e2).1 (by decide) (by decide) e3).1
  obtain ⟨a, ha⟩ := Locked.Store.inUse_like hu'
  exact shows_of (by decide) ha hh

/-- Two tasks add one each; the value after a power loss after some turns. -/
def after (turns : Nat) : Option (List Byte) :=
  match run (machine Unit) (code 2 24) ((List.range turns).map (· % 2)) (start (fun i => repeated inc (if i ≤ 1 then 1 else 0)) begun) with
  | .ok c => (match create c.s.mem false with
    | .ok s => (match TwoSlots.read s 2 with
      | .ok r => r
      | _ => none)
    | _ => none)
  | _ => none

/-- After 120 turns the first task has written the other copy and not yet the byte. -/
example : [20, 120, 180, 400].map after = [some [255, 0], some [255, 0], some [0, 1], some [1, 1]] := by decide +kernel

end Verif.App.LockedSlots
