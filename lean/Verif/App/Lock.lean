import Verif.Basic
/-!
# One lock around the calls (C137)

The classes of the library have no lock of their own; C129, C134, C135 and C136 show what tasks which share an object do to
each other.  Here the tasks take one lock (a mutex of the operating system) around each use.  The uses are programs of steps on
a shared state; a schedule says which task has the next turn.  A task at a use tries to take the lock and waits if it is
taken, then performs one step at each turn, and gives the lock back at the end of the use.

The theorem says what the lock is for: in every interleaving the uses have the effects and the results of uses without any
interleaving, one after the other in some order.
-/
namespace Verif.App.Lock
open Verif

/-! ## The program -/

/-- Programs of steps on a shared state. -/
structure Machine (S P R : Type) where
  step : P → S → Res (P × S)
  done : P → Option R

/-- A task: uses of the shared state, depending on the results of earlier ones. -/
inductive Prog (C R α : Type) where
  | ret (x : α)
  | use (c : C) (k : R → Prog C R α)

/-- A task between its uses, or within one. -/
inductive Local (C P R α : Type) where
  | out (p : Prog C R α)
  | inside (p : P) (k : R → Prog C R α)

/-- The tasks, who has the lock, and the shared state. -/
structure Conf (C S P R α : Type) where
  tasks : Nat → Local C P R α
  owner : Option Nat
  s : S

variable {C S P R α A : Type}

/-- Replace the entry of one task. -/
def put {β : Type} (f : Nat → β) (i : Nat) (b : β) : Nat → β := fun j => if j = i then b else f j

/-- One turn of task `i`. -/
def turn (M : Machine S P R) (code : C → P) (i : Nat) (c : Conf C S P R α) : Res (Conf C S P R α) :=
  match c.tasks i with
  | .out (.ret _) => .ok c
  | .out (.use u k) =>
    match c.owner with
    | some _ => .ok c
    | none => .ok { c with tasks := put c.tasks i (.inside (code u) k), owner := some i }
  | .inside p k =>
    match M.done p with
    | some r => .ok { c with tasks := put c.tasks i (.out (k r)), owner := none }
    | none => do
      let (p, s) ← M.step p c.s
      .ok { c with tasks := put c.tasks i (.inside p k), s := s }

/-- The turns of a schedule. -/
def run (M : Machine S P R) (code : C → P) : List Nat → Conf C S P R α → Res (Conf C S P R α)
  | [], c => .ok c
  | i :: sched, c => do
    let c ← turn M code i c
    run M code sched c

/-- The beginning. -/
def start (ps : Nat → Prog C R α) (s : S) : Conf C S P R α := ⟨fun i => .out (ps i), none, s⟩

/-! ## Specification -/

/-- The effect of a use without interleaving, on an abstract state. -/
abbrev Effect (C R A : Type) := C → A → R → A → Prop

/-- The uses one after the other, in the given order of the tasks. -/
inductive Serves (E : Effect C R A) (ps : Nat → Prog C R α) (a : A) : List Nat → (Nat → Prog C R α) → A → Prop where
  | nil : Serves E ps a [] ps a
  | snoc (order : List Nat) (ps' : Nat → Prog C R α) (a' : A) (i : Nat) (u : C) (k : R → Prog C R α) (r : R) (a'' : A) :
      Serves E ps a order ps' a' → ps' i = .use u k → E u a' r a'' → Serves E ps a (order ++ [i]) (put ps' i (k r)) a''

/-- `Completes M p s r s'`: all steps of `p`, without interleaving. -/
inductive Completes (M : Machine S P R) : P → S → R → S → Prop where
  | done (p : P) (s : S) (r : R) : M.done p = some r → Completes M p s r s
  | step (p p' : P) (s s' s'' : S) (r : R) : M.done p = none → M.step p s = .ok (p', s') → Completes M p' s' r s'' →
      Completes M p s r s''

/-- `Steps M p s p' s'`: some of the steps of `p`, without interleaving; `p'` remains. -/
inductive Steps (M : Machine S P R) : P → S → P → S → Prop where
  | nil (p : P) (s : S) : Steps M p s p s
  | snoc (p p' p'' : P) (s s' s'' : S) : Steps M p s p' s' → M.done p' = none → M.step p' s' = .ok (p'', s'') → Steps M p s p'' s''

/-- The code does what it should if it is not interrupted: `Rel` relates the shared states and the abstract ones. -/
def Implements (M : Machine S P R) (code : C → P) (Rel : S → A → Prop) (E : Effect C R A) (Ok : C → Prop) : Prop :=
  ∀ u s a, Ok u → Rel s a → ∃ r a' s', E u a r a' ∧ Completes M (code u) s r s' ∧ Rel s' a'

/-- All uses of a task are correct ones. -/
def Uses (Ok : C → Prop) : Prog C R α → Prop
  | .ret _ => True
  | .use u k => Ok u ∧ ∀ r, Uses Ok (k r)

/-- The configuration is what remains after the uses so far: `ps` and `a`, and possibly one use, some steps of which have been
performed and whose remaining steps have its effect. -/
def Agrees (M : Machine S P R) (code : C → P) (Rel : S → A → Prop) (E : Effect C R A) (c : Conf C S P R α) (ps : Nat → Prog C R α) (a : A) : Prop :=
  match c.owner with
  | none => (∀ i, c.tasks i = .out (ps i)) ∧ Rel c.s a
  | some i => (∃ u k s0 p r a' s', ps i = .use u k ∧ c.tasks i = .inside p k ∧ (Rel s0 a ∧ Steps M (code u) s0 p c.s) ∧ E u a r a' ∧
      Completes M p c.s r s' ∧ Rel s' a') ∧
    ∀ j, j ≠ i → c.tasks j = .out (ps j)

/-! ## Proof -/

theorem put_same {β : Type} (f : Nat → β) (i : Nat) (b : β) : put f i b i = b := if_pos rfl

theorem put_other {β : Type} (f : Nat → β) {i j : Nat} (b : β) (h : j ≠ i) : put f i b j = f j := if_neg h

theorem Serves.uses {E : Effect C R A} {ps ps' : Nat → Prog C R α} {a a' : A} {order : List Nat} (h : Serves E ps a order ps' a')
    {Ok : C → Prop} (hu : ∀ i, Uses Ok (ps i)) : ∀ i, Uses Ok (ps' i) := by
  induction h with
  | nil => exact hu
  | snoc order ps' a' i u k r a'' _ hi _ ih =>
    intro j
    by_cases h : j = i
    · subst h
      rw [put_same]
      have := ih j
      rw [hi] at this
      exact this.2 r
    · rw [put_other _ _ h]
      exact ih j

theorem turn_inv {M : Machine S P R} {code : C → P} {Rel : S → A → Prop} {E : Effect C R A} {Ok : C → Prop}
    (hM : Implements M code Rel E Ok) {ps0 ps : Nat → Prog C R α} {a0 a : A} {order : List Nat} (hs : Serves E ps0 a0 order ps a)
    (hu : ∀ i, Uses Ok (ps i)) {c : Conf C S P R α} (hi : Agrees M code Rel E c ps a) (i : Nat) :
    ∃ c' order' ps' a', turn M code i c = .ok c' ∧ Serves E ps0 a0 order' ps' a' ∧ Agrees M code Rel E c' ps' a' := by
  obtain ⟨tasks, owner, s⟩ := c
  cases owner with
  | none =>
    obtain ⟨h1, h2⟩ := hi
    simp only at h1 h2
    cases hp : ps i with
    | ret x =>
      refine ⟨⟨tasks, none, s⟩, order, ps, a, ?_, hs, h1, h2⟩
      simp only [turn, h1, hp]
    | use u k =>
      have huk := hu i
      rw [hp] at huk
      obtain ⟨r, a', s', e1, e2, e3⟩ := hM u s a huk.1 h2
      refine ⟨⟨put tasks i (.inside (code u) k), some i, s⟩, order, ps, a, ?_, hs, ?_⟩
      · simp only [turn, h1, hp]
      · refine ⟨⟨u, k, s, code u, r, a', s', hp, put_same _ _ _, ⟨h2, .nil _ _⟩, e1, e2, e3⟩, fun j hj => ?_⟩
        simp only [put_other _ _ hj]
        exact h1 j
  | some o =>
    obtain ⟨⟨u, k, s0, p, r, a', s', g1, g2, g0, g3, g4, g5⟩, h2⟩ := hi
    simp only at g2 g0 g4 h2
    by_cases hio : i = o
    · subst hio
      cases g4 with
      | done _ _ _ hd =>
        refine ⟨⟨put tasks i (.out (k r)), none, s⟩, order ++ [i], put ps i (k r), a', ?_, .snoc _ _ _ _ _ _ _ _ hs g1 g3, ?_, g5⟩
        · simp only [turn, g2, hd]
        · intro j
          simp only
          by_cases hj : j = i
          · subst hj; rw [put_same, put_same]
          · rw [put_other _ _ hj, put_other _ _ hj]; exact h2 j hj
      | step _ p' _ s1 _ _ hd hstep hc =>
        refine ⟨⟨put tasks i (.inside p' k), some i, s1⟩, order, ps, a, ?_, hs, ?_⟩
        · simp only [turn, g2, hd, hstep, Res.bind_ok]
        · refine ⟨⟨u, k, s0, p', r, a', s', g1, put_same _ _ _, ⟨g0.1, .snoc _ _ _ _ _ _ g0.2 hd hstep⟩, g3, hc, g5⟩, fun j hj => ?_⟩
          simp only [put_other _ _ hj]
          exact h2 j hj
    · refine ⟨⟨tasks, some o, s⟩, order, ps, a, ?_, hs, ⟨u, k, s0, p, r, a', s', g1, g2, g0, g3, g4, g5⟩, h2⟩
      simp only [turn, h2 i hio]
      cases ps i <;> rfl

theorem run_inv {M : Machine S P R} {code : C → P} {Rel : S → A → Prop} {E : Effect C R A} {Ok : C → Prop}
    (hM : Implements M code Rel E Ok) {ps0 : Nat → Prog C R α} (hu : ∀ i, Uses Ok (ps0 i)) {a0 : A} (sched : List Nat)
    {ps : Nat → Prog C R α} {a : A} {order : List Nat} (hs : Serves E ps0 a0 order ps a) {c : Conf C S P R α}
    (hi : Agrees M code Rel E c ps a) :
    ∃ c' order' ps' a', run M code sched c = .ok c' ∧ Serves E ps0 a0 order' ps' a' ∧ Agrees M code Rel E c' ps' a' := by
  induction sched generalizing ps a order c with
  | nil => exact ⟨c, order, ps, a, rfl, hs, hi⟩
  | cons i sched ih =>
    obtain ⟨c', order', ps', a', h1, h2, h3⟩ := turn_inv hM hs (hs.uses hu) hi i
    obtain ⟨c'', order'', ps'', a'', k1, k2, k3⟩ := ih h2 h3
    exact ⟨c'', order'', ps'', a'', by rw [run, h1, Res.bind_ok, k1], k2, k3⟩

theorem run_append {M : Machine S P R} {code : C → P} (s1 s2 : List Nat) (c : Conf C S P R α) :
    run M code (s1 ++ s2) c = (run M code s1 c >>= fun c => run M code s2 c) := by
  induction s1 generalizing c with
  | nil => rfl
  | cons i s1 ih =>
    rw [List.cons_append, run, run]
    cases turn M code i c with
    | ub => rfl
    | hang => rfl
    | ok c => exact ih c

/-- The use which has begun comes to its end when its task has enough turns. -/
theorem release {M : Machine S P R} {code : C → P} {p : P} {s s' : S} {r : R} (hc : Completes M p s r s')
    (tasks : Nat → Local C P R α) (i : Nat) (k : R → Prog C R α) (ht : tasks i = .inside p k) :
    ∃ n tasks', run M code (List.replicate n i) ⟨tasks, some i, s⟩ = .ok ⟨tasks', none, s'⟩ ∧ tasks' i = .out (k r) ∧
      ∀ j, j ≠ i → tasks' j = tasks j := by
  induction hc generalizing tasks with
  | done p s r hd =>
    refine ⟨1, put tasks i (.out (k r)), ?_, put_same _ _ _, fun j hj => put_other _ _ hj⟩
    simp only [List.replicate, run, turn, ht, hd, Res.bind_ok]
  | step p p' s s1 s2 r hd hstep _ ih =>
    obtain ⟨n, tasks', h1, h2, h3⟩ := ih (put tasks i (.inside p' k)) (put_same _ _ _)
    refine ⟨n + 1, tasks', ?_, h2, fun j hj => by rw [h3 j hj, put_other _ _ hj]⟩
    rw [List.replicate_succ, run]
    simp only [turn, ht, hd, hstep, Res.bind_ok]
    exact h1

/-- A task which has enough turns while nobody else has the lock comes to its end. -/
theorem finish_one {M : Machine S P R} {code : C → P} {Rel : S → A → Prop} {E : Effect C R A} {Ok : C → Prop}
    (hM : Implements M code Rel E Ok) (i : Nat) (p : Prog C R α) (hu : Uses Ok p) (tasks : Nat → Local C P R α)
    (ht : tasks i = .out p) (s : S) (a : A) (hr : Rel s a) :
    ∃ n tasks' s' a' x, run M code (List.replicate n i) ⟨tasks, none, s⟩ = .ok ⟨tasks', none, s'⟩ ∧ tasks' i = .out (.ret x) ∧
      (∀ j, j ≠ i → tasks' j = tasks j) ∧ Rel s' a' := by
  induction p generalizing tasks s a with
  | ret x => exact ⟨0, tasks, s, a, x, rfl, ht, fun _ _ => rfl, hr⟩
  | use u k ih =>
    obtain ⟨r, a', s', e1, e2, e3⟩ := hM u s a hu.1 hr
    obtain ⟨n, tasks', h1, h2, h3⟩ := release (code := code) e2 (put tasks i (.inside (code u) k)) i k (put_same _ _ _)
    obtain ⟨m, tasks'', s'', a'', x, k1, k2, k3, k4⟩ := ih r (hu.2 r) tasks' h2 s' a' e3
    refine ⟨1 + (n + m), tasks'', s'', a'', x, ?_, k2, fun j hj => ?_, k4⟩
    · rw [← List.replicate_append_replicate, run_append, ← List.replicate_append_replicate]
      have : run M code (List.replicate 1 i) ⟨tasks, none, s⟩ = .ok ⟨put tasks i (.inside (code u) k), some i, s⟩ := by
        simp only [List.replicate, run, turn, ht, Res.bind_ok]
      rw [this, Res.bind_ok, run_append, h1, Res.bind_ok, k1]
    · rw [k3 j hj, h3 j hj, put_other _ _ hj]

/-! ## Properties -/

/-- **C137**: tasks which take a lock around each use of a shared object, for all objects, programs and schedules: nothing goes
wrong, and at every time the state and the progress of the tasks are those after some of the uses one after the other, without
interleaving, but for one use which has begun. -/
theorem serial {M : Machine S P R} {code : C → P} {Rel : S → A → Prop} {E : Effect C R A} {Ok : C → Prop}
    (hM : Implements M code Rel E Ok) (ps : Nat → Prog C R α) (hu : ∀ i, Uses Ok (ps i)) (s : S) (a : A) (hr : Rel s a)
    (sched : List Nat) :
    ∃ c order ps' a', run M code sched (start ps s) = .ok c ∧ Serves E ps a order ps' a' ∧ Agrees M code Rel E c ps' a' := by
  obtain ⟨c, order, ps', a', h1, h2, h3⟩ := run_inv hM hu sched (.nil (E := E) (a := a))
    (c := start ps s) (show Agrees M code Rel E (start ps s) ps a from ⟨fun _ => rfl, hr⟩)
  exact ⟨c, order, ps', a', h1, h2, h3⟩

/-- **C137**: there is no deadlock: whatever the schedule so far, any `n` tasks can all still come to their ends. -/
theorem no_deadlock {M : Machine S P R} {code : C → P} {Rel : S → A → Prop} {E : Effect C R A} {Ok : C → Prop}
    (hM : Implements M code Rel E Ok) (ps : Nat → Prog C R α) (hu : ∀ i, Uses Ok (ps i)) (s : S) (a : A) (hr : Rel s a)
    (sched : List Nat) (n : Nat) :
    ∃ more c, run M code (sched ++ more) (start ps s) = .ok c ∧ c.owner = none ∧ ∀ i, i < n → ∃ x, c.tasks i = .out (.ret x) := by
  obtain ⟨c, order, ps', a', h1, h2, h3⟩ := run_inv hM hu sched (.nil (E := E) (a := a))
    (c := start ps s) (show Agrees M code Rel E (start ps s) ps a from ⟨fun _ => rfl, hr⟩)
  have hu' := h2.uses hu
  obtain ⟨more, tasks, s', a'', k1, k2, k3⟩ : ∃ more tasks s' a'', run M code more c = .ok ⟨tasks, none, s'⟩ ∧
      (∀ i, ∃ p, tasks i = .out p ∧ Uses Ok p) ∧ Rel s' a'' := by
    obtain ⟨tasks, owner, s1⟩ := c
    cases owner with
    | none => exact ⟨[], tasks, s1, a', rfl, fun i => ⟨ps' i, h3.1 i, hu' i⟩, h3.2⟩
    | some i =>
      obtain ⟨⟨u, k, s0, p, r, a'', s', g1, g2, g0, g3, g4, g5⟩, g6⟩ := h3
      obtain ⟨m, tasks', m1, m2, m3⟩ := release (code := code) g4 tasks i k g2
      refine ⟨_, tasks', s', a'', m1, fun j => ?_, g5⟩
      by_cases hj : j = i
      · subst hj
        have := hu' j
        rw [g1] at this
        exact ⟨k r, m2, this.2 r⟩
      · exact ⟨ps' j, by rw [m3 j hj]; exact g6 j hj, hu' j⟩
  have hall : ∀ n, ∃ more' tasks' s'' a3, run M code more' ⟨tasks, none, s'⟩ = .ok ⟨tasks', none, s''⟩ ∧
      (∀ i, i < n → ∃ x, tasks' i = .out (.ret x)) ∧ (∀ i, n ≤ i → tasks' i = tasks i) ∧ Rel s'' a3 := by
    intro n
    induction n with
    | zero => exact ⟨[], tasks, s', a'', rfl, fun i hi => by omega, fun _ _ => rfl, k3⟩
    | succ n ih =>
      obtain ⟨more', tasks', s'', a3, m1, m2, m3, m4⟩ := ih
      obtain ⟨p, p1, p2⟩ := k2 n
      obtain ⟨m, tasks'', s3, a4, x, q1, q2, q3, q4⟩ := finish_one hM n p p2 tasks' (by rw [m3 n (Nat.le_refl n), p1]) s'' a3 m4
      refine ⟨more' ++ List.replicate m n, tasks'', s3, a4, by rw [run_append, m1, Res.bind_ok, q1], fun i hi => ?_, fun i hi => ?_, q4⟩
      · by_cases hin : i = n
        · subst hin; exact ⟨x, q2⟩
        · rw [q3 i hin]; exact m2 i (by omega)
      · rw [q3 i (by omega), m3 i (by omega)]
  obtain ⟨more', tasks', s'', a3, m1, m2, -, -⟩ := hall n
  refine ⟨more ++ more', ⟨tasks', none, s''⟩, ?_, rfl, m2⟩
  rw [run_append, h1, Res.bind_ok, run_append, k1, Res.bind_ok, m1]

end Verif.App.Lock
