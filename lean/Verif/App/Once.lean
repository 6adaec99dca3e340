import Verif.App.TwoSlots
/-!
# C127: messages are processed exactly once in spite of power losses

A device receives numbered messages, each changes the state it keeps in the storage; a message which is not acknowledged is
sent again.  The state and the number of the next message are kept together in two slots (`App/TwoSlots.lean`), so that a
message whose processing was interrupted is processed again just when it had no effect.  The number is a single byte.

The program is the user's; `set`, `get` and the constructor are the code of PersistentStorage.h / .cpp as modelled in
`Storage/Model.lean`.
-/
namespace Verif.App.Once
open Verif Verif.Storage Verif.App.TwoSlots

/-! ## The program -/

/-- What a message does to the state. -/
abbrev Work := List Byte → List Byte → List Byte

/-- The calls of `set` made when message `msg` with number `tag` arrives, the state having `n` bytes: none when it is not the
expected one.  `none`: nothing has been installed. -/
def calls (work : Work) (n : Nat) (s : Store) (tag : Byte) (msg : List Byte) :
    Res (Option (List (List Byte × List Byte))) := do
  match ← TwoSlots.read s (n + 1) with
  | some (c :: st) =>
    if c = tag then do
      let cs ← updates s ((c + 1) :: work msg st)
      .ok (some cs)
    else .ok (some [])
  | _ => .ok none

/-- A message arrives; the result tells whether to acknowledge it. -/
def handle (work : Work) (n : Nat) (s : Store) (tag : Byte) (msg : List Byte) : Res (Store × Bool) := do
  match ← calls work n s tag msg with
  | none => .ok (s, false)
  | some cs => sets s cs

/-! ## Specification -/

/-- The state after the first `k` messages, each processed once, in order. -/
def applied (work : Work) (msgs : Nat → List Byte) (st0 : List Byte) : Nat → List Byte
  | 0 => st0
  | k + 1 => work (msgs k) (applied work msgs st0 k)

/-- When message `i` is the first one not known to be acknowledged, the messages which may arrive: it, again and again, and
belated copies of the 254 before. -/
def MayArrive (i j : Nat) : Prop := j ≤ i ∧ i < j + 255

/-- What may happen; the sender's first message not known to be acknowledged is the second component. -/
inductive Step (work : Work) (msgs : Nat → List Byte) (n : Nat) : Store × Nat → Store × Nat → Prop where
  /-- a message is processed; the acknowledgement arrives or is lost -/
  | handled (s s' : Store) (i j : Nat) (ok arrives : Bool) : MayArrive i j →
      handle work n s (BitVec.ofNat 8 j) (msgs j) = .ok (s', ok) →
      Step work msgs n (s, i) (s', if ok ∧ arrives ∧ j = i then i + 1 else i)
  /-- power is lost in the course of it -/
  | cut (s s' : Store) (i j : Nat) (cs) : MayArrive i j →
      calls work n s (BitVec.ofNat 8 j) (msgs j) = .ok (some cs) → Cut s cs s' → Step work msgs n (s, i) (s', i)
  /-- the rest of the program uses the storage, or power is lost while it does, or the storage is opened again -/
  | other (s s' : Store) (i : Nat) (e : Event) : Other (n + 1) e → Happens s e s' → Step work msgs n (s, i) (s', i)

/-- A history. -/
inductive Steps (work : Work) (msgs : Nat → List Byte) (n : Nat) : Store × Nat → Store × Nat → Prop where
  | nil (x) : Steps work msgs n x x
  | cons (x y z) : Step work msgs n x y → Steps work msgs n y z → Steps work msgs n x z

/-! ## Proof -/

theorem applied_length {work : Work} {n : Nat} (hw : ∀ m st, st.length = n → (work m st).length = n)
    (msgs : Nat → List Byte) {st0 : List Byte} (h0 : st0.length = n) (k : Nat) :
    (applied work msgs st0 k).length = n := by
  induction k with
  | zero => exact h0
  | succ k ih => exact hw _ _ ih

/-- The storage has the state after `c` messages. -/
def At (work : Work) (msgs : Nat → List Byte) (st0 : List Byte) (s : Store) (c : Nat) : Prop :=
  Holds s (st0.length + 1) (BitVec.ofNat 8 c :: applied work msgs st0 c)

theorem tag_eq {c j : Nat} (h1 : j ≤ c) (h2 : c < j + 256) : BitVec.ofNat 8 c = BitVec.ofNat 8 j ↔ c = j := by
  constructor
  · intro h
    have := congrArg BitVec.toNat h
    simp only [BitVec.toNat_ofNat, Nat.reducePow] at this
    omega
  · rintro rfl; rfl

theorem tag_succ (c : Nat) : BitVec.ofNat 8 c + 1 = BitVec.ofNat 8 (c + 1) := by
  rw [BitVec.ofNat_add]; rfl

section
variable {work : Work} {msgs : Nat → List Byte} {st0 : List Byte}

theorem At.calls_old {s : Store} {c : Nat} (h : At work msgs st0 s c) {j : Nat} (h1 : j < c) (h2 : c < j + 256) :
    calls work st0.length s (BitVec.ofNat 8 j) (msgs j) = .ok (some []) := by
  unfold calls
  rw [Holds.read h, Res.bind_ok]
  simp only
  rw [if_neg (by rw [tag_eq (by omega) h2]; omega)]

theorem At.calls_new {s : Store} {c : Nat} (h : At work msgs st0 s c) :
    ∃ cs, updates s (BitVec.ofNat 8 (c + 1) :: applied work msgs st0 (c + 1)) = .ok cs ∧
      calls work st0.length s (BitVec.ofNat 8 c) (msgs c) = .ok (some cs) := by
  have hr := Holds.read h
  obtain ⟨b, w, h1, -, -⟩ := h
  refine ⟨_, Holds.updates h1 _, ?_⟩
  unfold calls
  rw [hr, Res.bind_ok]
  simp only [if_true]
  rw [tag_succ, Holds.updates h1]
  rfl

theorem At.handle_old {s : Store} {c : Nat} (h : At work msgs st0 s c) {j : Nat} (h1 : j < c) (h2 : c < j + 256) :
    handle work st0.length s (BitVec.ofNat 8 j) (msgs j) = .ok (s, true) := by
  unfold handle
  rw [h.calls_old h1 h2]
  rfl

theorem At.handle_new (hw : ∀ m st, st.length = st0.length → (work m st).length = st0.length) {s : Store} {c : Nat}
    (h : At work msgs st0 s c) :
    ∃ s', handle work st0.length s (BitVec.ofNat 8 c) (msgs c) = .ok (s', true) ∧ At work msgs st0 s' (c + 1) := by
  obtain ⟨cs, e1, e2⟩ := h.calls_new
  obtain ⟨s', e3, k⟩ := Holds.put h (x := BitVec.ofNat 8 (c + 1) :: applied work msgs st0 (c + 1))
    (by rw [List.length_cons, applied_length hw msgs rfl])
  refine ⟨s', ?_, k⟩
  unfold handle
  rw [e2, Res.bind_ok]
  unfold TwoSlots.put at e3
  rw [e1, Res.bind_ok] at e3
  exact e3

theorem step_inv (hw : ∀ m st, st.length = st0.length → (work m st).length = st0.length) {x y : Store × Nat}
    (hs : Step work msgs st0.length x y) (h : At work msgs st0 x.1 x.2 ∨ At work msgs st0 x.1 (x.2 + 1)) :
    At work msgs st0 y.1 y.2 ∨ At work msgs st0 y.1 (y.2 + 1) := by
  cases hs with
  | handled s s' i j ok arrives hm hh =>
    obtain ⟨m1, m2⟩ := hm
    simp only at h ⊢
    by_cases hnew : At work msgs st0 s j
    · -- the message is the expected one
      obtain ⟨s1, e, k⟩ := hnew.handle_new hw
      rw [hh] at e
      cases e
      by_cases hji : j = i
      · subst hji
        by_cases ha : arrives = true
        · left; simpa [ha] using k
        · right; simpa [ha] using k
      · -- it cannot be expected, being old
        exfalso
        have e1 := Holds.read hnew
        rcases h with h | h
        · have e2 := Holds.read h
          rw [e1] at e2
          simp only [Res.ok.injEq, Option.some.injEq, List.cons.injEq] at e2
          have := (tag_eq (c := i) (j := j) m1 (by omega)).1 e2.1.symm
          omega
        · have e2 := Holds.read h
          rw [e1] at e2
          simp only [Res.ok.injEq, Option.some.injEq, List.cons.injEq] at e2
          have := (tag_eq (c := i + 1) (j := j) (by omega) (by omega)).1 e2.1.symm
          omega
    · rcases h with h | h
      · have hji : j ≠ i := fun e => hnew (by rw [e]; exact h)
        rw [h.handle_old (by omega) (by omega)] at hh
        cases hh
        left
        simpa [hji] using h
      · rw [h.handle_old (by omega) (by omega)] at hh
        cases hh
        by_cases ha : arrives = true ∧ j = i
        · left; simpa [ha] using h
        · right
          rw [if_neg (by simpa using ha)]
          exact h
  | cut s s' i j cs hm hc hcut =>
    obtain ⟨m1, m2⟩ := hm
    simp only at h ⊢
    have reopened : ∀ c, At work msgs st0 s c → cs = [] → At work msgs st0 s' c := by
      intro c hc' e
      subst e
      cases hcut with
      | done _ _ he => exact Holds.other hc' (e := .reopen) (fun o => ⟨id, id, id⟩) he
    rcases h with h | h
    · by_cases hji : j = i
      · subst hji
        obtain ⟨cs', e1, e2⟩ := h.calls_new
        rw [hc] at e2
        cases e2
        exact Holds.cut h (by rw [List.length_cons, applied_length hw msgs rfl]) e1 hcut
      · rw [h.calls_old (by omega) (by omega)] at hc
        cases hc
        exact .inl (reopened i h rfl)
    · rw [h.calls_old (by omega) (by omega)] at hc
      cases hc
      exact .inr (reopened (i + 1) h rfl)
  | other s s' i e hn he =>
    simp only at h ⊢
    rcases h with h | h
    · exact .inl (Holds.other h hn he)
    · exact .inr (Holds.other h hn he)

theorem steps_inv (hw : ∀ m st, st.length = st0.length → (work m st).length = st0.length) {x y : Store × Nat}
    (hs : Steps work msgs st0.length x y) (h : At work msgs st0 x.1 x.2 ∨ At work msgs st0 x.1 (x.2 + 1)) :
    At work msgs st0 y.1 y.2 ∨ At work msgs st0 y.1 (y.2 + 1) := by
  induction hs with
  | nil => exact h
  | cons x y z h1 _ ih => exact ih (step_inv hw h1 h)

/-- **C127**: at any time the state is the one after the messages `0`, `1`, …, each processed exactly once and in order, up
to the last one known to be acknowledged, or up to the next one. -/
theorem exactly_once (hw : ∀ m st, st.length = st0.length → (work m st).length = st0.length) {s s0 s' : Store} (hu : InUse s)
    (hsz : 7 + st0.length < 65536) (hi : install s (0 :: st0) = .ok (s0, true)) (i : Nat)
    (hs : Steps work msgs st0.length (s0, 0) (s', i)) :
    ∃ c, (c = i ∨ c = i + 1) ∧
      read s' (st0.length + 1) = .ok (some (BitVec.ofNat 8 c :: applied work msgs st0 c)) := by
  have h0 : At work msgs st0 s0 0 := install_holds hu (0 :: st0) (by rw [List.length_cons]; omega) hi
  rcases steps_inv hw hs (.inl h0) with h | h
  · exact ⟨i, .inl rfl, Holds.read h⟩
  · exact ⟨i + 1, .inr rfl, Holds.read h⟩

/-- **C127**: at any time, whatever has happened before, a message which may arrive is handled and acknowledged, however full
the storage is; and if it is the next one, the state is then exactly the one after it. -/
theorem always_progress (hw : ∀ m st, st.length = st0.length → (work m st).length = st0.length) {s s0 s' : Store}
    (hu : InUse s) (hsz : 7 + st0.length < 65536) (hi : install s (0 :: st0) = .ok (s0, true)) (i : Nat)
    (hs : Steps work msgs st0.length (s0, 0) (s', i)) (j : Nat) (hj : MayArrive i j) :
    ∃ s1, handle work st0.length s' (BitVec.ofNat 8 j) (msgs j) = .ok (s1, true) ∧
      (j = i → read s1 (st0.length + 1) = .ok (some (BitVec.ofNat 8 (i + 1) :: applied work msgs st0 (i + 1)))) ∧
      (j ≠ i → s1 = s') := by
  have h0 : At work msgs st0 s0 0 := install_holds hu (0 :: st0) (by rw [List.length_cons]; omega) hi
  obtain ⟨m1, m2⟩ := hj
  rcases steps_inv hw hs (.inl h0) with h | h
  · by_cases hji : j = i
    · subst hji
      obtain ⟨s1, e, k⟩ := At.handle_new hw h
      exact ⟨s1, e, fun _ => Holds.read k, fun h => absurd rfl h⟩
    · exact ⟨s', At.handle_old h (by omega) (by omega), fun h => absurd h hji, fun _ => rfl⟩
  · exact ⟨s', At.handle_old h (by omega) (by omega), fun _ => Holds.read h, fun _ => rfl⟩

end

/-- **C127 (how belated a copy may be)**: a copy of the message 256 before the next one is taken for the next one. -/
theorem too_late (work : Work) (msgs : Nat → List Byte) (st0 : List Byte) (s : Store) (c : Nat)
    (hw : ∀ m st, st.length = st0.length → (work m st).length = st0.length)
    (h : Holds s (st0.length + 1) (BitVec.ofNat 8 (c + 256) :: applied work msgs st0 (c + 256))) :
    ∃ s1, handle work st0.length s (BitVec.ofNat 8 c) (msgs c) = .ok (s1, true) ∧
      read s1 (st0.length + 1) =
        .ok (some (BitVec.ofNat 8 (c + 257) :: work (msgs c) (applied work msgs st0 (c + 256)))) := by
  have ht : BitVec.ofNat 8 (c + 256) = BitVec.ofNat 8 c := by
    apply BitVec.eq_of_toNat_eq; simp
  have hr := Holds.read h
  obtain ⟨s1, e, k⟩ := Holds.put h (x := BitVec.ofNat 8 (c + 257) :: work (msgs c) (applied work msgs st0 (c + 256)))
    (by rw [List.length_cons, hw _ _ (applied_length hw msgs rfl _)])
  refine ⟨s1, ?_, Holds.read k⟩
  obtain ⟨b, w, h1, -, -⟩ := h
  unfold TwoSlots.put at e
  rw [Holds.updates h1, Res.bind_ok] at e
  unfold handle calls
  rw [hr, Res.bind_ok]
  simp only [ht, if_true]
  rw [← ht, tag_succ, Holds.updates h1]
  exact e

/-! ## A concrete case -/

/-- A sum of numbers. -/
def sum : Work := fun m st => [m.headD 0 + st.headD 0]

/-- The messages 5, 6, 7, …. -/
def numbers (i : Nat) : List Byte := [BitVec.ofNat 8 (5 + i)]

/-- Number 0, sum 0. -/
def m0 : List Byte :=
  [8, 0, 0x63, 0x66, 0x67, 0x41, 0, 0] ++ [8, 0, 0x63, 0x66, 0x67, 0x42, 0, 0] ++ [7, 0, 0x63, 0x66, 0x67, 0x53, 0] ++ [0]

/-- The first message has been processed: number 1, sum 5. -/
def m1 : List Byte := ((m0.set 14 1).set 15 5).set 22 1

/-- The first message arrives, power is lost as it has been processed, before it is acknowledged; it arrives again and is
acknowledged without being processed twice. -/
example : InUse ⟨List.replicate 24 0, 0⟩ ∧ install ⟨List.replicate 24 0, 0⟩ [0, 0] = .ok (⟨m0, 23⟩, true) ∧
    Steps sum numbers 1 (⟨m0, 23⟩, 0) (⟨m1, 23⟩, 1) ∧ read ⟨m1, 23⟩ 2 = .ok (some [1, 5]) := by
  refine ⟨.fresh (List.replicate 24 0xFF) _ (by simp [CapOk]) (by decide +kernel), by decide +kernel, ?_, by decide +kernel⟩
  refine .cons _ (⟨m1, 23⟩, 0) _ (.cut _ _ 0 0 [(slotB, [1, 5]), (sel, [1])] ⟨by omega, by omega⟩ (by decide +kernel)
    (.later _ ⟨(m0.set 14 1).set 15 5, 23⟩ _ _ _ _ (by decide +kernel) (.here _ _ _ _ _ (.crash _ _ _ _
        ⟨[(22, 1)], 23, true⟩ _ (by decide +kernel) ⟨[(22, 1)], by simp, rfl⟩ (by decide +kernel))))) ?_
  exact .cons _ _ _ (.handled ⟨m1, 23⟩ ⟨m1, 23⟩ 0 0 true true ⟨by omega, by omega⟩ (by decide +kernel)) (.nil _)

example : ∀ m st : List Byte, st.length = 1 → (sum m st).length = 1 := fun _ _ _ => rfl

end Verif.App.Once
