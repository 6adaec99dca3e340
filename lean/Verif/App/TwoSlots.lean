import Verif.Storage.Durable
/-!
# C124: a value kept in two slots is updated all or nothing

A power loss in the middle of `set` leaves an object of which some bytes are old and some are new (C07, `one_slot_tears`
below).  The usual remedy is a program on top of the storage: two copies of the value and a byte which says which of them is
current; an update writes the copy which is not current and then the byte.  Whether the remedy works depends on the storage:
an interrupted call must not touch anything but the object it writes, the objects must be found again after the restart, and
a byte must be written at once.

The program is the user's, `set`, `get` and the constructor are the code of PersistentStorage.h / .cpp as modelled in
`Storage/Model.lean`.
-/
namespace Verif.App.TwoSlots
open Verif Verif.Storage

/-! ## The program -/

/-- "cfgA" -/
def slotA : List Byte := [0x63, 0x66, 0x67, 0x41]
/-- "cfgB" -/
def slotB : List Byte := [0x63, 0x66, 0x67, 0x42]
/-- "cfgS" -/
def sel : List Byte := [0x63, 0x66, 0x67, 0x53]

/-- The copy which is current when the byte is `b`. -/
def current (b : List Byte) : List Byte := if b = [0] then slotA else slotB
/-- The other copy. -/
def spare (b : List Byte) : List Byte := if b = [0] then slotB else slotA
/-- The byte which makes the other copy current. -/
def flipped (b : List Byte) : List Byte := if b = [0] then [1] else [0]

/-- The value, `n` is its size. -/
def read (s : Store) (n : Nat) : Res (Option (List Byte)) := do
  match ← Storage.get s sel 1 with
  | none => .ok none
  | some b => Storage.get s (current b) n

/-- Calls of `set` one after the other, up to the first one which returns false. -/
def sets (s : Store) : List (List Byte × List Byte) → Res (Store × Bool)
  | [] => .ok (s, true)
  | (name, obj) :: cs => do
    let (s, ok) ← Storage.set s name obj
    if ok then sets s cs else .ok (s, false)

/-- The calls of `set` which replace the value. -/
def updates (s : Store) (v : List Byte) : Res (List (List Byte × List Byte)) := do
  match ← Storage.get s sel 1 with
  | none => .ok []
  | some b => .ok [(spare b, v), (sel, flipped b)]

/-- Replace the value. -/
def put (s : Store) (v : List Byte) : Res (Store × Bool) := do
  let cs ← updates s v
  sets s cs

/-- Set up both copies and the byte. -/
def install (s : Store) (v : List Byte) : Res (Store × Bool) := sets s [(slotA, v), (slotB, v), (sel, [0])]

/-! ## Specification -/

/-- Power is lost during calls of `set`: some of them have returned true, of the next one any of its bytes have reached memory
in any order, or all of them have returned; then the storage is opened again. -/
inductive Cut : Store → List (List Byte × List Byte) → Store → Prop where
  | here (s s' : Store) (name obj : List Byte) (cs) : Happens s (.crash name obj) s' → Cut s ((name, obj) :: cs) s'
  | later (s s1 s' : Store) (name obj : List Byte) (cs) : Storage.set s name obj = .ok (s1, true) → Cut s1 cs s' →
      Cut s ((name, obj) :: cs) s'
  | done (s s' : Store) : Happens s .reopen s' → Cut s [] s'

/-- What may happen. -/
inductive Act where
  /-- the value is replaced -/
  | put (v : List Byte)
  /-- power is lost while the value is replaced -/
  | cut (v : List Byte)
  /-- the value is read, with this result -/
  | read (r : Option (List Byte))
  /-- the rest of the program uses the storage, or power is lost while it does, or the storage is opened again -/
  | other (e : Event)

/-- The event does not write the two copies and the byte. -/
def Other (n : Nat) (e : Event) : Prop :=
  ∀ o, ¬ e.Writes slotA n o ∧ ¬ e.Writes slotB n o ∧ ¬ e.Writes sel 1 o

/-- One step. -/
inductive Step (n : Nat) : Store → Act → Store → Prop where
  | put (s s' : Store) (v : List Byte) (b : Bool) : v.length = n → TwoSlots.put s v = .ok (s', b) → Step n s (.put v) s'
  | cut (s s' : Store) (v : List Byte) (cs) : v.length = n → updates s v = .ok cs → Cut s cs s' → Step n s (.cut v) s'
  | read (s : Store) (r : Option (List Byte)) : TwoSlots.read s n = .ok r → Step n s (.read r) s
  | other (s s' : Store) (e : Event) : Other n e → Happens s e s' → Step n s (.other e) s'

/-- A history. -/
inductive Steps (n : Nat) : Store → List Act → Store → Prop where
  | nil (s : Store) : Steps n s [] s
  | cons (s s1 s2 : Store) (a : Act) (as : List Act) : Step n s a s1 → Steps n s1 as s2 → Steps n s (a :: as) s2

/-- The histories of a single variable which is replaced at once, where an interrupted update has happened or not:
`Register v as v'` from the value `v` to the value `v'`. -/
inductive Register : List Byte → List Act → List Byte → Prop where
  | nil (v) : Register v [] v
  | put (v w v') (as) : Register w as v' → Register v (.put w :: as) v'
  | cutNew (v w v') (as) : Register w as v' → Register v (.cut w :: as) v'
  | cutOld (v w v') (as) : Register v as v' → Register v (.cut w :: as) v'
  | read (v v') (as) : Register v as v' → Register v (.read (some v) :: as) v'
  | other (v v') (e) (as) : Register v as v' → Register v (.other e :: as) v'

/-! ## Overwriting an object -/

/-- Where an object in place is found. -/
theorem Placed_getIdx {s : Store} {name : List Byte} {n : Nat} {v : List Byte} {l : List (Nat × Nat)} {p : Nat}
    (h : Placed s name n v l p) : getIdx s name n = .ok (some p) := by
  have hlen := h.walk.length_le
  have hr := h.room
  have hh := h.head
  have hm : nodeMatches s.mem p name n = .ok true := by
    rw [nodeMatches_hit (by omega) h.size]
    simp [hit, h.short, h.idx]
  unfold getIdx
  rw [getIdxLoop_skipL h.cap h.walk _ _ _ h.first (by omega) (by omega)]
  obtain ⟨f, hf⟩ : ∃ f, s.freeHead + 1 - l.length = f + 1 := ⟨s.freeHead - l.length, by omega⟩
  rw [hf, getIdxLoop, if_pos (by simp only [descSize]; omega), hm]
  rfl

theorem Placed_setPlan {s : Store} {name : List Byte} {n : Nat} {v : List Byte} {l : List (Nat × Nat)} {p : Nat}
    (h : Placed s name n v l p) {obj : List Byte} (ho : obj.length = n) :
    setPlan s name obj = .ok ⟨writesAt (p + 6) obj, s.freeHead, true⟩ := by
  unfold setPlan
  rw [ho, Placed_getIdx h]
  rfl

theorem Kept_get {s : Store} {name : List Byte} {n : Nat} {v : List Byte} (h : Kept s name n v) :
    Storage.get s name n = .ok (some v) := by
  obtain ⟨l, p, h⟩ := h
  exact h.get

/-- An object in place is overwritten: the call succeeds, whatever room there is. -/
theorem Kept_set {s : Store} {name : List Byte} {n : Nat} {v : List Byte} (h : Kept s name n v) {obj : List Byte}
    (ho : obj.length = n) : ∃ s', Storage.set s name obj = .ok (s', true) ∧ Kept s' name n obj := by
  obtain ⟨l, p, h⟩ := h
  have hr := h.room
  have hh := h.head
  have hp := Placed_setPlan h ho
  have e : s.mem = s.mem.take (p + 6) ++ (sub s.mem (p + 6) n ++ s.mem.drop (p + 6 + n)) := by
    unfold sub
    have k : s.mem.drop (p + 6 + n) = (s.mem.drop (p + 6)).drop n := by rw [List.drop_drop]
    rw [k, List.take_append_drop, List.take_append_drop]
  have hl : (s.mem.take (p + 6)).length = p + 6 := by rw [List.length_take]; omega
  have hsl : (sub s.mem (p + 6) n).length = obj.length := by rw [sub_length (by omega), ho]
  have ha : applyWrites s.mem (writesAt (p + 6) obj)
      = .ok (s.mem.take (p + 6) ++ (obj ++ s.mem.drop (p + 6 + n))) := by
    have k := applyWrites_writesAt (s.mem.take (p + 6)) _ obj (s.mem.drop (p + 6 + n)) hsl
    rw [hl, ← e] at k
    exact k
  have hset : Storage.set s name obj = .ok (⟨s.mem.take (p + 6) ++ (obj ++ s.mem.drop (p + 6 + n)), s.freeHead⟩, true) := by
    unfold Storage.set
    rw [hp, Res.bind_ok]
    simp only
    rw [ha]
    rfl
  refine ⟨_, hset, l, p, ?_⟩
  have hlen : (s.mem.take (p + 6) ++ (obj ++ s.mem.drop (p + 6 + n))).length = s.mem.length := by
    simp only [List.length_append, hl, List.length_drop]; omega
  have k := h.congr (m' := s.mem.take (p + 6) ++ (obj ++ s.mem.drop (p + 6 + n))) (fh := s.freeHead) hlen hr
    (by omega) (fun i hi _ => by
      rw [List.getElem?_append_left (by omega), List.getElem?_take, if_pos hi])
  have hd : sub (s.mem.take (p + 6) ++ (obj ++ s.mem.drop (p + 6 + n))) (p + 6) n = obj := by
    unfold sub
    rw [List.drop_left' hl, List.take_left' ho]
  rw [hd] at k
  exact k

/-! ## The invariant -/

/-- The byte and both copies are in place, the current one has the value. -/
def Holds (s : Store) (n : Nat) (v : List Byte) : Prop :=
  ∃ b w, Kept s sel 1 b ∧ Kept s (current b) n v ∧ Kept s (spare b) n w

theorem Holds.read {s : Store} {n : Nat} {v : List Byte} (h : Holds s n v) : TwoSlots.read s n = .ok (some v) := by
  obtain ⟨b, w, h1, h2, -⟩ := h
  unfold TwoSlots.read
  rw [Kept_get h1]
  exact Kept_get h2

theorem current_or (b : List Byte) :
    (current b = slotA ∧ spare b = slotB ∧ current (flipped b) = slotB ∧ spare (flipped b) = slotA) ∨
    (current b = slotB ∧ spare b = slotA ∧ current (flipped b) = slotA ∧ spare (flipped b) = slotB) := by
  unfold current spare flipped
  by_cases h : b = [0]
  · left; subst h; decide
  · right; simp only [if_neg h]; decide

theorem flipped_length (b : List Byte) : (flipped b).length = 1 := by
  unfold flipped; split <;> rfl

theorem current_flipped (b : List Byte) : current (flipped b) = spare b := by
  rcases current_or b with h | h <;> rw [h.2.2.1, h.2.1]

theorem spare_flipped (b : List Byte) : spare (flipped b) = current b := by
  rcases current_or b with h | h <;> rw [h.2.2.2, h.1]

/-- An event keeps an object it does not write. -/
theorem Kept_spared {s s' : Store} {name : List Byte} {n : Nat} {v : List Byte} (h : Kept s name n v) {e : Event}
    (he : Happens s e s') (hno : ∀ o, ¬ e.Writes name n o) : Kept s' name n v := by
  obtain ⟨v', h1, -, h2, -⟩ := h.event he
  rw [← h2 hno]
  exact h1

theorem names_ne : stripNul slotA ≠ stripNul slotB ∧ stripNul slotA ≠ stripNul sel ∧ stripNul slotB ≠ stripNul sel := by
  decide

theorem spare_ne (b : List Byte) : stripNul (spare b) ≠ stripNul (current b) ∧ stripNul (spare b) ≠ stripNul sel ∧
    stripNul sel ≠ stripNul (spare b) ∧ stripNul sel ≠ stripNul (current b) := by
  obtain ⟨h1, h2, h3⟩ := names_ne
  rcases current_or b with h | h <;> rw [h.1, h.2.1]
  · exact ⟨h1.symm, h3, h3.symm, h2.symm⟩
  · exact ⟨h1, h2, h2.symm, h3.symm⟩

theorem Holds.other {s s' : Store} {n : Nat} {v : List Byte} (h : Holds s n v) {e : Event} (hn : Other n e)
    (he : Happens s e s') : Holds s' n v := by
  obtain ⟨b, w, h1, h2, h3⟩ := h
  refine ⟨b, w, Kept_spared h1 he fun o => (hn o).2.2, Kept_spared h2 he fun o => ?_, Kept_spared h3 he fun o => ?_⟩
  · rcases current_or b with k | k
    · rw [k.1]; exact (hn o).1
    · rw [k.1]; exact (hn o).2.1
  · rcases current_or b with k | k
    · rw [k.2.1]; exact (hn o).2.1
    · rw [k.2.1]; exact (hn o).1

/-- The first call of an update. -/
theorem Holds.first {s : Store} {n : Nat} {v w b : List Byte} (h1 : Kept s sel 1 b) (h2 : Kept s (current b) n v)
    (h3 : Kept s (spare b) n w) {x : List Byte} (hx : x.length = n) :
    ∃ s1, Storage.set s (spare b) x = .ok (s1, true) ∧ Kept s1 sel 1 b ∧ Kept s1 (current b) n v ∧ Kept s1 (spare b) n x := by
  obtain ⟨s1, hs, k⟩ := Kept_set h3 hx
  obtain ⟨n1, n2, n3, n4⟩ := spare_ne b
  have he := Happens.set s s1 _ _ _ hs
  exact ⟨s1, hs, Kept_spared h1 he fun o hw => n2 hw.1, Kept_spared h2 he fun o hw => n1 hw.1, k⟩

/-- The second one. -/
theorem Holds.second {s : Store} {n : Nat} {v b x : List Byte} (h1 : Kept s sel 1 b) (h2 : Kept s (current b) n v)
    (h3 : Kept s (spare b) n x) :
    ∃ s1, Storage.set s sel (flipped b) = .ok (s1, true) ∧ Holds s1 n x := by
  obtain ⟨s1, hs, k⟩ := Kept_set h1 (flipped_length b)
  obtain ⟨n1, n2, n3, n4⟩ := spare_ne b
  have he := Happens.set s s1 _ _ _ hs
  refine ⟨s1, hs, flipped b, v, k, ?_, ?_⟩
  · rw [current_flipped]; exact Kept_spared h3 he fun o hw => n3 hw.1
  · rw [spare_flipped]; exact Kept_spared h2 he fun o hw => n4 hw.1

theorem Holds.updates {s : Store} {b : List Byte} (h1 : Kept s sel 1 b) (x : List Byte) :
    TwoSlots.updates s x = .ok [(spare b, x), (sel, flipped b)] := by
  unfold TwoSlots.updates
  rw [Kept_get h1]
  rfl

theorem Holds.put {s : Store} {n : Nat} {v : List Byte} (h : Holds s n v) {x : List Byte} (hx : x.length = n) :
    ∃ s', TwoSlots.put s x = .ok (s', true) ∧ Holds s' n x := by
  obtain ⟨b, w, h1, h2, h3⟩ := h
  obtain ⟨s1, e1, k1, k2, k3⟩ := Holds.first h1 h2 h3 hx
  obtain ⟨s2, e2, k⟩ := Holds.second k1 k2 k3
  refine ⟨s2, ?_, k⟩
  unfold TwoSlots.put
  rw [Holds.updates h1 x]
  simp [sets, e1, e2]

/-- A byte is written at once. -/
theorem one_byte {v' v o : List Byte} (h' : v'.length = 1) (hv : v.length = 1) (ho : o.length = 1)
    (h : ∀ i : Nat, v'[i]? = v[i]? ∨ v'[i]? = o[i]?) : v' = v ∨ v' = o := by
  obtain ⟨a', rfl⟩ := List.length_eq_one_iff.1 h'
  obtain ⟨a, rfl⟩ := List.length_eq_one_iff.1 hv
  obtain ⟨c, rfl⟩ := List.length_eq_one_iff.1 ho
  simpa using h 0

theorem Kept_length {s : Store} {name : List Byte} {n : Nat} {v : List Byte} (h : Kept s name n v) : v.length = n := by
  obtain ⟨l, p, h⟩ := h
  exact h.length

theorem Holds.cut {s s' : Store} {n : Nat} {v : List Byte} (h : Holds s n v) {x : List Byte} (hx : x.length = n) {cs}
    (hu : TwoSlots.updates s x = .ok cs) (hc : Cut s cs s') : Holds s' n v ∨ Holds s' n x := by
  obtain ⟨b, w, h1, h2, h3⟩ := h
  rw [Holds.updates h1 x] at hu
  cases hu
  obtain ⟨n1, n2, n3, n4⟩ := spare_ne b
  cases hc with
  | here _ _ _ _ _ he =>
    left
    obtain ⟨w', k, -⟩ := h3.event he
    exact ⟨b, w', Kept_spared h1 he fun o hw => n2 hw.1, Kept_spared h2 he fun o hw => n1 hw.1, k⟩
  | later _ s1 _ _ _ _ hs hc =>
    obtain ⟨s1', e1, k1, k2, k3⟩ := Holds.first h1 h2 h3 hx
    rw [hs] at e1; cases e1
    cases hc with
    | here _ _ _ _ _ he =>
      obtain ⟨b', g1, g2, -, g3⟩ := k1.event he
      have hb : b' = b ∨ b' = flipped b := by
        refine one_byte g2 (Kept_length k1) (flipped_length b) fun i => ?_
        rcases g3 i with h | ⟨o, ⟨-, -, rfl⟩, h⟩
        · exact .inl h
        · exact .inr h
      have g4 := Kept_spared k2 he fun o hw => n4 hw.1
      have g5 := Kept_spared k3 he fun o hw => n3 hw.1
      rcases hb with rfl | rfl
      · exact .inl ⟨b', x, g1, g4, g5⟩
      · right
        refine ⟨_, v, g1, ?_, ?_⟩
        · rw [current_flipped]; exact g5
        · rw [spare_flipped]; exact g4
    | later _ s2 _ _ _ _ hs2 hc =>
      obtain ⟨s2', e2, k⟩ := Holds.second k1 k2 k3
      rw [hs2] at e2; cases e2
      cases hc with
      | done _ _ he =>
        right
        exact k.other (fun o => ⟨id, id, id⟩) he

/-! ## The property -/

/-- After the copies are in place every history is one of a single variable, and the value can be read. -/
theorem Holds.steps {s s' : Store} {n : Nat} {v : List Byte} (h : Holds s n v) {as : List Act} (hs : Steps n s as s') :
    ∃ v', Register v as v' ∧ Holds s' n v' := by
  induction hs generalizing v with
  | nil s => exact ⟨v, .nil v, h⟩
  | cons s s1 s2 a as h1 _ ih =>
    cases h1 with
    | put _ x b hx hp =>
      obtain ⟨s1', e, k⟩ := h.put hx
      rw [hp] at e; cases e
      obtain ⟨v', r, g⟩ := ih k
      exact ⟨v', .put _ _ _ _ r, g⟩
    | cut _ x cs hx hu hc =>
      rcases h.cut hx hu hc with k | k
      · obtain ⟨v', r, g⟩ := ih k
        exact ⟨v', .cutOld _ _ _ _ r, g⟩
      · obtain ⟨v', r, g⟩ := ih k
        exact ⟨v', .cutNew _ _ _ _ r, g⟩
    | read r hr =>
      rw [h.read] at hr; cases hr
      obtain ⟨v', r, g⟩ := ih h
      exact ⟨v', .read _ _ _ r, g⟩
    | other _ e hn he =>
      obtain ⟨v', r, g⟩ := ih (h.other hn he)
      exact ⟨v', .other _ _ _ _ r, g⟩

/-- A new object is in place after its call has returned true. -/
theorem InUse_set {s s1 : Store} (hu : InUse s) {name obj : List Byte} (hn : name.length ≤ 4) (hsz : 6 + obj.length < 65536)
    (hset : Storage.set s name obj = .ok (s1, true)) : InUse s1 ∧ Kept s1 name obj.length obj := by
  refine ⟨.set s s1 name obj true hu hn hsz hset, ?_⟩
  obtain ⟨l, ho⟩ := hu.opened'
  obtain ⟨s0, o, l', h1, h2, -, -, h3⟩ := ho.step (.set name obj) ⟨hn, hsz⟩ (fun _ _ _ e => by cases e)
  simp only [step, hset, Res.bind_ok] at h1
  simp only [Res.ok.injEq, Prod.mk.injEq] at h1
  obtain ⟨rfl, rfl⟩ := h1
  exact Kept.of_walk h2.cap h2.head h2.walk (h3 name obj rfl rfl)

theorem sets_cons {s s' : Store} {name obj : List Byte} {cs} (h : sets s ((name, obj) :: cs) = .ok (s', true)) :
    ∃ s1, Storage.set s name obj = .ok (s1, true) ∧ sets s1 cs = .ok (s', true) := by
  rw [sets, Res.bind_eq_ok] at h
  obtain ⟨⟨s1, b⟩, h1, h2⟩ := h
  cases b with
  | false => simp at h2
  | true => exact ⟨s1, h1, by simpa using h2⟩

theorem install_holds {s s0 : Store} (hu : InUse s) (v : List Byte) (hsz : 6 + v.length < 65536)
    (hi : install s v = .ok (s0, true)) : Holds s0 v.length v := by
  unfold install at hi
  obtain ⟨s1, e1, hi⟩ := sets_cons hi
  obtain ⟨s2, e2, hi⟩ := sets_cons hi
  obtain ⟨s3, e3, hi⟩ := sets_cons hi
  cases hi
  obtain ⟨u1, k1⟩ := InUse_set hu (by decide) hsz e1
  obtain ⟨u2, k2⟩ := InUse_set u1 (by decide) hsz e2
  obtain ⟨u3, k3⟩ := InUse_set u2 (by decide) (by decide) e3
  obtain ⟨n1, n2, n3⟩ := names_ne
  have g1 := Kept_spared k1 (Happens.set _ _ _ _ _ e2) fun o hw => n1 hw.1.symm
  have g2 := Kept_spared g1 (Happens.set _ _ _ _ _ e3) fun o hw => n2 hw.1.symm
  have g3 := Kept_spared k2 (Happens.set _ _ _ _ _ e3) fun o hw => n3 hw.1.symm
  exact ⟨[0], v, k3, g2, g3⟩

/-- **C124**: once the two copies have been set up in a storage in use, everything that can be observed of the value - by
reading it at any time - could be observed of one variable which is replaced at once: whatever else is done with the
storage, whenever power is lost and whichever bytes of the interrupted call have reached memory, an interrupted update has
either happened or not; and then the value can be read. -/
theorem all_or_nothing {s s0 s' : Store} (hu : InUse s) (v : List Byte) (hsz : 6 + v.length < 65536)
    (hi : install s v = .ok (s0, true)) (as : List Act) (hs : Steps v.length s0 as s') :
    ∃ v', Register v as v' ∧ read s' v.length = .ok (some v') := by
  obtain ⟨v', r, g⟩ := (install_holds hu v hsz hi).steps hs
  exact ⟨v', r, g.read⟩

/-- **C124**: at any time an update is defined and returns true, however full the storage is, and after a power loss at any
time during the update, with any of the bytes of the interrupted call in memory, the storage can be opened again. -/
theorem update_total {s s0 s' : Store} (hu : InUse s) (v : List Byte) (hsz : 6 + v.length < 65536)
    (hi : install s v = .ok (s0, true)) (as : List Act) (hs : Steps v.length s0 as s') (x : List Byte)
    (hx : x.length = v.length) :
    (∃ s1, put s' x = .ok (s1, true) ∧ read s1 v.length = .ok (some x)) ∧
    ∃ c1 c2, updates s' x = .ok [c1, c2] ∧
      (∃ plan, setPlan s' c1.1 c1.2 = .ok plan ∧ ∀ ws : List (Nat × Byte), (∀ w ∈ ws, w ∈ plan.writes) →
        ∃ m1 s1, applyWrites s'.mem ws = .ok m1 ∧ create m1 false = .ok s1 ∧ Step v.length s' (.cut x) s1) ∧
      ∃ t, Storage.set s' c1.1 c1.2 = .ok (t, true) ∧
        ∃ plan, setPlan t c2.1 c2.2 = .ok plan ∧ ∀ ws : List (Nat × Byte), (∀ w ∈ ws, w ∈ plan.writes) →
          ∃ m1 s1, applyWrites t.mem ws = .ok m1 ∧ create m1 false = .ok s1 ∧ Step v.length s' (.cut x) s1 := by
  obtain ⟨v', r, g⟩ := (install_holds hu v hsz hi).steps hs
  have hcrash : ∀ {s : Store} {name v obj : List Byte} {n : Nat}, Kept s name n v → obj.length = n →
      ∃ plan, setPlan s name obj = .ok plan ∧ ∀ ws : List (Nat × Byte), (∀ w ∈ ws, w ∈ plan.writes) →
        ∃ m1 s1, applyWrites s.mem ws = .ok m1 ∧ create m1 false = .ok s1 ∧ Happens s (.crash name obj) s1 := by
    intro s name v obj n ⟨l, p, h⟩ ho
    have hr := h.room
    have hh := h.head
    refine ⟨_, Placed_setPlan h ho, fun ws hws => ?_⟩
    obtain ⟨m1, k1, k2, -⟩ := applyWrites_window s.mem ws 0 s.mem.length (by omega) (fun w hw => by
      have := mem_writesAt (hws w hw)
      omega)
    obtain ⟨s1, hs1, -⟩ := open_total m1 (by rw [k2]; exact h.cap)
    exact ⟨m1, s1, k1, hs1, .crash s s1 name obj _ m1 (Placed_setPlan h ho) ⟨ws, hws, k1⟩ hs1⟩
  constructor
  · obtain ⟨s1, h1, h2⟩ := g.put hx
    exact ⟨s1, h1, h2.read⟩
  · obtain ⟨b, w, h1, h2, h3⟩ := g
    have hup := Holds.updates h1 x
    refine ⟨_, _, hup, ?_, ?_⟩
    · obtain ⟨plan, hp, hall⟩ := hcrash h3 hx
      refine ⟨plan, hp, fun ws hws => ?_⟩
      obtain ⟨m1, s1, k1, k2, k3⟩ := hall ws hws
      exact ⟨m1, s1, k1, k2, .cut _ _ _ _ hx hup (.here _ _ _ _ _ k3)⟩
    · obtain ⟨t, e1, k1, k2, k3⟩ := Holds.first h1 h2 h3 hx
      refine ⟨t, e1, ?_⟩
      obtain ⟨plan, hp, hall⟩ := hcrash k1 (flipped_length b)
      refine ⟨plan, hp, fun ws hws => ?_⟩
      obtain ⟨m1, s1, q1, q2, q3⟩ := hall ws hws
      exact ⟨m1, s1, q1, q2, .cut _ _ _ _ hx hup (.later _ _ _ _ _ _ e1 (.here _ _ _ _ _ q3))⟩

/-- **C124**: what a register shows: the initial value, or one that an update wrote, completely or not, after which no other
update was completed. -/
theorem Register.last {v v' : List Byte} {as : List Act} (h : Register v as v') :
    (v' = v ∧ ∀ w, .put w ∉ as) ∨
    ∃ as1 as2, (as = as1 ++ .put v' :: as2 ∨ as = as1 ++ .cut v' :: as2) ∧ ∀ w, .put w ∉ as2 := by
  have lift : ∀ {a : Act} {as : List Act} {v' : List Byte},
      (∃ as1 as2, (as = as1 ++ .put v' :: as2 ∨ as = as1 ++ .cut v' :: as2) ∧ ∀ w, .put w ∉ as2) →
      ∃ as1 as2, (a :: as = as1 ++ .put v' :: as2 ∨ a :: as = as1 ++ .cut v' :: as2) ∧ ∀ w, .put w ∉ as2 := by
    rintro a as v' ⟨as1, as2, h | h, hn⟩
    · exact ⟨a :: as1, as2, .inl (by rw [h]; rfl), hn⟩
    · exact ⟨a :: as1, as2, .inr (by rw [h]; rfl), hn⟩
  induction h with
  | nil v => exact .inl ⟨rfl, by simp⟩
  | put v w v' as _ ih =>
    rcases ih with ⟨rfl, h⟩ | h
    · exact .inr ⟨[], as, .inl rfl, h⟩
    · exact .inr (lift h)
  | cutNew v w v' as _ ih =>
    rcases ih with ⟨rfl, h⟩ | h
    · exact .inr ⟨[], as, .inr rfl, h⟩
    · exact .inr (lift h)
  | cutOld v w v' as _ ih =>
    rcases ih with ⟨rfl, h⟩ | h
    · exact .inl ⟨rfl, by simpa using h⟩
    · exact .inr (lift h)
  | read v v' as _ ih =>
    rcases ih with ⟨rfl, h⟩ | h
    · exact .inl ⟨rfl, by simpa using h⟩
    · exact .inr (lift h)
  | other v v' e as _ ih =>
    rcases ih with ⟨rfl, h⟩ | h
    · exact .inl ⟨rfl, by simpa using h⟩
    · exact .inr (lift h)

/-- **C124 (why two copies)**: with one copy there is always a power loss which leaves neither the old nor the new value, if
they differ in two bytes. -/
theorem one_slot_tears {s s1 : Store} (hu : InUse s) (name v x : List Byte) (hn : name.length ≤ 4)
    (hsz : 6 + v.length < 65536) (hset : Storage.set s name v = .ok (s1, true)) (hx : x.length = v.length) (i j : Nat)
    (hij : i ≠ j) (hi : v[i]? ≠ x[i]?) (hj : v[j]? ≠ x[j]?) :
    ∃ s' v', Happens s1 (.crash name x) s' ∧ Storage.get s' name v.length = .ok (some v') ∧ v' ≠ v ∧ v' ≠ x := by
  obtain ⟨-, l, p, h⟩ := InUse_set hu hn hsz hset
  have hr := h.room
  have hh := h.head
  have hil : i < x.length := by
    rcases Nat.lt_or_ge i x.length with h | h
    · exact h
    · rw [List.getElem?_eq_none (by omega), List.getElem?_eq_none h] at hi; exact absurd rfl hi
  have hjl : j < x.length := by
    rcases Nat.lt_or_ge j x.length with h | h
    · exact h
    · rw [List.getElem?_eq_none (by omega), List.getElem?_eq_none h] at hj; exact absurd rfl hj
  have hp := Placed_setPlan h hx
  have hw : (p + 6 + i, x[i]) ∈ writesAt (p + 6) x := by
    unfold writesAt
    rw [List.mem_mapIdx]
    exact ⟨i, hil, rfl⟩
  have ha : applyWrites s1.mem [(p + 6 + i, x[i])] = .ok (s1.mem.set (p + 6 + i) x[i]) := by
    rw [applyWrites, if_pos (by omega)]; rfl
  have hlen : (s1.mem.set (p + 6 + i) x[i]).length = s1.mem.length := by simp
  obtain ⟨s', hs', -⟩ := open_total (s1.mem.set (p + 6 + i) x[i]) (by rw [hlen]; exact h.cap)
  have k := h.congr (fh := s1.freeHead) hlen hr (by omega) (fun q hq _ => by
    rw [List.getElem?_set_ne (by omega)])
  have hk := Kept_get (k.reopen hs')
  have hat : ∀ q, q < v.length → (sub (s1.mem.set (p + 6 + i) x[i]) (p + 6) v.length)[q]?
      = (s1.mem.set (p + 6 + i) x[i])[p + 6 + q]? := by
    intro q hq
    unfold sub
    rw [List.getElem?_take, if_pos hq, List.getElem?_drop]
  have hold : ∀ q, q < v.length → v[q]? = s1.mem[p + 6 + q]? := by
    intro q hq
    conv => lhs; rw [← h.data]
    unfold sub
    rw [List.getElem?_take, if_pos hq, List.getElem?_drop]
  refine ⟨s', _, .crash s1 s' name x _ _ hp ⟨[_], fun w hm => ?_, ha⟩ hs', hk, fun e => ?_, fun e => ?_⟩
  · rw [List.mem_singleton.1 hm]; exact hw
  · have := congrArg (·[i]?) e
    rw [hat i (by omega), List.getElem?_set_self (by omega)] at this
    exact hi (by rw [← this, List.getElem?_eq_getElem hil])
  · have := congrArg (·[j]?) e
    rw [hat j (by omega), List.getElem?_set_ne (by omega), ← hold j (by omega)] at this
    exact hj this

/-! ## A concrete case -/

/-- The value 1 2 in a region of 24 bytes. -/
def m0 : List Byte :=
  [8, 0, 0x63, 0x66, 0x67, 0x41, 1, 2] ++ [8, 0, 0x63, 0x66, 0x67, 0x42, 1, 2] ++ [7, 0, 0x63, 0x66, 0x67, 0x53, 0] ++ [0]

example : InUse ⟨List.replicate 24 0, 0⟩ ∧ install ⟨List.replicate 24 0, 0⟩ [1, 2] = .ok (⟨m0, 23⟩, true) :=
  ⟨.fresh (List.replicate 24 0xFF) _ (by simp [CapOk]) (by decide +kernel), by decide +kernel⟩

/-- Power is lost after the first byte of the new copy: the old value. -/
example : Step 2 ⟨m0, 23⟩ (.cut [3, 4]) ⟨m0.set 14 3, 23⟩ ∧ read ⟨m0.set 14 3, 23⟩ 2 = .ok (some [1, 2]) :=
  ⟨.cut _ _ _ [(slotB, [3, 4]), (sel, [1])] rfl (by decide +kernel) (.here _ _ _ _ _ (.crash _ _ _ _
      ⟨[(14, 3), (15, 4)], 23, true⟩ _ (by decide +kernel) ⟨[(14, 3)], by simp, rfl⟩ (by decide +kernel))),
    by decide +kernel⟩

/-- Power is lost as the byte has been written: the new value. -/
example : Step 2 ⟨m0, 23⟩ (.cut [3, 4]) ⟨((m0.set 14 3).set 15 4).set 22 1, 23⟩ ∧
    read ⟨((m0.set 14 3).set 15 4).set 22 1, 23⟩ 2 = .ok (some [3, 4]) :=
  ⟨.cut _ _ _ [(slotB, [3, 4]), (sel, [1])] rfl (by decide +kernel)
      (.later _ ⟨(m0.set 14 3).set 15 4, 23⟩ _ _ _ _ (by decide +kernel) (.here _ _ _ _ _ (.crash _ _ _ _
        ⟨[(22, 1)], 23, true⟩ _ (by decide +kernel) ⟨[(22, 1)], by simp, rfl⟩ (by decide +kernel)))),
    by decide +kernel⟩

end Verif.App.TwoSlots
