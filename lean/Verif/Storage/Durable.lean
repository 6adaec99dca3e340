import Verif.Storage.Arbitrary
import Verif.Storage.RecoveryProps
/-!
# C81: an object which can be read survives everything but being overwritten

No condition on what else is in the region, on how the names and sizes of other objects look, or on which bytes of an
interrupted call reached memory.
-/
namespace Verif.Storage

/-! ## Specification -/

/-- What may happen to a storage.  `get` does not change anything and is left out. -/
inductive Event where
  /-- a call of `set` that returns -/
  | set (name obj : List Byte)
  /-- a new storage object is made over the same memory with `init = false` -/
  | reopen
  /-- power is lost during `set`: any of its byte writes have reached memory, in any order; then `reopen` -/
  | crash (name obj : List Byte)
deriving DecidableEq, Repr

/-- The event takes the storage from one state to the other. -/
inductive Happens : Store → Event → Store → Prop where
  | set (s s' : Store) (name obj : List Byte) (b : Bool) : Storage.set s name obj = .ok (s', b) →
      Happens s (.set name obj) s'
  | reopen (s s' : Store) : create s.mem false = .ok s' → Happens s .reopen s'
  | crash (s s' : Store) (name obj : List Byte) (plan : Plan) (m' : List Byte) : setPlan s name obj = .ok plan →
      Crashed s.mem plan.writes m' → create m' false = .ok s' → Happens s (.crash name obj) s'

/-- A history of events. -/
inductive Later : Store → List Event → Store → Prop where
  | nil (s : Store) : Later s [] s
  | cons (s s1 s2 : Store) (e : Event) (es : List Event) : Happens s e s1 → Later s1 es s2 → Later s (e :: es) s2

/-- The event writes an object under this name and size (names are compared without NULs at the end). -/
def Event.Writes (name : List Byte) (n : Nat) : Event → List Byte → Prop
  | .set name' obj, o => stripNul name' = stripNul name ∧ obj.length = n ∧ o = obj
  | .crash name' obj, o => stripNul name' = stripNul name ∧ obj.length = n ∧ o = obj
  | .reopen, _ => False

/-! ## Objects in place -/

/-- The object `v` is stored under `(name, n)` at `p`, behind the entries `l`. -/
structure Placed (s : Store) (name : List Byte) (n : Nat) (v : List Byte) (l : List (Nat × Nat)) (p : Nat) : Prop where
  cap : CapOk s.mem.length
  head : s.freeHead ≤ s.mem.length
  walk : WalkL s.mem 0 l p
  size : nodeSize s.mem p = .ok (6 + n)
  room : p + 6 + n ≤ s.freeHead
  first : ∀ e ∈ l, hit s.mem name n e = false
  short : name.length ≤ 4
  idx : sub s.mem (p + 2) 4 = storedIdx name
  data : sub s.mem (p + 6) n = v

/-- An object which can be read and lies below the free head. -/
def Kept (s : Store) (name : List Byte) (n : Nat) (v : List Byte) : Prop := ∃ l p, Placed s name n v l p

theorem WalkL.split {m : List Byte} {a b : Nat} (l1 : List (Nat × Nat)) {e : Nat × Nat} {l2 : List (Nat × Nat)}
    (h : WalkL m a (l1 ++ e :: l2) b) : WalkL m a l1 e.1 := by
  induction l1 generalizing a with
  | nil => cases h; exact .nil _
  | cons x l1 ih =>
    cases h with
    | cons _ v _ _ h1 h2 h3 h4 h5 => exact .cons _ v _ _ h1 h2 h3 h4 (ih h5)

theorem Kept.of_walk {s : Store} (hcap : CapOk s.mem.length) (hh : s.freeHead ≤ s.mem.length) {l : List (Nat × Nat)}
    (hw : WalkL s.mem 0 l s.freeHead) {name : List Byte} {n : Nat} {v : List Byte}
    (hg : get s name n = .ok (some v)) : Kept s name n v := by
  rw [get_list hcap hw] at hg
  have hv := Res.ok.inj hg
  unfold view at hv
  rw [Option.map_eq_some_iff] at hv
  obtain ⟨e, he, hd⟩ := hv
  obtain ⟨h1, as, bs, rfl, h2⟩ := List.find?_eq_some_iff_append.1 he
  obtain ⟨k1, k2, k3⟩ := hit_size h1
  obtain ⟨g1, g2, g3, g4, g5, g6⟩ := hw.mem e (by simp)
  exact ⟨as, e.1, hcap, hh, hw.split, by rw [g3, k2], by omega, fun x hx => by simpa using h2 x hx, k1, k3, hd⟩

/-- What is in place is read. -/
theorem Placed.get {s : Store} {name : List Byte} {n : Nat} {v : List Byte} {l : List (Nat × Nat)} {p : Nat}
    (h : Placed s name n v l p) : Storage.get s name n = .ok (some v) := by
  have hlen := h.walk.length_le
  have hr := h.room
  have hh := h.head
  have hm : nodeMatches s.mem p name n = .ok true := by
    rw [nodeMatches_hit (by omega) h.size]
    simp [hit, h.short, h.idx]
  unfold Storage.get getIdx
  rw [getIdxLoop_skipL h.cap h.walk _ _ _ h.first (by omega) (by omega)]
  obtain ⟨f, hf⟩ : ∃ f, s.freeHead + 1 - l.length = f + 1 := ⟨s.freeHead - l.length, by omega⟩
  rw [hf, getIdxLoop, if_pos (by simp only [descSize]; omega), hm]
  simp only [Res.bind_ok, if_true, hm, descSize]
  unfold readN
  rw [if_pos (by omega)]
  have := h.data
  unfold sub at this
  rw [this]
  rfl

/-! ## Writes -/

theorem applyWrites_frame {m m' : List Byte} {ws : List (Nat × Byte)} (h : applyWrites m ws = .ok m') :
    m'.length = m.length ∧ (∀ i, (∀ w ∈ ws, w.1 ≠ i) → m'[i]? = m[i]?) ∧
      ∀ i, m'[i]? = m[i]? ∨ ∃ b, (i, b) ∈ ws ∧ m'[i]? = some b := by
  induction ws generalizing m with
  | nil => cases h; exact ⟨rfl, fun _ _ => rfl, fun _ => .inl rfl⟩
  | cons w ws ih =>
    obtain ⟨q, b⟩ := w
    rw [applyWrites] at h
    split at h
    · rename_i hq
      obtain ⟨h1, h2, h3⟩ := ih h
      refine ⟨by simpa using h1, fun i hi => ?_, fun i => ?_⟩
      · simp only [List.mem_cons, forall_eq_or_imp] at hi
        rw [h2 i hi.2, List.getElem?_set_ne hi.1]
      · rcases h3 i with h3 | ⟨b', hb, h3⟩
        · by_cases hqi : q = i
          · subst hqi
            exact .inr ⟨b, by simp, by rw [h3, List.getElem?_set_self hq]⟩
          · exact .inl (by rw [h3, List.getElem?_set_ne hqi])
        · exact .inr ⟨b', by simp [hb], h3⟩
    · cases h

/-- The position found is that of an entry of the list, or behind it. -/
theorem getIdxLoop_where {m : List Byte} {fh : Nat} (hcap : CapOk m.length) (hfh : fh ≤ m.length) (name : List Byte) (n : Nat) :
    ∀ (fuel pos : Nat) (l : List (Nat × Nat)) (q r : Nat), WalkL m pos l q →
      getIdxLoop m fh name n fuel pos = .ok (some r) → (∃ e ∈ l, e.1 = r ∧ hit m name n e = true) ∨
        (q ≤ r ∧ r + 6 ≤ fh ∧ nodeMatches m r name n = .ok true) := by
  intro fuel
  induction fuel with
  | zero => intro pos l q r _ h; cases h
  | succ f ih =>
    intro pos l q r hw h
    rw [getIdxLoop] at h
    split at h
    · rename_i h6
      simp only [descSize] at h6
      obtain ⟨b, hb, -⟩ := nodeMatches_ok m pos name n (by omega)
      obtain ⟨v, hv, hvl⟩ := nodeSize_ok m pos (by omega)
      rw [hb] at h
      simp only [Res.bind_ok] at h
      simp only [CapOk] at hcap
      cases b with
      | true =>
        simp only [if_true] at h
        cases h
        cases hw with
        | nil => exact .inr ⟨by omega, h6, hb⟩
        | cons _ v' _ l h1 h2 h3 h4 h5 =>
          rw [nodeMatches_hit h1 h2] at hb
          exact .inl ⟨_, by simp, rfl, Res.ok.inj hb⟩
      | false =>
        simp only [Bool.false_eq_true, if_false, hv, Res.bind_ok] at h
        rw [add32_of_lt (by omega)] at h
        cases hw with
        | nil =>
          rcases ih (pos + v) [] (pos + v) r (.nil _) h with ⟨e, he, -⟩ | ⟨h1, h2⟩
          · cases he
          · exact .inr ⟨by omega, h2⟩
        | cons _ v' _ l h1 h2 h3 h4 h5 =>
          rw [hv] at h2; cases h2
          rcases ih (pos + v) l q r h5 h with ⟨e, he, h7⟩ | h7
          · exact .inl ⟨e, by simp [he], h7⟩
          · exact .inr h7
    · cases h

/-- Where `set` writes: behind the object, into the data of an entry in front of it, or into its own data. -/
theorem Placed.plan {s : Store} {name : List Byte} {n : Nat} {v : List Byte} {l : List (Nat × Nat)} {p : Nat}
    (h : Placed s name n v l p) {name' obj : List Byte} {plan : Plan} (hp : setPlan s name' obj = .ok plan) :
    p + 6 + n ≤ plan.freeHead ∧ plan.freeHead ≤ s.mem.length ∧
    ((∀ w ∈ plan.writes, p + 6 + n ≤ w.1 ∨ ∃ x ∈ l, x.1 + 6 ≤ w.1 ∧ w.1 < x.1 + x.2) ∨
     (stripNul name' = stripNul name ∧ obj.length = n ∧ plan.writes = writesAt (p + 6) obj)) := by
  have hr := h.room
  have hh := h.head
  have hcap := h.cap
  have hw : WalkL s.mem 0 (l ++ [(p, 6 + n)]) (p + (6 + n)) :=
    h.walk.append (.cons p (6 + n) _ [] (by omega) h.size (by omega) (by omega) (.nil _))
  unfold setPlan at hp
  rw [Res.bind_eq_ok] at hp
  obtain ⟨o, ho, hp⟩ := hp
  cases o with
  | some r =>
    simp only [descSize] at hp
    cases hp
    refine ⟨hr, hh, ?_⟩
    unfold getIdx at ho
    rcases getIdxLoop_where h.cap h.head _ _ _ _ _ _ _ hw ho with ⟨e, he, rfl, hhit⟩ | ⟨h1, -, -⟩
    · obtain ⟨k1, k2, k3⟩ := hit_size hhit
      rw [List.mem_append, List.mem_singleton] at he
      rcases he with he | rfl
      · refine .inl fun w hw => .inr ⟨e, he, ?_⟩
        have := mem_writesAt hw
        omega
      · refine .inr ⟨?_, by simp only at k2; omega, rfl⟩
        exact (storedIdx_eq_iff k1 h.short).1 (k3.symm.trans h.idx)
    · refine .inl fun w hw => .inl ?_
      have := mem_writesAt hw
      omega
  | none =>
    simp only [descSize] at hp
    split at hp
    · cases hp
      exact ⟨hr, hh, .inl fun w hw => by cases hw⟩
    · rename_i hroom
      cases hp
      simp only [CapOk] at hcap
      rw [add32_of_lt (by omega)]
      refine ⟨by simp only; omega, by simp only; omega, .inl fun w hw => .inl ?_⟩
      simp only [List.mem_append] at hw
      rcases hw with (hw | hw) | hw
      · have := mem_writesAt hw; omega
      · have := mem_writesAt hw; omega
      · have := mem_writesAt hw; omega

/-- Memory with the same size fields and names, and the same object. -/
theorem Placed.congr {s : Store} {name : List Byte} {n : Nat} {v : List Byte} {l : List (Nat × Nat)} {p : Nat}
    (h : Placed s name n v l p) {m' : List Byte} {fh : Nat} (hl : m'.length = s.mem.length) (hf : p + 6 + n ≤ fh)
    (hfl : fh ≤ m'.length)
    (hm : ∀ i, i < p + 6 → (∀ x ∈ l, i < x.1 + 6 ∨ x.1 + x.2 ≤ i) → m'[i]? = s.mem[i]?) :
    Placed ⟨m', fh⟩ name n (sub m' (p + 6) n) l p := by
  have hr := h.room
  have hh := h.head
  have hfree : ∀ y ∈ l, ∀ i, y.1 ≤ i → i < y.1 + 6 → i < y.1 + y.2 ∨ i ≤ y.1 + 1 → m'[i]? = s.mem[i]? := by
    intro y hy i h1 h2 h3
    obtain ⟨y1, y2, y3, y4, y5, y6⟩ := h.walk.mem y hy
    refine hm i (by omega) fun x hx => ?_
    obtain ⟨x1, x2, x3, x4, x5, x6⟩ := h.walk.mem x hx
    rcases h.walk.disjoint y x hy hx with rfl | hd | hd <;> omega
  have hown : ∀ i, p ≤ i → i < p + 6 → m'[i]? = s.mem[i]? := by
    intro i h1 h2
    refine hm i h2 fun x hx => ?_
    have := h.walk.mem x hx
    omega
  refine ⟨by rw [hl]; exact h.cap, hfl, ?_, ?_, hf, ?_, h.short, ?_, rfl⟩
  · refine h.walk.congr hl fun e he => ?_
    obtain ⟨y1, y2, y3, y4, y5, y6⟩ := h.walk.mem e he
    exact nodeSize_congr (hfree e he _ (by omega) (by omega) (by omega)) (hfree e he _ (by omega) (by omega) (by omega))
  · rw [← h.size]
    exact nodeSize_congr (hown _ (by omega) (by omega)) (hown _ (by omega) (by omega))
  · intro e he
    rw [← h.first e he]
    unfold hit
    by_cases h6 : e.2 = 6 + n
    · have : sub m' (e.1 + 2) 4 = sub s.mem (e.1 + 2) 4 :=
        sub_congr fun i h1 h2 => hfree e he i (by omega) (by omega) (by omega)
      simp only [this]
    · simp [h6]
  · rw [← h.idx]
    exact sub_congr fun i h1 h2 => hown i (by omega) (by omega)

/-- Reopening finds the object. -/
theorem Placed.reopen {s s' : Store} {name : List Byte} {n : Nat} {v : List Byte} {l : List (Nat × Nat)} {p : Nat}
    (h : Placed s name n v l p) (hs : create s.mem false = .ok s') : Kept s' name n v := by
  have hr := h.room
  have hh := h.head
  have hw : WalkL s.mem 0 (l ++ [(p, 6 + n)]) (p + (6 + n)) :=
    h.walk.append (.cons p (6 + n) _ [] (by omega) h.size (by omega) (by omega) (.nil _))
  have hlen := hw.length_le
  unfold create at hs
  simp only [Bool.false_eq_true, if_false] at hs
  rw [openLoop_list h.cap hw _ (by omega)] at hs
  rw [Res.bind_eq_ok] at hs
  obtain ⟨fh, h1, h2⟩ := hs
  cases h2
  obtain ⟨h3, h4⟩ := openLoop_walk s.mem h.cap _ _ _ (by omega) h1
  have := h3.le
  exact ⟨l, p, h.cap, h4, h.walk, h.size, by simp only; omega, h.first, h.short, h.idx, h.data⟩

/-- Any of the writes of a `set` may have been performed: the object is still in place; it is the old one, or, if `set`
overwrites it, each byte is the old one or the new one. -/
theorem Placed.writes {s : Store} {name : List Byte} {n : Nat} {v : List Byte} {l : List (Nat × Nat)} {p : Nat}
    (h : Placed s name n v l p) {name' obj : List Byte} {plan : Plan} (hp : setPlan s name' obj = .ok plan)
    {ws : List (Nat × Byte)} (hws : ∀ w ∈ ws, w ∈ plan.writes) {m' : List Byte} (hm : applyWrites s.mem ws = .ok m')
    {fh : Nat} (hfh : fh = s.freeHead ∨ fh = plan.freeHead) :
    ∃ v', Placed ⟨m', fh⟩ name n v' l p ∧ v'.length = n ∧
      (v' = v ∨ (stripNul name' = stripNul name ∧ obj.length = n ∧ ∀ i : Nat, v'[i]? = v[i]? ∨ v'[i]? = obj[i]?)) := by
  obtain ⟨h1, h2, h3⟩ := h.plan hp
  obtain ⟨f1, f2, f3⟩ := applyWrites_frame hm
  have hr := h.room
  have hh := h.head
  have hfl : p + 6 + n ≤ fh ∧ fh ≤ m'.length := by omega
  have hsl : (sub m' (p + 6) n).length = n := sub_length (by omega)
  rcases h3 with h3 | ⟨k1, k2, k3⟩
  · refine ⟨_, h.congr f1 hfl.1 hfl.2 fun i hi hx => ?_, hsl, .inl ?_⟩
    · refine f2 i fun w hw he => ?_
      rcases h3 w (hws w hw) with h4 | ⟨x, hxl, h4⟩
      · omega
      · have := hx x hxl; omega
    · rw [← h.data]
      refine sub_congr fun i hi1 hi2 => f2 i fun w hw he => ?_
      rcases h3 w (hws w hw) with h4 | ⟨x, hxl, h4⟩
      · omega
      · have := h.walk.mem x hxl; omega
  · refine ⟨_, h.congr f1 hfl.1 hfl.2 fun i hi hx => ?_, hsl, .inr ⟨k1, k2, fun i => ?_⟩⟩
    · refine f2 i fun w hw he => ?_
      have := mem_writesAt (k3 ▸ hws w hw)
      omega
    · by_cases hi : i < n
      · have e1 : (sub m' (p + 6) n)[i]? = m'[p + 6 + i]? := by
          unfold sub; rw [List.getElem?_take, if_pos hi, List.getElem?_drop]
        have e2 : v[i]? = s.mem[p + 6 + i]? := by
          rw [← h.data]; unfold sub; rw [List.getElem?_take, if_pos hi, List.getElem?_drop]
        rw [e1, e2]
        rcases f3 (p + 6 + i) with h4 | ⟨b, hb, h4⟩
        · exact .inl h4
        · right
          have := (mem_writesAt (k3 ▸ hws _ hb)).2.2
          simp only [Nat.add_sub_cancel_left] at this
          rw [h4, this]
      · right
        rw [List.getElem?_eq_none (by omega), List.getElem?_eq_none (by omega)]

/-! ## The property -/

theorem Placed.length {s : Store} {name : List Byte} {n : Nat} {v : List Byte} {l : List (Nat × Nat)} {p : Nat}
    (h : Placed s name n v l p) : v.length = n := by
  have hr := h.room
  have hh := h.head
  rw [← h.data, sub_length (by omega)]

/-- One event: the object stays in place; each of its bytes is the old one or the one the event writes. -/
theorem Kept.event {s s' : Store} {name : List Byte} {n : Nat} {v : List Byte} (h : Kept s name n v) {e : Event}
    (he : Happens s e s') :
    ∃ v', Kept s' name n v' ∧ v'.length = n ∧
      ((∀ o, ¬ e.Writes name n o) → v' = v) ∧
      ∀ i : Nat, v'[i]? = v[i]? ∨ ∃ o, e.Writes name n o ∧ v'[i]? = o[i]? := by
  obtain ⟨l, p, h⟩ := h
  cases he with
  | set _ name' obj b hs =>
    unfold Storage.set at hs
    rw [Res.bind_eq_ok] at hs
    obtain ⟨plan, hp, hs⟩ := hs
    rw [Res.bind_eq_ok] at hs
    obtain ⟨m', hm, hs⟩ := hs
    simp only [Res.ok.injEq, Prod.mk.injEq] at hs
    obtain ⟨rfl, rfl⟩ := hs
    obtain ⟨v', h1, h2, h3⟩ := h.writes hp (fun w hw => hw) hm (.inr rfl)
    refine ⟨v', ⟨l, p, h1⟩, h2, fun hno => ?_, fun i => ?_⟩
    · rcases h3 with h3 | ⟨k1, k2, -⟩
      · exact h3
      · exact absurd ⟨k1, k2, rfl⟩ (hno obj)
    · rcases h3 with rfl | ⟨k1, k2, k3⟩
      · exact .inl rfl
      · rcases k3 i with h4 | h4
        · exact .inl h4
        · exact .inr ⟨obj, ⟨k1, k2, rfl⟩, h4⟩
  | reopen _ hs => exact ⟨v, h.reopen hs, h.length, fun _ => rfl, fun _ => .inl rfl⟩
  | crash _ name' obj plan m' hp hc hs =>
    obtain ⟨ws, hws, hm⟩ := hc
    obtain ⟨v', h1, h2, h3⟩ := h.writes hp hws hm (.inl rfl)
    refine ⟨v', h1.reopen hs, h2, fun hno => ?_, fun i => ?_⟩
    · rcases h3 with h3 | ⟨k1, k2, -⟩
      · exact h3
      · exact absurd ⟨k1, k2, rfl⟩ (hno obj)
    · rcases h3 with rfl | ⟨k1, k2, k3⟩
      · exact .inl rfl
      · rcases k3 i with h4 | h4
        · exact .inl h4
        · exact .inr ⟨obj, ⟨k1, k2, rfl⟩, h4⟩

theorem Kept.events {s s' : Store} {name : List Byte} {n : Nat} {v : List Byte} (h : Kept s name n v) {es : List Event}
    (he : Later s es s') :
    ∃ v', Kept s' name n v' ∧ v'.length = n ∧
      ((∀ e ∈ es, ∀ o, ¬ e.Writes name n o) → v' = v) ∧
      ∀ i : Nat, v'[i]? = v[i]? ∨ ∃ e ∈ es, ∃ o, e.Writes name n o ∧ v'[i]? = o[i]? := by
  induction he generalizing v with
  | nil s => obtain ⟨l, p, h⟩ := h; exact ⟨v, ⟨l, p, h⟩, h.length, fun _ => rfl, fun _ => .inl rfl⟩
  | cons s s1 s2 e es h1 _ ih =>
    obtain ⟨v1, g1, g2, g3, g4⟩ := h.event h1
    obtain ⟨v2, k1, k2, k3, k4⟩ := ih g1
    refine ⟨v2, k1, k2, fun hno => ?_, fun i => ?_⟩
    · rw [k3 fun e' he' => hno e' (by simp [he']), g3 (hno e (by simp))]
    · rcases k4 i with h5 | ⟨e', he', o, h5, h6⟩
      · rcases g4 i with h6 | ⟨o, h6, h7⟩
        · exact .inl (h5.trans h6)
        · exact .inr ⟨e, by simp, o, h6, h5.trans h7⟩
      · exact .inr ⟨e', by simp [he'], o, h5, h6⟩

/-- **C81**: whatever a region holds and whatever happens to it afterwards - calls of `set` with any names and objects,
reopening, power losses during `set` which let any of its bytes reach memory - an object that could be read after
opening can be read for ever; it has not changed unless an event wrote that object. -/
theorem durable (m : List Byte) (hcap : CapOk m.length) (s s' : Store) (hs : create m false = .ok s) (es : List Event)
    (he : Later s es s') (name : List Byte) (n : Nat) (v : List Byte) (hg : get s name n = .ok (some v)) :
    ∃ v', get s' name n = .ok (some v') ∧ ((∀ e ∈ es, ∀ o, ¬ e.Writes name n o) → v' = v) ∧
      ∀ i : Nat, v'[i]? = v[i]? ∨ ∃ e ∈ es, ∃ o, e.Writes name n o ∧ v'[i]? = o[i]? := by
  obtain ⟨s0, h1, h2, h3, h4⟩ := open_total m hcap
  rw [hs] at h1; cases h1
  subst h2
  obtain ⟨l, hl⟩ := h4.list
  obtain ⟨v', ⟨l', p, k1⟩, -, k2, k3⟩ := (Kept.of_walk hcap h3 hl hg).events he
  exact ⟨v', k1.get, k2, k3⟩

/-- Storages in use: a fresh one, or one opened over anything whose last entry is not a single byte; then calls with
short names and objects that fit the size field, reopenings and power losses, as long as no reopening finds a one-byte
entry at the end. -/
inductive InUse : Store → Prop where
  | fresh (m : List Byte) (s : Store) : CapOk m.length → create m true = .ok s → InUse s
  | opened (m : List Byte) (s : Store) : CapOk m.length → create m false = .ok s → ¬ OneByteTail s → InUse s
  | set (s s' : Store) (name obj : List Byte) (b : Bool) : InUse s → name.length ≤ 4 → 6 + obj.length < 65536 →
      Storage.set s name obj = .ok (s', b) → InUse s'
  | event (s s' : Store) (e : Event) : InUse s → (e = .reopen ∨ ∃ name obj, e = .crash name obj) → Happens s e s' →
      ¬ OneByteTail s' → InUse s'

theorem Crashed.length {m m' : List Byte} {ws : List (Nat × Byte)} (h : Crashed m ws m') : m'.length = m.length := by
  obtain ⟨ws, -, h⟩ := h
  exact (applyWrites_frame h).1

theorem InUse.opened' {s : Store} (h : InUse s) : ∃ l, Opened s l := by
  induction h with
  | fresh m s hcap hs =>
    cases hs
    exact ⟨[], by simpa using hcap, by simp, .nil _, fun e he => by cases he⟩
  | opened m s hcap hs ht => exact opened_of_create hcap hs ht
  | set s s' name obj b _ hn hsz hs ih =>
    obtain ⟨l, ho⟩ := ih
    obtain ⟨s2, o, l', h1, h2, -⟩ := ho.step (.set name obj) ⟨hn, hsz⟩ (fun _ _ _ e => by cases e)
    simp only [step, hs, Res.bind_ok] at h1
    simp only [Res.ok.injEq, Prod.mk.injEq] at h1
    obtain ⟨rfl, -⟩ := h1
    exact ⟨l', h2⟩
  | event s s' e _ hk he ht ih =>
    obtain ⟨l, ho⟩ := ih
    cases he with
    | set => rcases hk with hk | ⟨_, _, hk⟩ <;> cases hk
    | reopen _ hs => exact opened_of_create ho.cap hs ht
    | crash _ name obj plan m' hp hc hs =>
      exact opened_of_create (by rw [hc.length]; exact ho.cap) hs ht

/-- **C81**: an acknowledged object can be read for ever, whatever happens later; it has not changed unless an event
wrote that object. -/
theorem acknowledged_durable {s s1 s2 : Store} (hu : InUse s) (name obj : List Byte) (hn : name.length ≤ 4)
    (hsz : 6 + obj.length < 65536) (hset : set s name obj = .ok (s1, true)) (es : List Event) (he : Later s1 es s2) :
    ∃ v', get s2 name obj.length = .ok (some v') ∧
      ((∀ e ∈ es, ∀ o, ¬ e.Writes name obj.length o) → v' = obj) ∧
      ∀ i : Nat, v'[i]? = obj[i]? ∨ ∃ e ∈ es, ∃ o, e.Writes name obj.length o ∧ v'[i]? = o[i]? := by
  obtain ⟨l, ho⟩ := hu.opened'
  obtain ⟨s0, o, l', h1, h2, -, -, h3⟩ := ho.step (.set name obj) ⟨hn, hsz⟩ (fun _ _ _ e => by cases e)
  simp only [step, hset, Res.bind_ok] at h1
  simp only [Res.ok.injEq, Prod.mk.injEq] at h1
  obtain ⟨rfl, rfl⟩ := h1
  obtain ⟨v', ⟨l'', p, k1⟩, -, k2, k3⟩ := (Kept.of_walk h2.cap h2.head h2.walk (h3 name obj rfl rfl)).events he
  exact ⟨v', k1.get, k2, k3⟩

/-- **C81**: power losses never leave a region that cannot be opened, and in a storage in use every call is defined. -/
theorem events_defined {s : Store} (hu : InUse s) (name obj : List Byte) (hn : name.length ≤ 4)
    (hsz : 6 + obj.length < 65536) :
    (∃ s' b, set s name obj = .ok (s', b)) ∧ (∃ s', create s.mem false = .ok s') ∧
    ∃ plan, setPlan s name obj = .ok plan ∧ ∀ ws : List (Nat × Byte), (∀ w ∈ ws, w ∈ plan.writes) →
      ∃ m' s', applyWrites s.mem ws = .ok m' ∧ create m' false = .ok s' ∧ Happens s (.crash name obj) s' := by
  obtain ⟨l, ho⟩ := hu.opened'
  obtain ⟨s1, o, l', h1, h2, -⟩ := ho.step (.set name obj) ⟨hn, hsz⟩ (fun _ _ _ e => by cases e)
  have hset : ∃ s' b, set s name obj = .ok (s', b) := by
    simp only [step] at h1
    rw [Res.bind_eq_ok] at h1
    obtain ⟨⟨s', b⟩, h3, -⟩ := h1
    exact ⟨s', b, h3⟩
  obtain ⟨s0, hs0, -⟩ := open_total s.mem ho.cap
  refine ⟨hset, ⟨s0, hs0⟩, ?_⟩
  obtain ⟨s', b, hs⟩ := hset
  unfold Storage.set at hs
  rw [Res.bind_eq_ok] at hs
  obtain ⟨plan, hp, hs⟩ := hs
  rw [Res.bind_eq_ok] at hs
  obtain ⟨m1, hm1, -⟩ := hs
  refine ⟨plan, hp, fun ws hws => ?_⟩
  have hin : ∀ {m m1 : List Byte} {ws : List (Nat × Byte)}, applyWrites m ws = .ok m1 → ∀ w ∈ ws, w.1 < m.length := by
    intro m m1 ws
    induction ws generalizing m with
    | nil => intro _ w hw; cases hw
    | cons w ws ih =>
      obtain ⟨q, b⟩ := w
      intro h w hw
      rw [applyWrites] at h
      split at h
      · rename_i hq
        rcases List.mem_cons.1 hw with rfl | hw
        · exact hq
        · simpa using ih h w hw
      · cases h
  have hall := hin hm1
  obtain ⟨m', k1, k2, -⟩ := applyWrites_window s.mem ws 0 s.mem.length (by omega)
    (fun w hw => ⟨by omega, by have := hall w (hws w hw); omega⟩)
  obtain ⟨s2, hs2, -⟩ := open_total m' (by rw [k2]; exact ho.cap)
  exact ⟨m', s2, k1, hs2, .crash s s2 name obj plan m' hp ⟨ws, hws, k1⟩ hs2⟩

/-! ## Torn size fields -/

theorem walkL_encs (recs : List Rec) (hg : ∀ r ∈ recs, r.Good) (pre rest : List Byte) :
    ∃ l, WalkL (pre ++ (encs recs ++ rest)) pre.length l (pre ++ encs recs).length := by
  induction recs generalizing pre with
  | nil => exact ⟨[], by simpa using WalkL.nil _⟩
  | cons r recs ih =>
    simp only [List.mem_cons, forall_eq_or_imp] at hg
    have hl := Rec.enc_length hg.1
    obtain ⟨l, h⟩ := ih hg.2 (pre ++ r.enc)
    refine ⟨(pre.length, 6 + r.data.length) :: l, .cons _ _ _ _ ?_ ?_ (by omega) ?_ ?_⟩
    · simp; omega
    · rw [encs_cons, List.append_assoc]; exact nodeSize_enc hg.1 _ _
    · simp; omega
    · simp only [List.append_assoc, List.length_append, hl, encs_cons] at h ⊢
      exact h

/-- **C07, C68 (finding)**: power is lost between the two bytes of the size field of a new object whose record size is 1
modulo 256.  In every storage whose free space is not larger than 256 times the first character of the name, reopening
finds a one-byte entry at the end, so that (`one_byte_tail_breaks`) the next new object is acknowledged and lost. -/
theorem torn_size_one {s : Store} (h : Recoverable s) (name obj : List Byte)
    (hnew : get s name obj.length = .ok none) (hsz : 6 + obj.length < 65536) (hone : (6 + obj.length) % 256 = 1)
    (hroom : s.freeHead + 6 + obj.length ≤ s.mem.length) (c : Byte) (hc : (storedIdx name)[0]? = some c)
    (hbig : c = 0 ∨ s.mem.length < s.freeHead + 1 + 256 * c.toNat)
    (plan : Plan) (hplan : setPlan s name obj = .ok plan) (m' : List Byte) (hcrash : CrashedAt s.mem plan.writes 5 m') :
    ∃ s', create m' false = .ok s' ∧ OneByteTail s' ∧ s'.freeHead = s.freeHead + 1 ∧ s'.mem.length = s.mem.length := by
  obtain ⟨recs, rest, hr, hcl⟩ := h.rep
  have hno : ∀ r ∈ recs, r.hits name obj.length = false := by
    rw [hr.get_eq] at hnew
    have := Res.ok.inj hnew
    simpa [lookup] using this
  have hml := congrArg List.length hr.mem
  rw [List.length_append] at hml
  have hhead := hr.head
  have hcap := hr.cap
  rw [hr.setPlan_new hno hroom] at hplan
  cases hplan
  unfold CrashedAt at hcrash
  rw [hr.mem, hhead] at hcrash
  obtain ⟨g, hg, hrest⟩ := hcl.decomp (by omega)
  generalize hk : rest.length - 6 = k at hrest
  have hsi := storedIdx_length name
  rw [List.append_assoc, List.take_append, length_writesAt, hsi, take_writesAt, List.take_of_length_le (by omega),
    applyWrites_append, applyWrites_at (a := encs recs ++ [0, 0]) (old := g) (c := List.replicate k 0)
      (by rw [hrest]; simp) (by simp) (by rw [hg, hsi])] at hcrash
  simp only [Res.bind_ok] at hcrash
  rw [List.take_append, length_writesAt, le16_length, take_writesAt, take_writesAt,
    show 5 - 4 - 2 = 0 from rfl, List.take_zero, writesAt_nil, List.append_nil,
    show (le16 (6 + obj.length)).take (5 - 4) = [BitVec.ofNat 8 ((6 + obj.length) % 2 ^ 16 % 256)] from rfl,
    Nat.mod_eq_of_lt hsz, hone,
    applyWrites_at (a := encs recs) (old := [0]) (c := [0] ++ (storedIdx name ++ List.replicate k 0))
      (new := [BitVec.ofNat 8 1]) (by simp) rfl rfl] at hcrash
  cases hcrash
  obtain ⟨i0, i1, i2, i3, hsl⟩ : ∃ a b c d, storedIdx name = [a, b, c, d] := by
    match hsn : storedIdx name, hsi with
    | [a, b, c, d], _ => exact ⟨a, b, c, d, rfl⟩
  rw [hsl] at hc ⊢
  simp only [List.getElem?_cons_zero, Option.some.injEq] at hc
  subst hc
  have hmk : k + 6 = rest.length := by omega
  have hone' : nodeSize (encs recs ++ ([BitVec.ofNat 8 1] ++ ([0] ++ ([i0, i1, i2, i3] ++ List.replicate k 0))))
      (encs recs).length = .ok 1 := by
    have := nodeSize_append (encs recs) ([BitVec.ofNat 8 1] ++ ([0] ++ ([i0, i1, i2, i3] ++ List.replicate k 0))) 0
    rw [Nat.add_zero] at this
    rw [this]
    rfl
  have htwo : nodeSize (encs recs ++ ([BitVec.ofNat 8 1] ++ ([0] ++ ([i0, i1, i2, i3] ++ List.replicate k 0))))
      ((encs recs).length + 1) = .ok (256 * i0.toNat) := by
    have := nodeSize_append (encs recs) ([BitVec.ofNat 8 1] ++ ([0] ++ ([i0, i1, i2, i3] ++ List.replicate k 0))) 1
    rw [this]
    simp [nodeSize, Res.ofOption]
  obtain ⟨l, hl⟩ := walkL_encs recs hr.good [] ([BitVec.ofNat 8 1] ++ ([0] ++ ([i0, i1, i2, i3] ++ List.replicate k 0)))
  simp only [List.nil_append, List.length_nil] at hl
  generalize hm : encs recs ++ ([BitVec.ofNat 8 1] ++ ([0] ++ ([i0, i1, i2, i3] ++ List.replicate k 0))) = m at *
  have hlen : m.length = s.mem.length := by
    rw [← hm]; simp only [List.length_append, List.length_cons, List.length_nil, List.length_replicate]; omega
  have hl2 : WalkL m 0 (l ++ [((encs recs).length, 1)]) ((encs recs).length + 1) :=
    hl.append (.cons _ 1 _ [] (by omega) hone' (by omega) (by omega) (.nil _))
  have hll := hl2.length_le
  refine ⟨⟨m, (encs recs).length + 1⟩, ?_, ⟨by simp, ?_, ?_⟩, ?_, hlen⟩
  · unfold create
    simp only [Bool.false_eq_true, if_false]
    rw [openLoop_list (by rw [hlen]; exact hcap) hl2 _ (by omega)]
    obtain ⟨f, hf⟩ : ∃ f, m.length + 1 - (l ++ [((encs recs).length, 1)]).length = f + 1 :=
      ⟨m.length - (l ++ [((encs recs).length, 1)]).length, by omega⟩
    rw [hf, openLoop]
    split
    · rw [htwo]
      simp only [Res.bind_ok]
      rw [if_neg ?_]
      · rfl
      · simp only [CapOk] at hcap
        have := i0.isLt
        rw [add32_of_lt (by omega)]
        rcases hbig with rfl | hbig
        · simp
        · omega
    · rfl
  · simpa using hl.walk
  · simpa using hone'
  · simp only; omega

/-! ### Concrete cases -/

/-- A storage meeting the hypotheses of `torn_size_one`: 300 free bytes, an object of 251 bytes named "a". -/
example : ∃ s plan m', Recoverable s ∧ get s [0x61] (List.replicate 251 1).length = .ok none ∧
    s.freeHead + 6 + (List.replicate 251 (1 : Byte)).length ≤ s.mem.length ∧ (storedIdx [0x61])[0]? = some 0x61 ∧
    s.mem.length < s.freeHead + 1 + 256 * (0x61 : Byte).toNat ∧
    setPlan s [0x61] (List.replicate 251 1) = .ok plan ∧ CrashedAt s.mem plan.writes 5 m' := by
  refine ⟨⟨List.replicate 300 0, 0⟩, ⟨writesAt 2 (storedIdx [0x61]) ++ writesAt 0 (le16 257) ++
      writesAt 6 (List.replicate 251 1), 257, true⟩, [1, 0, 0x61] ++ List.replicate 297 0,
    .init (List.replicate 300 0) _ (by unfold CapOk; rw [List.length_replicate]; omega) (by decide +kernel), ?_, ?_, ?_, ?_, ?_, ?_⟩
  all_goals try unfold CrashedAt
  all_goals decide +kernel


/-- A storage of 40 bytes with two objects; power is lost while the second is overwritten: only the second of its two
bytes reaches memory. -/
example : ∃ s s', create (List.replicate 40 0) true = .ok ⟨List.replicate 40 0, 0⟩ ∧
    run ⟨List.replicate 40 0, 0⟩ [.set [0x61] [7], .set [0x62] [1, 2]] = .ok (s, [.flag true, .flag true]) ∧
    Happens s (.crash [0x62] [8, 9]) s' ∧ get s' [0x61] 1 = .ok (some [7]) ∧ get s' [0x62] 2 = .ok (some [1, 9]) := by
  let s : Store := ⟨[7, 0, 0x61, 0, 0, 0, 7, 8, 0, 0x62, 0, 0, 0, 1, 2] ++ List.replicate 25 0, 15⟩
  let m' : List Byte := [7, 0, 0x61, 0, 0, 0, 7, 8, 0, 0x62, 0, 0, 0, 1, 9] ++ List.replicate 25 0
  refine ⟨s, ⟨m', 15⟩, by decide, by decide +kernel, ?_, by decide +kernel, by decide +kernel⟩
  exact .crash s ⟨m', 15⟩ _ _ ⟨[(13, 8), (14, 9)], 15, true⟩ m' (by decide +kernel)
    ⟨[(14, 9)], by decide, by decide +kernel⟩ (by decide +kernel)

end Verif.Storage
