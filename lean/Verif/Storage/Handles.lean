import Verif.Storage.Props
/-!
# C72: two `PersistentStorage` objects over the same memory

PersistentStorageTest.cpp:168-203 uses two objects over one buffer.  `free_head_` is a member of the object
(PersistentStorage.h:91), so the older object does not notice records the newer one appends.  The older object after the
newer one has worked is `⟨memory of the newer, free_head_ of the older⟩`.
-/
namespace Verif.Storage

/-- Index and size of the records. -/
def shape (recs : List Rec) : List (List Byte × Nat) := recs.map fun r => (r.idx, r.data.length)

theorem encs_length_shape {a b : List Rec} (h : shape a = shape b) (hg : ∀ r ∈ a, r.Good) (hg' : ∀ r ∈ b, r.Good) :
    (encs a).length = (encs b).length := by
  induction a generalizing b with
  | nil => cases b with
    | nil => rfl
    | cons => simp [shape] at h
  | cons x a ih => cases b with
    | nil => simp [shape] at h
    | cons y b =>
      simp only [shape, List.map_cons, List.cons.injEq, Prod.mk.injEq] at h
      have hx := Rec.enc_length (hg x (by simp))
      have hy := Rec.enc_length (hg' y (by simp))
      have := ih (b := b) h.2 (fun r hr => hg r (by simp [hr])) (fun r hr => hg' r (by simp [hr]))
      simp only [encs, List.flatMap_cons, List.length_append] at this ⊢
      omega

theorem lookup_isSome_shape {a b : List Rec} (h : shape a = shape b) (name : List Byte) (n : Nat) :
    (lookup a name n).isSome = (lookup b name n).isSome := by
  induction a generalizing b with
  | nil => cases b with
    | nil => rfl
    | cons => simp [shape] at h
  | cons x a ih => cases b with
    | nil => simp [shape] at h
    | cons y b =>
      simp only [shape, List.map_cons, List.cons.injEq, Prod.mk.injEq] at h
      have hh : x.hits name n = y.hits name n := by simp [Rec.hits, h.1.1, h.1.2]
      have := ih (b := b) h.2
      simp only [lookup, List.find?_cons, hh] at this ⊢
      cases y.hits name n
      · exact this
      · rfl

theorem lookup_append_list (a b : List Rec) (name : List Byte) (n : Nat) :
    lookup (a ++ b) name n = (lookup a name n).or (lookup b name n) := by
  unfold lookup
  rw [List.find?_append]
  cases a.find? (·.hits name n) <;> rfl

/-- What calls on the newer object leave behind, seen against the records `recs` of the older object. -/
structure After (s : Store) (recs : List Rec) : Prop where
  rep : ∃ own extra rest, Rep s (own ++ extra) rest ∧ Clean rest ∧ shape own = shape recs

theorem After.step {s s' : Store} {recs : List Rec} (h : After s recs) (op : Op) (hop : op.Normal) (o : Out)
    (hs : step s op = .ok (s', o)) : After s' recs := by
  obtain ⟨own, extra, rest, hr, hc, hsh⟩ := h.rep
  cases op with
  | get name n =>
    simp only [Storage.step, hr.get_eq, Res.bind_ok] at hs
    cases hs
    exact h
  | reopen =>
    simp only [Storage.step, hr.reopen hc.stops, Res.bind_ok] at hs
    cases hs
    exact h
  | set name obj =>
    simp only [Op.Normal] at hop
    rcases firstHit (own ++ extra) name obj.length with ⟨l, r, t, he, hno, hit⟩ | hno
    · rw [he] at hr
      obtain ⟨s2, h1, h2, -, -⟩ := hr.set_hit hno hit
      simp only [Storage.step, h1, Res.bind_ok] at hs
      cases hs
      have hlen : obj.length = r.data.length := Rec.hits_replace hit
      rcases List.append_eq_append_iff.1 he with ⟨c, hc1, hc2⟩ | ⟨c, hc1, hc2⟩
      · -- the hit is in the extra part
        refine ⟨⟨own, c ++ ⟨r.idx, obj⟩ :: t, rest, ?_, hc, hsh⟩⟩
        rw [← List.append_assoc, ← hc1]; exact h2
      · cases c with
        | nil =>
          simp only [List.nil_append, List.append_nil] at hc1 hc2
          refine ⟨⟨own, ⟨r.idx, obj⟩ :: t, rest, ?_, hc, hsh⟩⟩
          rw [hc1]; exact h2
        | cons x c =>
          simp only [List.cons_append, List.cons.injEq] at hc2
          obtain ⟨rfl, rfl⟩ := hc2
          refine ⟨⟨l ++ ⟨r.idx, obj⟩ :: c, extra, rest, by simpa using h2, hc, ?_⟩⟩
          rw [← hsh, hc1]
          simp [shape, hlen]
    · by_cases hroom : s.freeHead + 6 + obj.length ≤ s.mem.length
      · obtain ⟨s2, h1, h2, -, -⟩ := hr.set_new hno hop.2 hroom
        simp only [Storage.step, h1, Res.bind_ok] at hs
        cases hs
        rw [hc.drop _ (by omega), List.append_assoc] at h2
        exact ⟨⟨own, _, _, h2, clean_zeros _, hsh⟩⟩
      · simp only [Storage.step, hr.set_full hno (by omega), Res.bind_ok] at hs
        cases hs
        exact h

theorem After.run {s s' : Store} {recs : List Rec} (h : After s recs) (ops : List Op) (hops : ∀ op ∈ ops, op.Normal)
    (os : List Out) (hs : run s ops = .ok (s', os)) : After s' recs := by
  induction ops generalizing s os with
  | nil => simp only [Storage.run] at hs; cases hs; exact h
  | cons op ops ih =>
    simp only [List.mem_cons, forall_eq_or_imp] at hops
    simp only [Storage.run, Res.bind_eq_ok] at hs
    obtain ⟨⟨s1, o⟩, h1, hs⟩ := hs
    obtain ⟨⟨s2, os'⟩, h2, hs⟩ := hs
    simp only [Res.ok.injEq, Prod.mk.injEq] at hs
    obtain ⟨rfl, -⟩ := hs
    exact ih (h.step op hops.1 o h1) hops.2 os' h2

/-- The older object in terms of records. -/
theorem After.older {s' : Store} {recs : List Rec} (h : After s' recs) (hg : ∀ r ∈ recs, r.Good) :
    ∃ own extra rest, Rep s' (own ++ extra) rest ∧ shape own = shape recs ∧
      Rep ⟨s'.mem, (encs recs).length⟩ own (encs extra ++ rest) := by
  obtain ⟨own, extra, rest, hr, -, hsh⟩ := h.rep
  have hgo : ∀ r ∈ own, r.Good := fun r h => hr.good r (by simp [h])
  refine ⟨own, extra, rest, hr, hsh, ?_, ?_, hgo, hr.cap⟩
  · simp only [hr.mem]; simp
  · exact (encs_length_shape hsh hgo hg).symm

/-- **C72**: whatever the newer object did, the older one answers a `get` without undefined behaviour: a record it had
is answered with its current value, a record appended by the newer object is not seen. -/
theorem older_object_reads_partial {s s' : Store} (h : Reachable s) (ops : List Op) (hops : ∀ op ∈ ops, op.Normal)
    (os : List Out) (hs : run s ops = .ok (s', os)) (name : List Byte) (n : Nat) :
    ∃ old now, get s name n = .ok old ∧ get s' name n = .ok now ∧
      get ⟨s'.mem, s.freeHead⟩ name n = .ok (if old.isSome then now else none) := by
  obtain ⟨recs, k, hr⟩ := h.rep
  have ha : After s recs := ⟨recs, [], _, by simpa using hr, clean_zeros _, rfl⟩
  obtain ⟨own, extra, rest, h1, h2, h3⟩ := (ha.run ops hops os hs).older hr.good
  refine ⟨_, _, hr.get_eq name n, h1.get_eq name n, ?_⟩
  rw [hr.head, h3.get_eq, lookup_append_list, ← lookup_isSome_shape h2]
  cases lookup own name n <;> rfl

/-- **C72**: overwriting a record through the older object is seen by the newer one. -/
theorem older_object_overwrites {s s' t : Store} {b : Bool} (h : Reachable s) (ops : List Op)
    (hops : ∀ op ∈ ops, op.Normal) (os : List Out) (hs : run s ops = .ok (s', os)) (name obj : List Byte)
    (hhas : (∃ v, get s name obj.length = .ok (some v)))
    (ht : set ⟨s'.mem, s.freeHead⟩ name obj = .ok (t, b)) (name' : List Byte) (n' : Nat) :
    b = true ∧ ∃ now, get s' name' n' = .ok now ∧
      get ⟨t.mem, s'.freeHead⟩ name' n' =
        .ok (if name'.length ≤ 4 ∧ stripNul name' = stripNul name ∧ n' = obj.length then some obj else now) := by
  obtain ⟨recs, k, hr⟩ := h.rep
  have ha : After s recs := ⟨recs, [], _, by simpa using hr, clean_zeros _, rfl⟩
  obtain ⟨own, extra, rest, h1, h2, h3⟩ := (ha.run ops hops os hs).older hr.good
  obtain ⟨v, hv⟩ := hhas
  rw [hr.get_eq] at hv
  have hsome : (lookup own name obj.length).isSome = true := by
    rw [lookup_isSome_shape h2, Res.ok.inj hv]; rfl
  rw [hr.head] at ht
  rcases firstHit own name obj.length with ⟨l, r, t', rfl, hno, hit⟩ | hno
  · obtain ⟨s2, e1, e2, e3, -⟩ := h3.set_hit hno hit
    rw [e1] at ht
    simp only [Res.ok.injEq, Prod.mk.injEq] at ht
    obtain ⟨rfl, rfl⟩ := ht
    refine ⟨rfl, _, h1.get_eq name' n', ?_⟩
    have hlen := Rec.hits_replace hit
    have hrep : Rep ⟨s2.mem, s'.freeHead⟩ (l ++ ⟨r.idx, obj⟩ :: (t' ++ extra)) rest := by
      refine ⟨by rw [e2.mem]; simp, ?_, ?_, e2.cap⟩
      · simp only [h1.head]
        simp [Rec.enc, le16_length, hlen]
      · intro x hx
        have := e2.good
        simp only [List.mem_append, List.mem_cons] at hx
        rcases hx with hx | hx | hx | hx
        · exact this x (by simp [hx])
        · exact this x (by simp [hx])
        · exact this x (by simp [hx])
        · exact h1.good x (by simp [hx])
    rw [hrep.get_eq, lookup_replace hno hit]
    have hn4 : name.length ≤ 4 := by
      have := hit; simp only [Rec.hits, decide_eq_true_eq] at this; exact this.1
    rw [List.append_assoc, List.cons_append]
    by_cases hc : name'.length ≤ 4
    · simp only [hc, true_and, storedIdx_eq_iff hc hn4]
    · simp only [hc, false_and, if_false]
  · rw [lookup_miss hno] at hsome; cases hsome

/-- **C72** is false for appending: when both objects append, the record acknowledged first is lost — for every state,
all names and all objects of the same size.  Both calls report success. -/
theorem two_objects_lose_record {s s' : Store} (h : Reachable s) (n1 n2 o1 o2 : List Byte)
    (hn1 : n1.length ≤ 4) (hn2 : n2.length ≤ 4) (hne : stripNul n1 ≠ stripNul n2) (hlen : o2.length = o1.length)
    (hsz : 6 + o1.length < 65536)
    (hnew1 : get s n1 o1.length = .ok none) (hnew2 : get s n2 o2.length = .ok none)
    (hset : set s n1 o1 = .ok (s', true)) :
    ∃ t, set ⟨s'.mem, s.freeHead⟩ n2 o2 = .ok (t, true) ∧
      get t n1 o1.length = .ok none ∧ get ⟨t.mem, s'.freeHead⟩ n1 o1.length = .ok none ∧
      (∀ u, create t.mem false = .ok u → get u n1 o1.length = .ok none) ∧
      get t n2 o2.length = .ok (some o2) := by
  obtain ⟨recs, k, hr⟩ := h.rep
  rw [hr.get_eq] at hnew1 hnew2
  have miss : ∀ (name : List Byte) (n : Nat), lookup recs name n = none → ∀ r ∈ recs, r.hits name n = false := by
    intro name n hl
    rcases firstHit recs name n with ⟨a, r, b, rfl, hno, hit⟩ | hno
    · rw [lookup_hit hno hit] at hl; cases hl
    · exact hno
  have m1 := miss _ _ (Res.ok.inj hnew1)
  have m2 := miss _ _ (Res.ok.inj hnew2)
  have hroom : s.freeHead + 6 + o1.length ≤ s.mem.length := by
    rcases Nat.lt_or_ge s.mem.length (s.freeHead + 6 + o1.length) with hc | hc
    · rw [hr.set_full m1 (by omega)] at hset
      cases hset
    · exact hc
  obtain ⟨s2, e1, e2, e3, e4⟩ := hr.set_new m1 hsz hroom
  rw [e1] at hset
  cases hset
  have g1 : Rec.Good ⟨storedIdx n1, o1⟩ := ⟨storedIdx_length _, hsz⟩
  have hA : Rep ⟨s'.mem, s.freeHead⟩ recs (Rec.enc ⟨storedIdx n1, o1⟩ ++ (List.replicate k 0).drop (6 + o1.length)) :=
    ⟨by simp only [e2.mem]; simp, hr.head, hr.good, e2.cap⟩
  obtain ⟨t, f1, f2, f3, f4⟩ := hA.set_new m2 (by omega) (by simp only [e4]; omega)
  have hd : (Rec.enc ⟨storedIdx n1, o1⟩ ++ (List.replicate k (0 : Byte)).drop (6 + o1.length)).drop (6 + o2.length) =
      List.replicate (k - (6 + o1.length)) 0 := by
    rw [List.drop_append, List.drop_eq_nil_of_le (by rw [Rec.enc_length g1]; simp [hlen]), Rec.enc_length g1]
    simp [hlen]
  rw [hd] at f2
  have hno : lookup (recs ++ [⟨storedIdx n2, o2⟩]) n1 o1.length = none := by
    rw [lookup_append, Res.ok.inj hnew1]
    have : Rec.hits ⟨storedIdx n2, o2⟩ n1 o1.length = false := by
      simp only [Rec.hits, decide_eq_false_iff_not]
      rintro ⟨-, hi, -⟩
      rw [storedIdx_eq_iff hn2 hn1] at hi
      exact hne hi.symm
    simp [this]
  have hfh : t.freeHead = s'.freeHead := by rw [f3, e3]; simp only [hlen]
  refine ⟨t, f1, by rw [f2.get_eq, hno], ?_, ?_, ?_⟩
  · rw [← hfh, f2.get_eq, hno]
  · intro u hu
    rw [f2.reopen (stops_zeros _)] at hu
    cases hu
    rw [f2.get_eq, hno]
  · rw [f2.get_eq, lookup_append, Res.ok.inj hnew2]
    have : Rec.hits ⟨storedIdx n2, o2⟩ n2 o2.length = true := by simp [Rec.hits, hn2]
    simp [this]

/-- With objects of different sizes the rest of the lost record is even taken for a record when the storage is opened
again: a value that was never stored appears, under a name that was never used. -/
theorem two_objects_phantom :
    (do
      let s ← create (List.replicate 32 0) true
      let (s', b1) ← set s [97] [0, 0, 7, 0, 98, 0, 0, 0, 42]
      let (t, b2) ← set ⟨s'.mem, s.freeHead⟩ [99] [1, 1]
      let u ← create t.mem false
      let v ← get u [98] 1
      .ok ((b1, b2), v) : Res _) = .ok ((true, true), some [42]) := by decide +kernel

-- the hypotheses are met: an empty storage of 32 bytes and two one-byte objects
example : ∃ s s', Reachable s ∧ get s [97] 1 = .ok none ∧ get s [98] 1 = .ok none ∧
    set s [97] [7] = .ok (s', true) ∧ stripNul [97] ≠ stripNul [98] :=
  ⟨⟨List.replicate 32 0, 0⟩, _, .init (List.replicate 32 0) _ (by simp [CapOk]) rfl, by decide, by decide, rfl, by decide⟩

end Verif.Storage
