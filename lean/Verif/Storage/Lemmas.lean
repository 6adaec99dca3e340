import Verif.Storage.Spec
/-!
# The region as a sequence of records
-/
namespace Verif.Storage

/-! ## Reading -/

theorem readN_append (pre m : List Byte) (p n : Nat) :
    readN (pre ++ m) (pre.length + p) n = readN m p n := by
  unfold readN
  have : (pre.length + p + n ≤ (pre ++ m).length) ↔ (p + n ≤ m.length) := by
    rw [List.length_append]; omega
  simp only [this, List.drop_append, List.drop_eq_nil_of_le (Nat.le_add_right pre.length p)]
  rw [Nat.add_sub_cancel_left]; simp

theorem nodeSize_append (pre m : List Byte) (p : Nat) :
    nodeSize (pre ++ m) (pre.length + p) = nodeSize m p := by
  unfold nodeSize
  rw [List.getElem?_append_right (by omega), Nat.add_assoc,
    List.getElem?_append_right (by omega)]
  simp only [Nat.add_sub_cancel_left]

theorem idxEq_append (pre m : List Byte) (p : Nat) (name : List Byte) :
    idxEq (pre ++ m) (pre.length + p) name = idxEq m p name := by
  unfold idxEq nodeIdx
  rw [Nat.add_assoc, readN_append]

theorem nodeMatches_append (pre m : List Byte) (p : Nat) (name : List Byte) (n : Nat) :
    nodeMatches (pre ++ m) (pre.length + p) name n = nodeMatches m p name n := by
  unfold nodeMatches
  rw [idxEq_append, nodeSize_append]

theorem nodeSize_ok (m : List Byte) (p : Nat) (h : p + 2 ≤ m.length) :
    ∃ v, nodeSize m p = .ok v ∧ v < 65536 := by
  unfold nodeSize
  rw [List.getElem?_eq_getElem (by omega : p < m.length),
    List.getElem?_eq_getElem (by omega : p + 1 < m.length)]
  refine ⟨_, rfl, ?_⟩
  have := (m[p]'(by omega)).isLt
  have := (m[p + 1]'(by omega)).isLt
  omega

theorem nodeMatches_ok (m : List Byte) (p : Nat) (name : List Byte) (n : Nat)
    (h : p + 6 ≤ m.length) : ∃ b, nodeMatches m p name n = .ok b ∧
      (b = true → nodeSize m p = .ok (6 + n)) := by
  unfold nodeMatches idxEq nodeIdx readN
  obtain ⟨v, hv, -⟩ := nodeSize_ok m p (by omega)
  rw [if_pos (by omega : p + 2 + 4 ≤ m.length), hv]
  split
  · exact ⟨false, rfl, by simp⟩
  · simp only [Res.bind_ok]
    split
    · refine ⟨_, rfl, ?_⟩
      simp [descSize]
    · exact ⟨false, rfl, by simp⟩

/-! ## Records -/

/-- A stored record. -/
structure Rec where
  idx : List Byte
  data : List Byte
deriving DecidableEq, Repr

/-- The bytes of a record. -/
def Rec.enc (r : Rec) : List Byte := le16 (6 + r.data.length) ++ r.idx ++ r.data

def Rec.Good (r : Rec) : Prop := r.idx.length = 4 ∧ 6 + r.data.length < 65536

/-- The bytes of a sequence of records. -/
def encs (rs : List Rec) : List Byte := rs.flatMap Rec.enc

@[simp] theorem encs_nil : encs [] = [] := rfl
@[simp] theorem encs_cons (r : Rec) (rs : List Rec) : encs (r :: rs) = r.enc ++ encs rs := rfl
@[simp] theorem encs_append (a b : List Rec) : encs (a ++ b) = encs a ++ encs b := by
  simp [encs]

theorem le16_length (v : Nat) : (le16 v).length = 2 := rfl

theorem Rec.enc_length {r : Rec} (h : r.Good) : r.enc.length = 6 + r.data.length := by
  simp [Rec.enc, le16, h.1]; omega

theorem encs_length_ge (rs : List Rec) (h : ∀ r ∈ rs, r.Good) : rs.length ≤ (encs rs).length := by
  induction rs with
  | nil => simp
  | cons r rs ih =>
    simp only [List.mem_cons, forall_eq_or_imp] at h
    have := ih h.2
    simp only [List.length_cons, encs_cons, List.length_append, Rec.enc_length h.1]
    omega

/-- Does the record answer to this name and object size? -/
def Rec.hits (r : Rec) (name : List Byte) (n : Nat) : Bool :=
  decide (name.length ≤ 4 ∧ r.idx = storedIdx name ∧ r.data.length = n)

theorem nodeSize_le16 (v : Nat) (h : v < 65536) (rest : List Byte) :
    nodeSize (le16 v ++ rest) 0 = .ok v := by
  have : v % 2 ^ 16 = v := Nat.mod_eq_of_lt h
  simp only [nodeSize, le16, this, List.cons_append, List.nil_append, List.getElem?_cons_zero,
    Res.ofOption_some, Nat.zero_add, List.getElem?_cons_succ, Res.bind_ok, BitVec.toNat_ofNat]
  congr 1
  omega

theorem nodeSize_enc {r : Rec} (h : r.Good) (pre rest : List Byte) :
    nodeSize (pre ++ (r.enc ++ rest)) pre.length = .ok (6 + r.data.length) := by
  have := nodeSize_append pre (r.enc ++ rest) 0
  rw [Nat.add_zero] at this
  rw [this, Rec.enc, List.append_assoc, List.append_assoc, nodeSize_le16 _ h.2]

theorem readN_mid (a b c : List Byte) : readN (a ++ (b ++ c)) a.length b.length = .ok b := by
  simp [readN]

theorem idx_pad (idx name : List Byte) (hi : idx.length = 4) (hn : name.length ≤ 4) :
    (idx.take name.length == name && (idx.drop name.length).all (· == 0)) =
      decide (idx = storedIdx name) := by
  rw [Bool.eq_iff_iff]
  simp only [Bool.and_eq_true, beq_iff_eq, List.all_eq_true, decide_eq_true_eq]
  rw [storedIdx, List.take_of_length_le hn]
  constructor
  · rintro ⟨h1, h2⟩
    have : idx.drop name.length = List.replicate (4 - name.length) 0 := by
      rw [List.eq_replicate_iff]
      exact ⟨by simp [hi], by simpa using h2⟩
    rw [← this]
    conv => lhs; rw [← List.take_append_drop name.length idx, h1]
  · rintro rfl
    simp

theorem nodeMatches_enc {r : Rec} (h : r.Good) (pre rest name : List Byte) (n : Nat) :
    nodeMatches (pre ++ (r.enc ++ rest)) pre.length name n = .ok (r.hits name n) := by
  unfold nodeMatches
  rw [nodeSize_enc h]
  have hidx : nodeIdx (pre ++ (r.enc ++ rest)) pre.length = .ok r.idx := by
    unfold nodeIdx
    have := readN_mid (pre ++ le16 (6 + r.data.length)) r.idx (r.data ++ rest)
    simp only [List.length_append, le16_length, h.1, List.append_assoc] at this
    simpa [Rec.enc] using this
  unfold idxEq
  split
  · rename_i hn
    simp [Rec.hits]; omega
  · rename_i hn
    rw [hidx]
    simp only [Res.bind_ok]
    rw [idx_pad _ _ h.1 (by omega)]
    by_cases hs : r.idx = storedIdx name
    · simp only [hs, decide_true, if_true, Rec.hits, true_and, descSize]
      congr 1
      rw [Bool.eq_iff_iff]
      simp; omega
    · simp [hs, Rec.hits]

/-! ## Looking up -/

theorem add32_of_lt {a b : Nat} (h : a + b < 2 ^ 32) : add32 a b = a + b := Nat.mod_eq_of_lt h

/-- Walking over a sequence of records none of which matches. -/
theorem getIdxLoop_skip (recs : List Rec) (hg : ∀ r ∈ recs, r.Good) (pre rest name : List Byte)
    (n fh fuel : Nat) (hfh : (pre ++ encs recs).length ≤ fh) (hcap : fh < 2 ^ 32)
    (hno : ∀ r ∈ recs, r.hits name n = false) :
    getIdxLoop (pre ++ (encs recs ++ rest)) fh name n (recs.length + fuel) pre.length =
      getIdxLoop (pre ++ (encs recs ++ rest)) fh name n fuel (pre ++ encs recs).length := by
  induction recs generalizing pre with
  | nil => simp
  | cons r recs ih =>
    simp only [List.mem_cons, forall_eq_or_imp] at hg hno
    have hl := Rec.enc_length hg.1
    simp only [encs_cons, List.length_append] at hfh
    rw [show (r :: recs).length + fuel = (recs.length + fuel) + 1 by simp; omega]
    rw [getIdxLoop, if_pos (by simp [descSize]; omega), encs_cons, List.append_assoc,
      nodeMatches_enc hg.1, nodeSize_enc hg.1]
    simp only [Res.bind_ok, hno.1, Bool.false_eq_true, if_false]
    rw [add32_of_lt (by omega)]
    have := ih hg.2 (pre ++ r.enc) (by simp; omega) hno.2
    simp only [List.append_assoc, List.length_append, hl] at this ⊢
    rw [this]

/-- Finding the first matching record. -/
theorem getIdxLoop_hit (a : List Rec) (r : Rec) (hga : ∀ r ∈ a, r.Good) (hg : r.Good)
    (rest name : List Byte) (n fh fuel : Nat) (hfh : (encs a ++ r.enc).length ≤ fh)
    (hcap : fh < 2 ^ 32) (hno : ∀ r ∈ a, r.hits name n = false) (hit : r.hits name n = true)
    (hfuel : a.length < fuel) :
    getIdxLoop (encs a ++ (r.enc ++ rest)) fh name n fuel 0 = .ok (some (encs a).length) := by
  obtain ⟨f, rfl⟩ : ∃ f, fuel = a.length + (f + 1) := ⟨fuel - a.length - 1, by omega⟩
  have := getIdxLoop_skip a hga [] (r.enc ++ rest) name n fh (f + 1) (by simp at hfh ⊢; omega) hcap hno
  simp only [List.nil_append, List.length_nil] at this
  have hl := Rec.enc_length hg
  simp only [List.length_append] at hfh
  rw [this, getIdxLoop, if_pos (by simp only [descSize]; omega), nodeMatches_enc hg]
  simp [hit]

/-- Either some record is the first match or none matches. -/
theorem firstHit (recs : List Rec) (name : List Byte) (n : Nat) :
    (∃ a r b, recs = a ++ r :: b ∧ (∀ r ∈ a, r.hits name n = false) ∧ r.hits name n = true) ∨
    (∀ r ∈ recs, r.hits name n = false) := by
  induction recs with
  | nil => right; simp
  | cons x xs ih =>
    cases hx : x.hits name n
    · rcases ih with ⟨a, r, b, rfl, h1, h2⟩ | h
      · left; exact ⟨x :: a, r, b, rfl, by simpa [hx] using h1, h2⟩
      · right; simpa [hx] using h
    · left; exact ⟨[], x, xs, rfl, by simp, hx⟩

/-! ## The representation relation -/

/-- The region holds the records `recs` followed by `rest`. -/
structure Rep (s : Store) (recs : List Rec) (rest : List Byte) : Prop where
  mem : s.mem = encs recs ++ rest
  head : s.freeHead = (encs recs).length
  good : ∀ r ∈ recs, r.Good
  cap : CapOk s.mem.length

theorem Rep.head_lt {s recs rest} (h : Rep s recs rest) : s.freeHead < 2 ^ 32 := by
  have := h.cap; have := h.head; have := congrArg List.length h.mem
  simp [CapOk] at *; omega

theorem Rep.getIdx_hit {s : Store} {a : List Rec} {r : Rec} {b : List Rec} {rest : List Byte}
    (h : Rep s (a ++ r :: b) rest) {name : List Byte} {n : Nat}
    (hno : ∀ r ∈ a, r.hits name n = false) (hit : r.hits name n = true) :
    getIdx s name n = .ok (some (encs a).length) := by
  have hg := h.good
  have hga : ∀ r ∈ a, r.Good := fun x hx => hg x (by simp [hx])
  have hgr : r.Good := hg r (by simp)
  have := encs_length_ge a hga
  have hh := h.head
  simp only [encs_append, encs_cons, List.length_append] at hh
  unfold getIdx
  rw [h.mem, encs_append, encs_cons, List.append_assoc, List.append_assoc]
  exact getIdxLoop_hit a r hga hgr _ _ _ _ _ (by simp; omega) h.head_lt hno hit (by omega)

theorem Rep.getIdx_miss {s : Store} {recs : List Rec} {rest : List Byte}
    (h : Rep s recs rest) {name : List Byte} {n : Nat}
    (hno : ∀ r ∈ recs, r.hits name n = false) : getIdx s name n = .ok none := by
  have := encs_length_ge recs h.good
  have hh := h.head
  unfold getIdx
  obtain ⟨f, hf⟩ : ∃ f, s.freeHead + 1 = recs.length + (f + 1) := ⟨s.freeHead - recs.length, by omega⟩
  have := getIdxLoop_skip recs h.good [] rest name n s.freeHead (f + 1) (by simp; omega) h.head_lt hno
  simp only [List.nil_append, List.length_nil] at this
  rw [hf, h.mem, this, getIdxLoop, if_neg (by simp [descSize]; omega)]

theorem Rep.get_hit {s : Store} {a : List Rec} {r : Rec} {b : List Rec} {rest : List Byte}
    (h : Rep s (a ++ r :: b) rest) {name : List Byte} {n : Nat}
    (hno : ∀ r ∈ a, r.hits name n = false) (hit : r.hits name n = true) :
    get s name n = .ok (some r.data) := by
  have hgr : r.Good := h.good r (by simp)
  unfold get
  rw [h.getIdx_hit hno hit]
  simp only [Res.bind_ok]
  have e : s.mem = encs a ++ (r.enc ++ (encs b ++ rest)) := by rw [h.mem]; simp
  rw [e, nodeMatches_enc hgr, hit]
  simp only [Res.bind_ok, if_true]
  have hn : r.data.length = n := by simp [Rec.hits] at hit; exact hit.2.2
  have := readN_mid (encs a ++ le16 (6 + r.data.length) ++ r.idx) r.data (encs b ++ rest)
  simp only [List.length_append, le16_length, hgr.1, hn, List.append_assoc] at this
  simp only [Rec.enc, List.append_assoc, descSize, hn]
  rw [this]; rfl

theorem Rep.get_miss {s : Store} {recs : List Rec} {rest : List Byte}
    (h : Rep s recs rest) {name : List Byte} {n : Nat}
    (hno : ∀ r ∈ recs, r.hits name n = false) : get s name n = .ok none := by
  unfold get; rw [h.getIdx_miss hno]; rfl

/-! ## Writing -/

theorem applyWrites_append (m : List Byte) (ws vs : List (Nat × Byte)) :
    applyWrites m (ws ++ vs) = (applyWrites m ws >>= fun m' => applyWrites m' vs) := by
  induction ws generalizing m with
  | nil => rfl
  | cons w ws ih =>
    obtain ⟨p, b⟩ := w
    simp only [List.cons_append, applyWrites]
    split
    · exact ih _
    · rfl

theorem writesAt_nil (p : Nat) : writesAt p [] = [] := rfl

theorem writesAt_cons (p : Nat) (b : Byte) (bs : List Byte) :
    writesAt p (b :: bs) = (p, b) :: writesAt (p + 1) bs := by
  simp [writesAt, List.mapIdx_cons, Nat.add_assoc, Nat.add_comm 1]

theorem applyWrites_writesAt (a old new c : List Byte) (h : old.length = new.length) :
    applyWrites (a ++ (old ++ c)) (writesAt a.length new) = .ok (a ++ (new ++ c)) := by
  induction new generalizing a old with
  | nil =>
    have : old = [] := by simpa using h
    simp [writesAt_nil, applyWrites, this]
  | cons b bs ih =>
    obtain _ | ⟨x, xs⟩ := old
    · simp at h
    · rw [writesAt_cons, applyWrites, if_pos (by simp)]
      have e : (a ++ (x :: xs ++ c)).set a.length b = (a ++ [b]) ++ (xs ++ c) := by
        simp
      have := ih (a ++ [b]) xs (by simpa using h)
      rw [e]
      simpa using this

theorem applyWrites_at {m a old c : List Byte} {p : Nat} {new : List Byte}
    (hm : m = a ++ (old ++ c)) (hp : p = a.length) (h : old.length = new.length) :
    applyWrites m (writesAt p new) = .ok (a ++ (new ++ c)) := by
  subst hm hp; exact applyWrites_writesAt a old new c h

theorem storedIdx_length (name : List Byte) : (storedIdx name).length = 4 := by
  simp [storedIdx]; omega

theorem Rec.hits_replace {r : Rec} {name obj : List Byte} (h : r.hits name obj.length = true) :
    obj.length = r.data.length := by
  simp [Rec.hits] at h; omega

theorem Rep.setPlan_hit {s : Store} {a : List Rec} {r : Rec} {b : List Rec} {rest : List Byte}
    (h : Rep s (a ++ r :: b) rest) {name obj : List Byte}
    (hno : ∀ r ∈ a, r.hits name obj.length = false) (hit : r.hits name obj.length = true) :
    setPlan s name obj = .ok ⟨writesAt ((encs a).length + 6) obj, s.freeHead, true⟩ := by
  unfold setPlan; rw [h.getIdx_hit hno hit]; rfl

theorem Rep.set_hit {s : Store} {a : List Rec} {r : Rec} {b : List Rec} {rest : List Byte}
    (h : Rep s (a ++ r :: b) rest) {name obj : List Byte}
    (hno : ∀ r ∈ a, r.hits name obj.length = false) (hit : r.hits name obj.length = true) :
    ∃ s', set s name obj = .ok (s', true) ∧ Rep s' (a ++ ⟨r.idx, obj⟩ :: b) rest ∧
      s'.freeHead = s.freeHead ∧ s'.mem.length = s.mem.length := by
  have hgr : r.Good := h.good r (by simp)
  have hn := Rec.hits_replace hit
  unfold set
  rw [h.setPlan_hit hno hit]
  simp only [Res.bind_ok]
  rw [applyWrites_at (a := encs a ++ le16 (6 + r.data.length) ++ r.idx) (old := r.data)
    (c := encs b ++ rest) (by rw [h.mem]; simp [Rec.enc]) (by simp [le16_length, hgr.1]) hn.symm]
  simp only [Res.bind_ok]
  refine ⟨_, rfl, ?_⟩
  have e : encs a ++ le16 (6 + r.data.length) ++ r.idx ++ (obj ++ (encs b ++ rest)) =
      encs (a ++ ⟨r.idx, obj⟩ :: b) ++ rest := by simp [Rec.enc, hn]
  have hl : (encs (a ++ ⟨r.idx, obj⟩ :: b)).length = (encs (a ++ r :: b)).length := by
    simp [Rec.enc, hn, le16_length]
  refine ⟨⟨e, by rw [h.head, hl], ?_, ?_⟩, rfl, ?_⟩
  · intro x hx
    simp only [List.mem_append, List.mem_cons] at hx
    rcases hx with hx | rfl | hx
    · exact h.good x (by simp [hx])
    · exact ⟨hgr.1, by simpa [hn] using hgr.2⟩
    · exact h.good x (by simp [hx])
  · have := h.cap
    rw [h.mem, List.length_append] at this
    simp only [e]
    rw [List.length_append, hl]
    exact this
  · simp only [e]; rw [h.mem]; simp only [List.length_append, hl]

theorem Rep.set_full {s : Store} {recs : List Rec} {rest : List Byte} (h : Rep s recs rest)
    {name obj : List Byte} (hno : ∀ r ∈ recs, r.hits name obj.length = false)
    (hfull : s.mem.length < s.freeHead + 6 + obj.length) :
    set s name obj = .ok (s, false) := by
  unfold set setPlan
  rw [h.getIdx_miss hno]
  simp only [Res.bind_ok, descSize]
  rw [if_pos (by omega)]
  rfl

theorem Rep.setPlan_new {s : Store} {recs : List Rec} {rest : List Byte} (h : Rep s recs rest)
    {name obj : List Byte} (hno : ∀ r ∈ recs, r.hits name obj.length = false)
    (hroom : s.freeHead + 6 + obj.length ≤ s.mem.length) :
    setPlan s name obj = .ok ⟨writesAt (s.freeHead + 2) (storedIdx name) ++
      writesAt s.freeHead (le16 (6 + obj.length)) ++ writesAt (s.freeHead + 6) obj,
      s.freeHead + 6 + obj.length, true⟩ := by
  unfold setPlan
  rw [h.getIdx_miss hno]
  simp only [Res.bind_ok, descSize]
  rw [if_neg (by omega), add32_of_lt, Nat.add_assoc]
  have := h.cap; simp [CapOk] at this; omega

theorem Rep.set_new {s : Store} {recs : List Rec} {rest : List Byte} (h : Rep s recs rest)
    {name obj : List Byte} (hno : ∀ r ∈ recs, r.hits name obj.length = false)
    (hsz : 6 + obj.length < 65536)
    (hroom : s.freeHead + 6 + obj.length ≤ s.mem.length) :
    ∃ s', set s name obj = .ok (s', true) ∧
      Rep s' (recs ++ [⟨storedIdx name, obj⟩]) (rest.drop (6 + obj.length)) ∧
      s'.freeHead = s.freeHead + 6 + obj.length ∧ s'.mem.length = s.mem.length := by
  have hlen := congrArg List.length h.mem
  have hhead := h.head
  simp only [List.length_append] at hlen
  -- split the rest
  obtain ⟨r1, r2, r3, r4, hr, l1, l2, l3, h4⟩ : ∃ r1 r2 r3 r4 : List Byte, rest = r1 ++ (r2 ++ (r3 ++ r4)) ∧
      r1.length = 2 ∧ r2.length = 4 ∧ r3.length = obj.length ∧ r4 = rest.drop (6 + obj.length) := by
    refine ⟨rest.take 2, (rest.drop 2).take 4, (rest.drop 6).take obj.length,
      rest.drop (6 + obj.length), ?_, by simp; omega, by simp; omega, by simp; omega, rfl⟩
    rw [← List.drop_drop, List.take_append_drop]
    rw [show rest.drop 6 = (rest.drop 2).drop 4 by simp, List.take_append_drop,
      List.take_append_drop]
  unfold set
  rw [h.setPlan_new hno hroom]
  simp only [Res.bind_ok, applyWrites_append]
  rw [applyWrites_at (a := encs recs ++ r1) (old := r2) (c := r3 ++ r4) (by rw [h.mem, hr]; simp)
    (by simp [hhead, l1]) (by simp [storedIdx_length, l2])]
  simp only [Res.bind_ok]
  rw [applyWrites_at (a := encs recs) (old := r1) (c := storedIdx name ++ (r3 ++ r4)) (by simp)
    hhead (by simp [le16_length, l1])]
  simp only [Res.bind_ok]
  rw [applyWrites_at (a := encs recs ++ le16 (6 + obj.length) ++ storedIdx name) (old := r3) (c := r4)
    (by simp) (by simp [storedIdx_length, le16_length, hhead]) l3]
  simp only [Res.bind_ok]
  refine ⟨_, rfl, ?_⟩
  have e : encs recs ++ le16 (6 + obj.length) ++ storedIdx name ++ (obj ++ r4) =
      encs (recs ++ [⟨storedIdx name, obj⟩]) ++ rest.drop (6 + obj.length) := by
    simp [Rec.enc, h4]
  have hl : (encs recs ++ le16 (6 + obj.length) ++ storedIdx name ++ (obj ++ r4)).length =
      s.mem.length := by
    rw [h.mem, hr]; simp [le16_length, storedIdx_length, l1, l2, l3]
  refine ⟨⟨e, ?_, ?_, ?_⟩, rfl, hl⟩
  · simp [Rec.enc, le16_length, storedIdx_length, hhead]; omega
  · intro x hx
    simp only [List.mem_append, List.mem_singleton] at hx
    rcases hx with hx | rfl
    · exact h.good x hx
    · exact ⟨storedIdx_length _, hsz⟩
  · rw [hl]; exact h.cap

/-! ## Opening -/

theorem openLoop_skip (recs : List Rec) (hg : ∀ r ∈ recs, r.Good) (pre rest : List Byte)
    (fuel : Nat) (hcap : CapOk (pre ++ (encs recs ++ rest)).length) :
    openLoop (pre ++ (encs recs ++ rest)) (recs.length + fuel) pre.length =
      openLoop (pre ++ (encs recs ++ rest)) fuel (pre ++ encs recs).length := by
  induction recs generalizing pre with
  | nil => simp
  | cons r recs ih =>
    simp only [List.mem_cons, forall_eq_or_imp] at hg
    have hl := Rec.enc_length hg.1
    have hc : CapOk (pre ++ (encs (r :: recs) ++ rest)).length := hcap
    simp only [encs_cons, List.length_append, CapOk] at hc
    rw [show (r :: recs).length + fuel = (recs.length + fuel) + 1 by simp; omega]
    rw [openLoop, if_pos (by simp [descSize]; omega), encs_cons, List.append_assoc,
      nodeSize_enc hg.1]
    simp only [Res.bind_ok]
    rw [add32_of_lt (by omega), if_pos (by simp; omega)]
    have := ih hg.2 (pre ++ r.enc) (by simpa using hcap)
    simp only [List.append_assoc, List.length_append, hl] at this ⊢
    rw [this]

/-- Opening a region always terminates inside the region. -/
theorem openLoop_ok (m : List Byte) (hcap : CapOk m.length) (fuel fh : Nat) (hfh : fh ≤ m.length)
    (hfuel : m.length - fh < fuel) : ∃ fh', openLoop m fuel fh = .ok fh' ∧ fh ≤ fh' ∧ fh' ≤ m.length := by
  induction fuel generalizing fh with
  | zero => omega
  | succ fuel ih =>
    rw [openLoop]
    split
    · rename_i h6
      simp only [descSize] at h6
      obtain ⟨v, hv, hlt⟩ := nodeSize_ok m fh (by omega)
      simp only [hv, Res.bind_ok]
      simp only [CapOk] at hcap
      rw [add32_of_lt (by omega)]
      split
      · rename_i hc
        obtain ⟨fh', h1, h2, h3⟩ := ih (fh + v) hc.2 (by omega)
        exact ⟨fh', h1, by omega, h3⟩
      · exact ⟨fh, rfl, by omega, hfh⟩
    · exact ⟨fh, rfl, by omega, hfh⟩

/-- The walk stops right at the beginning of `rest`. -/
def Stops (rest : List Byte) : Prop :=
  rest.length < 6 ∨ ∃ v, nodeSize rest 0 = .ok v ∧ (v = 0 ∨ rest.length < v)

theorem create_false_stops (recs : List Rec) (hg : ∀ r ∈ recs, r.Good) (rest : List Byte)
    (hcap : CapOk (encs recs ++ rest).length) (hstop : Stops rest) :
    create (encs recs ++ rest) false = .ok ⟨encs recs ++ rest, (encs recs).length⟩ := by
  have := encs_length_ge recs hg
  have hs := openLoop_skip recs hg [] rest ((encs recs ++ rest).length - recs.length + 1) (by simpa using hcap)
  simp only [List.nil_append, List.length_nil] at hs
  unfold create
  simp only [Bool.false_eq_true, if_false]
  rw [show (encs recs ++ rest).length + 1 =
    recs.length + ((encs recs ++ rest).length - recs.length + 1) by simp; omega, hs, openLoop]
  split
  · rename_i h6
    simp only [descSize, List.length_append] at h6
    rcases hstop with hlt | ⟨v, hv, hz⟩
    · omega
    · have := nodeSize_append (encs recs) rest 0
      rw [Nat.add_zero, hv] at this
      obtain ⟨v', hv', hlt⟩ := nodeSize_ok rest 0 (by omega)
      rw [hv] at hv'
      cases hv'
      rw [this]
      simp only [CapOk, List.length_append] at hcap
      simp only [Res.bind_ok]
      rw [add32_of_lt (by omega), if_neg]
      · rfl
      · rw [List.length_append]; omega
  · rfl

theorem stops_zeros (k : Nat) : Stops (List.replicate k 0) := by
  by_cases h : k < 6
  · left; simpa using h
  · right
    refine ⟨0, ?_, .inl rfl⟩
    unfold nodeSize
    rw [List.getElem?_replicate_of_lt (by omega), List.getElem?_replicate_of_lt (by omega)]
    rfl

/-! ## Reachable states -/

theorem Rep.create_true (m : List Byte) (h : CapOk m.length) :
    ∃ s, create m true = .ok s ∧ Rep s [] (List.replicate m.length 0) :=
  ⟨_, rfl, by simp, rfl, by simp, by simpa using h⟩

/-- In every reachable state the region is a sequence of records followed by zeros. -/
theorem Reachable.rep {s : Store} (h : Reachable s) :
    ∃ recs k, Rep s recs (List.replicate k 0) := by
  induction h with
  | init m s hc hs =>
    obtain ⟨s', h1, h2⟩ := Rep.create_true m hc
    rw [h1] at hs; cases hs
    exact ⟨_, _, h2⟩
  | set s s' name obj b _ hsz hset ih =>
    obtain ⟨recs, k, hr⟩ := ih
    rcases firstHit recs name obj.length with ⟨a, r, t, rfl, hno, hit⟩ | hno
    · obtain ⟨s2, h1, h2, -⟩ := hr.set_hit hno hit
      rw [h1] at hset; cases hset
      exact ⟨_, _, h2⟩
    · by_cases hroom : s.freeHead + 6 + obj.length ≤ s.mem.length
      · obtain ⟨s2, h1, h2, -⟩ := hr.set_new hno hsz hroom
        rw [h1] at hset; cases hset
        rw [List.drop_replicate] at h2
        exact ⟨_, _, h2⟩
      · rw [hr.set_full hno (by omega)] at hset; cases hset
        exact ⟨_, _, hr⟩
  | reopen s s' _ hre ih =>
    obtain ⟨recs, k, hr⟩ := ih
    rw [hr.mem, create_false_stops recs hr.good _ (by rw [← hr.mem]; exact hr.cap) (stops_zeros k)] at hre
    cases hre
    exact ⟨recs, k, rfl, rfl, hr.good, by rw [← hr.mem]; exact hr.cap⟩

theorem Rep.reopen {s : Store} {recs : List Rec} {rest : List Byte} (hr : Rep s recs rest)
    (hs : Stops rest) : create s.mem false = .ok s := by
  have := create_false_stops recs hr.good rest (by rw [← hr.mem]; exact hr.cap) hs
  rw [← hr.mem, ← hr.head] at this
  exact this

end Verif.Storage
