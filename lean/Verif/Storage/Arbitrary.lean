import Verif.Storage.Safety
import Verif.Storage.Props
/-!
# C80: a storage opened over arbitrary memory is a map

The region may hold anything.  Opening walks over the entries found; unless the last of them is one byte long, every
history of calls is answered like a bounded map whose initial contents are the entries found.
-/
namespace Verif.Storage

/-- The entries (position and size) the constructor's walk goes through from `a` to `b`. -/
inductive WalkL (m : List Byte) : Nat → List (Nat × Nat) → Nat → Prop where
  | nil (a : Nat) : WalkL m a [] a
  | cons (a v b : Nat) (l : List (Nat × Nat)) : a + 6 ≤ m.length → nodeSize m a = .ok v → v ≠ 0 →
      a + v ≤ m.length → WalkL m (a + v) l b → WalkL m a ((a, v) :: l) b

theorem Walk.list {m : List Byte} {a b : Nat} (h : Walk m a b) : ∃ l, WalkL m a l b := by
  induction h with
  | refl a => exact ⟨[], .nil a⟩
  | step a v b h1 h2 h3 h4 _ ih => obtain ⟨l, hl⟩ := ih; exact ⟨(a, v) :: l, .cons a v b l h1 h2 h3 h4 hl⟩

theorem WalkL.walk {m : List Byte} {a b : Nat} {l : List (Nat × Nat)} (h : WalkL m a l b) : Walk m a b := by
  induction h with
  | nil a => exact .refl a
  | cons a v b l h1 h2 h3 h4 _ ih => exact .step a v b h1 h2 h3 h4 ih

theorem WalkL.le {m : List Byte} {a b : Nat} {l : List (Nat × Nat)} (h : WalkL m a l b) : a ≤ b := h.walk.le

theorem WalkL.mem {m : List Byte} {a b : Nat} {l : List (Nat × Nat)} (h : WalkL m a l b) (e : Nat × Nat) (he : e ∈ l) :
    a ≤ e.1 ∧ e.1 + e.2 ≤ b ∧ nodeSize m e.1 = .ok e.2 ∧ e.1 + 6 ≤ m.length ∧ e.2 ≠ 0 ∧ e.1 + e.2 ≤ m.length := by
  induction h with
  | nil a => simp at he
  | cons a v b l h1 h2 h3 h4 h5 ih =>
    have := h5.le
    rcases List.mem_cons.1 he with rfl | he
    · exact ⟨by simp, by simpa using this, h2, h1, h3, h4⟩
    · obtain ⟨g1, g2⟩ := ih he
      exact ⟨by omega, g2⟩

theorem WalkL.append {m : List Byte} {a b c : Nat} {l l' : List (Nat × Nat)} (h : WalkL m a l b) (h' : WalkL m b l' c) :
    WalkL m a (l ++ l') c := by
  induction h with
  | nil a => exact h'
  | cons a v b l h1 h2 h3 h4 _ ih => exact .cons a v c _ h1 h2 h3 h4 (ih h')

theorem WalkL.congr {m m' : List Byte} {a b : Nat} {l : List (Nat × Nat)} (h : WalkL m a l b)
    (hl : m'.length = m.length) (hs : ∀ e ∈ l, nodeSize m' e.1 = nodeSize m e.1) : WalkL m' a l b := by
  induction h with
  | nil a => exact .nil a
  | cons a v b l h1 h2 h3 h4 _ ih =>
    refine .cons a v b l (by omega) ?_ h3 (by omega) (ih fun e he => hs e (by simp [he]))
    rw [hs (a, v) (by simp)]; exact h2

/-- Entries do not overlap. -/
theorem WalkL.disjoint {m : List Byte} {a b : Nat} {l : List (Nat × Nat)} (h : WalkL m a l b) (e e' : Nat × Nat)
    (he : e ∈ l) (he' : e' ∈ l) : e' = e ∨ e'.1 + e'.2 ≤ e.1 ∨ e.1 + e.2 ≤ e'.1 := by
  induction h with
  | nil a => simp at he
  | cons a v b l h1 h2 h3 h4 h5 ih =>
    rcases List.mem_cons.1 he with rfl | he
    · rcases List.mem_cons.1 he' with rfl | he'
      · exact .inl rfl
      · exact .inr (.inr (h5.mem e' he').1)
    · rcases List.mem_cons.1 he' with rfl | he'
      · exact .inr (.inl (h5.mem e he).1)
      · exact ih he he'

/-! ### Looking up -/

/-- The bytes `[p, p + n)`. -/
def sub (m : List Byte) (p n : Nat) : List Byte := (m.drop p).take n

theorem sub_congr {m m' : List Byte} {p n : Nat} (h : ∀ i, p ≤ i → i < p + n → m'[i]? = m[i]?) :
    sub m' p n = sub m p n := by
  apply List.ext_getElem?
  intro i
  unfold sub
  rw [List.getElem?_take, List.getElem?_take]
  split
  · rw [List.getElem?_drop, List.getElem?_drop, h _ (by omega) (by omega)]
  · rfl

theorem sub_length {m : List Byte} {p n : Nat} (h : p + n ≤ m.length) : (sub m p n).length = n := by
  unfold sub; rw [List.length_take, List.length_drop]; omega

/-- The entry holds an object of this name and size. -/
def hit (m name : List Byte) (n : Nat) (e : Nat × Nat) : Bool :=
  decide (name.length ≤ 4 ∧ e.2 = 6 + n ∧ sub m (e.1 + 2) 4 = storedIdx name)

theorem nodeMatches_hit {m : List Byte} {p v : Nat} (h : p + 6 ≤ m.length) (hv : nodeSize m p = .ok v) (name : List Byte)
    (n : Nat) : nodeMatches m p name n = .ok (hit m name n (p, v)) := by
  have hi : nodeIdx m p = .ok (sub m (p + 2) 4) := by
    unfold nodeIdx readN
    rw [if_pos (by omega)]
    rfl
  unfold nodeMatches idxEq
  split
  · rename_i hn
    have : hit m name n (p, v) = false := by unfold hit; rw [decide_eq_false_iff_not]; omega
    rw [this]; rfl
  · rename_i hn
    rw [hi]
    simp only [Res.bind_ok]
    rw [idx_pad _ _ (sub_length (by omega)) (by omega), hv]
    by_cases hs : sub m (p + 2) 4 = storedIdx name
    · simp only [hs, decide_true, if_true, Res.bind_ok, hit, descSize, and_true]
      congr 1
      rw [Bool.eq_iff_iff]
      simp only [beq_iff_eq, decide_eq_true_eq]
      omega
    · simp only [hs, decide_false, Bool.false_eq_true, if_false, hit, and_false]

theorem getIdxLoop_list {m : List Byte} (hcap : CapOk m.length) {fh pos : Nat} {l : List (Nat × Nat)}
    (hw : WalkL m pos l fh) (name : List Byte) (n fuel : Nat) (hfuel : fh - pos < fuel) :
    getIdxLoop m fh name n fuel pos = .ok ((l.find? (hit m name n)).map Prod.fst) := by
  induction fuel generalizing pos l with
  | zero => omega
  | succ f ih =>
    rw [getIdxLoop]
    split
    · rename_i h6
      simp only [descSize] at h6
      cases hw with
      | nil => omega
      | cons _ v _ l h1 h2 h3 h4 h5 =>
        have hle := h5.le
        rw [nodeMatches_hit h1 h2, List.find?_cons]
        cases hh : hit m name n (pos, v) with
        | true => rfl
        | false =>
          simp only [Res.bind_ok, Bool.false_eq_true, if_false, h2]
          simp only [CapOk] at hcap
          rw [add32_of_lt (by omega)]
          exact ih h5 (by omega)
    · rename_i h6
      simp only [descSize] at h6
      have : l.find? (hit m name n) = none := by
        rw [List.find?_eq_none]
        intro e he
        have := hw.mem e he
        simp only [hit, decide_eq_true_eq]
        omega
      rw [this]; rfl

/-- The object of this name and size. -/
def view (m : List Byte) (l : List (Nat × Nat)) (name : List Byte) (n : Nat) : Option (List Byte) :=
  (l.find? (hit m name n)).map fun e => sub m (e.1 + 6) n

theorem hit_size {m name : List Byte} {n : Nat} {e : Nat × Nat} (h : hit m name n e = true) :
    name.length ≤ 4 ∧ e.2 = 6 + n ∧ sub m (e.1 + 2) 4 = storedIdx name := by
  simpa [hit] using h

theorem get_list {s : Store} (hcap : CapOk s.mem.length) {l : List (Nat × Nat)} (hw : WalkL s.mem 0 l s.freeHead)
    (name : List Byte) (n : Nat) : get s name n = .ok (view s.mem l name n) := by
  unfold get getIdx view
  rw [getIdxLoop_list hcap hw name n _ (by omega)]
  cases hf : l.find? (hit s.mem name n) with
  | none => rfl
  | some e =>
    obtain ⟨g1, g2, g3, g4, g5, g6⟩ := hw.mem e (List.mem_of_find?_eq_some hf)
    have hh := List.find?_some hf
    have := nodeMatches_hit g4 g3 name n
    rw [show (e.1, e.2) = e from rfl, hh] at this
    obtain ⟨-, hsz, -⟩ := hit_size hh
    simp only [Option.map_some, Res.bind_ok, this, if_true]
    unfold readN
    rw [if_pos (by simp only [descSize]; omega)]
    rfl

/-! ### Storing -/

/-- A storage whose entries are `l`. -/
structure Opened (s : Store) (l : List (Nat × Nat)) : Prop where
  cap : CapOk s.mem.length
  head : s.freeHead ≤ s.mem.length
  walk : WalkL s.mem 0 l s.freeHead
  tail : ∀ e ∈ l, e.1 + 2 ≤ s.freeHead

theorem Opened.get {s : Store} {l : List (Nat × Nat)} (h : Opened s l) (name : List Byte) (n : Nat) :
    get s name n = .ok (view s.mem l name n) := get_list h.cap h.walk name n

theorem find_congr {α} {p q : α → Bool} {l : List α} (h : ∀ x ∈ l, p x = q x) : l.find? p = l.find? q := by
  induction l with
  | nil => rfl
  | cons x l ih => rw [List.find?_cons, List.find?_cons, h x (by simp), ih fun y hy => h y (by simp [hy])]

theorem nodeSize_congr {m m' : List Byte} {p : Nat} (h0 : m'[p]? = m[p]?) (h1 : m'[p + 1]? = m[p + 1]?) :
    nodeSize m' p = nodeSize m p := by unfold nodeSize; rw [h0, h1]

theorem Opened.set_hit {s : Store} {l : List (Nat × Nat)} (h : Opened s l) {name obj : List Byte} {e : Nat × Nat}
    (hf : l.find? (hit s.mem name obj.length) = some e) :
    ∃ s', set s name obj = .ok (s', true) ∧ s'.freeHead = s.freeHead ∧ s'.mem.length = s.mem.length ∧ Opened s' l ∧
      ∀ name' n', view s'.mem l name' n' =
        if name'.length ≤ 4 ∧ storedIdx name' = storedIdx name ∧ n' = obj.length then some obj
        else view s.mem l name' n' := by
  have he := List.mem_of_find?_eq_some hf
  have hh := List.find?_some hf
  obtain ⟨hn, hsz, hidx⟩ := hit_size hh
  obtain ⟨g1, g2, g3, g4, g5, g6⟩ := h.walk.mem e he
  have hdec : s.mem = s.mem.take (e.1 + 6) ++ (sub s.mem (e.1 + 6) obj.length ++ s.mem.drop (e.1 + 6 + obj.length)) := by
    unfold sub
    rw [← List.drop_drop (i := obj.length) (j := e.1 + 6), List.take_append_drop, List.take_append_drop]
  have hw := applyWrites_at hdec (p := e.1 + 6) (new := obj) (by rw [List.length_take]; omega)
    (by rw [sub_length (by omega)])
  generalize hm' : s.mem.take (e.1 + 6) ++ (obj ++ s.mem.drop (e.1 + 6 + obj.length)) = m' at hw
  have hl : m'.length = s.mem.length := by
    rw [← hm', List.length_append, List.length_append, List.length_take, List.length_drop]; omega
  have hout : ∀ i, i < e.1 + 6 ∨ e.1 + 6 + obj.length ≤ i → m'[i]? = s.mem[i]? := by
    intro i hi
    rw [← hm']
    rcases hi with hi | hi
    · rw [List.getElem?_append_left (by rw [List.length_take]; omega), List.getElem?_take, if_pos hi]
    · rw [List.getElem?_append_right (by rw [List.length_take]; omega), List.length_take,
        List.getElem?_append_right (by omega), List.getElem?_drop]
      congr 1; omega
  have hin : sub m' (e.1 + 6) obj.length = obj := by
    unfold sub
    rw [← hm', List.drop_left' (by rw [List.length_take]; omega), List.take_left' rfl]
  have hsizes : ∀ x ∈ l, nodeSize m' x.1 = nodeSize s.mem x.1 := by
    intro x hx
    obtain ⟨x1, x2, x3, x4, x5, x6⟩ := h.walk.mem x hx
    rcases h.walk.disjoint e x he hx with rfl | hd | hd
    · exact nodeSize_congr (hout _ (by omega)) (hout _ (by omega))
    · exact nodeSize_congr (hout _ (by omega)) (hout _ (by omega))
    · exact nodeSize_congr (hout _ (by omega)) (hout _ (by omega))
  have hhits : ∀ name' n', ∀ x ∈ l, hit m' name' n' x = hit s.mem name' n' x := by
    intro name' n' x hx
    unfold hit
    by_cases h6 : x.2 = 6 + n'
    · have : sub m' (x.1 + 2) 4 = sub s.mem (x.1 + 2) 4 := by
        apply sub_congr
        intro i hi1 hi2
        rcases h.walk.disjoint e x he hx with rfl | hd | hd <;> exact hout _ (by omega)
      rw [this]
    · simp [h6]
  refine ⟨⟨m', s.freeHead⟩, ?_, rfl, hl, ?_, ?_⟩
  · unfold set setPlan getIdx
    rw [getIdxLoop_list h.cap h.walk _ _ _ (by omega), hf]
    simp only [Option.map_some, Res.bind_ok, descSize, hw]
  · exact ⟨by rw [hl]; exact h.cap, by rw [hl]; exact h.head, h.walk.congr hl hsizes, h.tail⟩
  · intro name' n'
    unfold view
    rw [find_congr (hhits name' n')]
    split
    · rename_i hk
      obtain ⟨k1, k2, rfl⟩ := hk
      have : hit s.mem name' obj.length = hit s.mem name obj.length := by
        funext x
        unfold hit
        rw [k2]
        simp [k1, hn]
      rw [this, hf, Option.map_some, hin]
    · rename_i hk
      cases hf' : l.find? (hit s.mem name' n') with
      | none => rfl
      | some x =>
        have hx := List.mem_of_find?_eq_some hf'
        obtain ⟨y1, y2, y3⟩ := hit_size (List.find?_some hf')
        simp only [Option.map_some]
        congr 1
        apply sub_congr
        intro i hi1 hi2
        rcases h.walk.disjoint e x he hx with rfl | hd | hd
        · exact absurd ⟨y1, y3.symm.trans hidx, by omega⟩ hk
        · exact hout _ (by omega)
        · exact hout _ (by omega)

theorem Opened.set_full {s : Store} {l : List (Nat × Nat)} (h : Opened s l) {name obj : List Byte}
    (hf : l.find? (hit s.mem name obj.length) = none) (hroom : s.mem.length < s.freeHead + 6 + obj.length) :
    set s name obj = .ok (s, false) := by
  unfold set setPlan getIdx
  rw [getIdxLoop_list h.cap h.walk _ _ _ (by omega), hf]
  simp only [Option.map_none, Res.bind_ok, descSize]
  rw [if_pos (by omega)]
  rfl

/-- Appending a record, whatever the region holds. -/
theorem append_record {s : Store} (hcap : CapOk s.mem.length) {name obj : List Byte}
    (hidx : getIdx s name obj.length = .ok none) (hroom : s.freeHead + 6 + obj.length ≤ s.mem.length)
    (hsz : 6 + obj.length < 65536) :
    ∃ m', set s name obj = .ok (⟨m', s.freeHead + (6 + obj.length)⟩, true) ∧ m'.length = s.mem.length ∧
      (∀ i, i < s.freeHead → m'[i]? = s.mem[i]?) ∧ nodeSize m' s.freeHead = .ok (6 + obj.length) ∧
      sub m' (s.freeHead + 2) 4 = storedIdx name ∧ sub m' (s.freeHead + 6) obj.length = obj := by
  have e := applyWrites_new (s.mem.take s.freeHead) (s.mem.drop s.freeHead) name obj
    (by rw [List.length_drop]; omega)
  rw [List.take_append_drop, List.length_take, Nat.min_eq_left (by omega)] at e
  generalize hm' : s.mem.take s.freeHead ++ (Rec.enc ⟨storedIdx name, obj⟩ ++
    (s.mem.drop s.freeHead).drop (6 + obj.length)) = m' at e
  have htl : (s.mem.take s.freeHead).length = s.freeHead := by rw [List.length_take]; omega
  refine ⟨m', ?_, ?_, ?_, ?_, ?_, ?_⟩
  · unfold set setPlan
    rw [hidx]
    simp only [Res.bind_ok, descSize]
    rw [if_neg (by omega)]
    simp only [Res.bind_ok, e]
    simp only [CapOk] at hcap
    rw [add32_of_lt (by omega)]
  · rw [← hm']; simp [Rec.enc, le16_length, storedIdx_length]; omega
  · intro i hi
    rw [← hm', List.getElem?_append_left (by omega), List.getElem?_take, if_pos hi]
  · have := nodeSize_enc (r := ⟨storedIdx name, obj⟩) ⟨storedIdx_length _, hsz⟩
      (s.mem.take s.freeHead) ((s.mem.drop s.freeHead).drop (6 + obj.length))
    rw [htl, hm'] at this
    exact this
  · have h2 : m' = (s.mem.take s.freeHead ++ le16 (6 + obj.length)) ++ (storedIdx name ++ (obj ++
        (s.mem.drop s.freeHead).drop (6 + obj.length))) := by rw [← hm']; simp [Rec.enc]
    unfold sub
    rw [h2, List.drop_left' (by rw [List.length_append, htl]; rfl), List.take_left' (storedIdx_length _)]
  · have h2 : m' = (s.mem.take s.freeHead ++ le16 (6 + obj.length) ++ storedIdx name) ++ (obj ++
        (s.mem.drop s.freeHead).drop (6 + obj.length)) := by rw [← hm']; simp [Rec.enc]
    unfold sub
    rw [h2, List.drop_left' (by rw [List.length_append, List.length_append, htl, storedIdx_length]; rfl),
      List.take_left' rfl]

/-- Entries below the free head are not disturbed by an append. -/
theorem hit_below {m m' : List Byte} {fh : Nat} (hb : ∀ i, i < fh → m'[i]? = m[i]?) {e : Nat × Nat} (he : e.1 + e.2 ≤ fh)
    (name : List Byte) (n : Nat) :
    hit m' name n e = hit m name n e ∧ (hit m name n e = true → sub m' (e.1 + 6) n = sub m (e.1 + 6) n) := by
  unfold hit
  by_cases h6 : e.2 = 6 + n
  · have : sub m' (e.1 + 2) 4 = sub m (e.1 + 2) 4 := sub_congr fun i _ hi => hb i (by omega)
    rw [this]
    exact ⟨rfl, fun _ => sub_congr fun i _ hi => hb i (by omega)⟩
  · simp [h6]

theorem view_below {m m' : List Byte} {fh a : Nat} {l : List (Nat × Nat)} (hw : WalkL m a l fh)
    (hb : ∀ i, i < fh → m'[i]? = m[i]?) (name : List Byte) (n : Nat) : view m' l name n = view m l name n := by
  unfold view
  rw [find_congr fun x hx => (hit_below hb (hw.mem x hx).2.1 name n).1]
  cases hf : l.find? (hit m name n) with
  | none => rfl
  | some e =>
    simp only [Option.map_some]
    rw [(hit_below hb (hw.mem e (List.mem_of_find?_eq_some hf)).2.1 name n).2 (List.find?_some hf)]

theorem view_append (m : List Byte) (l l' : List (Nat × Nat)) (name : List Byte) (n : Nat) :
    view m (l ++ l') name n = (view m l name n).or (view m l' name n) := by
  unfold view
  rw [List.find?_append]
  cases l.find? (hit m name n) <;> simp

theorem Opened.set_new {s : Store} {l : List (Nat × Nat)} (h : Opened s l) {name obj : List Byte}
    (hf : l.find? (hit s.mem name obj.length) = none) (hroom : s.freeHead + 6 + obj.length ≤ s.mem.length)
    (hsz : 6 + obj.length < 65536) :
    ∃ s', set s name obj = .ok (s', true) ∧ s'.freeHead = s.freeHead + (6 + obj.length) ∧
      s'.mem.length = s.mem.length ∧ Opened s' (l ++ [(s.freeHead, 6 + obj.length)]) ∧
      ∀ name' n', view s'.mem (l ++ [(s.freeHead, 6 + obj.length)]) name' n' = (view s.mem l name' n').or
        (if name'.length ≤ 4 ∧ storedIdx name' = storedIdx name ∧ n' = obj.length then some obj else none) := by
  have hidx : getIdx s name obj.length = .ok none := by
    unfold getIdx
    rw [getIdxLoop_list h.cap h.walk _ _ _ (by omega), hf]; rfl
  obtain ⟨m', h1, h2, h3, h4, h5, h6⟩ := append_record h.cap hidx hroom hsz
  have hcap := h.cap
  refine ⟨_, h1, rfl, h2, ⟨by simp only [h2]; exact h.cap, by simp only [h2]; omega, ?_, ?_⟩, ?_⟩
  · refine WalkL.append (b := s.freeHead) (h.walk.congr h2 fun e he => ?_) ?_
    · have := h.tail e he
      exact nodeSize_congr (h3 _ (by omega)) (h3 _ (by omega))
    · exact .cons _ _ _ _ (by simp only [h2]; omega) h4 (by omega) (by simp only [h2]; omega) (.nil _)
  · intro e he
    rcases List.mem_append.1 he with he | he
    · have := h.tail e he
      simp only; omega
    · rw [List.mem_singleton.1 he]; simp only; omega
  · intro name' n'
    rw [view_append, view_below h.walk h3]
    congr 1
    unfold view
    have : hit m' name' n' (s.freeHead, 6 + obj.length) =
        decide (name'.length ≤ 4 ∧ storedIdx name' = storedIdx name ∧ n' = obj.length) := by
      unfold hit
      simp only [h5]
      rw [Bool.eq_iff_iff, decide_eq_true_eq, decide_eq_true_eq]
      constructor
      · rintro ⟨a, b, c⟩; exact ⟨a, c.symm, by omega⟩
      · rintro ⟨a, b, c⟩; exact ⟨a, by omega, b.symm⟩
    rw [List.find?_cons, this]
    by_cases hk : name'.length ≤ 4 ∧ storedIdx name' = storedIdx name ∧ n' = obj.length
    · rw [if_pos hk, decide_eq_true hk]
      simp only [Option.map_some]
      rw [hk.2.2, h6]
    · rw [if_neg hk, decide_eq_false hk]
      rfl

/-! ### The map -/

/-- The map found in the region. -/
def found (s : Store) (l : List (Nat × Nat)) : AMap := ⟨fun k n => if k.length ≤ 4 then view s.mem l k n else none, s.freeHead⟩

/-- The storage answers like the map. -/
def Answers (s : Store) (a : AMap) : Prop :=
  ∃ l, Opened s l ∧ a.used = s.freeHead ∧ ∀ name n, name.length ≤ 4 → a.get name n = view s.mem l name n

theorem stripNul_length (name : List Byte) : (stripNul name).length ≤ name.length := by
  obtain ⟨k, hk⟩ := eq_stripNul_append name
  have := congrArg List.length hk
  rw [List.length_append] at this
  omega

theorem stripNul_idem (name : List Byte) : stripNul (stripNul name) = stripNul name := by
  obtain ⟨k, hk⟩ := eq_stripNul_append name
  have := stripNul_append_replicate (stripNul name) k
  rw [← hk] at this
  exact this.symm

theorem hit_strip (m name : List Byte) (n : Nat) (hn : name.length ≤ 4) : hit m (stripNul name) n = hit m name n := by
  have h4 := stripNul_length name
  funext e
  unfold hit
  rw [(storedIdx_eq_iff (a := stripNul name) (b := name) (by omega) hn).2 (stripNul_idem name)]
  simp [hn, show (stripNul name).length ≤ 4 by omega]

theorem Opened.answers {s : Store} {l : List (Nat × Nat)} (h : Opened s l) : Answers s (found s l) := by
  refine ⟨l, h, rfl, fun name n hn => ?_⟩
  have h4 := stripNul_length name
  simp only [found, AMap.get]
  rw [if_pos (by omega)]
  unfold view
  rw [hit_strip _ _ _ hn]

theorem answers_step {s : Store} {a : AMap} {cap : Nat} (h : Answers s a) (hc : s.mem.length = cap) (op : Op)
    (hop : op.Normal) (hr : op ≠ .reopen) :
    ∃ s', step s op = .ok (s', (a.step cap op).2) ∧ Answers s' (a.step cap op).1 ∧ s'.mem.length = cap := by
  obtain ⟨l, ho, hu, ha⟩ := h
  cases op with
  | reopen => exact absurd rfl hr
  | get name n =>
    simp only [Op.Normal] at hop
    exact ⟨s, by simp [step, AMap.step, ho.get, ha name n hop.1], ⟨l, ho, hu, ha⟩, hc⟩
  | set name obj =>
    simp only [Op.Normal] at hop
    have hg := ha name obj.length hop.1
    cases hf : l.find? (hit s.mem name obj.length) with
    | some e =>
      obtain ⟨s', h1, h2, h3, h4, h5⟩ := ho.set_hit hf
      have hs : a.set cap name obj = (⟨a.put name obj, a.used⟩, true) := by
        unfold AMap.set
        rw [if_pos (by rw [hg, view, hf]; rfl)]
      refine ⟨s', by simp [step, AMap.step, h1, hs], ⟨l, h4, by simp [AMap.step, hs, hu, h2], ?_⟩, by rw [h3, hc]⟩
      intro name' n' hn'
      rw [h5]
      simp only [AMap.step, hs, AMap.get, AMap.put, hn', true_and, storedIdx_eq_iff hn' hop.1]
      split
      · rfl
      · exact ha name' n' hn'
    | none =>
      have hnone : a.get name obj.length = none := by rw [hg, view, hf]; rfl
      by_cases hroom : s.freeHead + 6 + obj.length ≤ s.mem.length
      · obtain ⟨s', h1, h2, h3, h4, h5⟩ := ho.set_new hf hroom hop.2
        have hs : a.set cap name obj = (⟨a.put name obj, a.used + 6 + obj.length⟩, true) := by
          unfold AMap.set
          rw [if_neg (by rw [hnone]; simp), if_pos (by omega)]
        refine ⟨s', by simp [step, AMap.step, h1, hs],
          ⟨_, h4, by simp only [AMap.step, hs, hu, h2]; omega, ?_⟩, by rw [h3, hc]⟩
        intro name' n' hn'
        rw [h5]
        simp only [AMap.step, hs, AMap.get, AMap.put, hn', true_and, storedIdx_eq_iff hn' hop.1]
        have hold := ha name' n' hn'
        simp only [AMap.get] at hold
        by_cases hk : stripNul name' = stripNul name ∧ n' = obj.length
        · have : view s.mem l name' n' = none := by
            rw [← hold, hk.1, hk.2]; exact hnone
          rw [this]; simp [hk]
        · rw [if_neg hk, if_neg hk, hold, Option.or_none]
      · have hs : a.set cap name obj = (a, false) := by
          unfold AMap.set
          rw [if_neg (by rw [hnone]; simp), if_neg (by omega)]
        refine ⟨s, by simp [step, AMap.step, ho.set_full hf (by omega), hs], ?_, hc⟩
        exact ⟨l, ho, by simp [AMap.step, hs, hu], by simpa [AMap.step, hs] using ha⟩

theorem answers_run {s : Store} {a : AMap} {cap : Nat} (h : Answers s a) (hc : s.mem.length = cap) (ops : List Op)
    (hops : ∀ op ∈ ops, op.Normal ∧ op ≠ .reopen) :
    ∃ s', run s ops = .ok (s', (a.run cap ops).2) ∧ Answers s' (a.run cap ops).1 ∧ s'.mem.length = cap := by
  induction ops generalizing s a with
  | nil => exact ⟨s, rfl, h, hc⟩
  | cons op ops ih =>
    simp only [List.mem_cons, forall_eq_or_imp] at hops
    obtain ⟨s1, h1, h2, h3⟩ := answers_step h hc op hops.1.1 hops.1.2
    obtain ⟨s2, h4, h5, h6⟩ := ih h2 h3 hops.2
    exact ⟨s2, by simp [run, h1, h4, AMap.run], h5, h6⟩

theorem opened_of_create {m : List Byte} (hcap : CapOk m.length) {s : Store} (hs : create m false = .ok s)
    (htail : ¬ OneByteTail s) : ∃ l, Opened s l := by
  obtain ⟨s', h1, h2, h3, h4⟩ := open_total m hcap
  rw [hs] at h1; cases h1
  subst h2
  obtain ⟨l, hl⟩ := h4.list
  refine ⟨l, hcap, h3, hl, fun e he => ?_⟩
  -- the walk up to the entry
  have key : ∀ {a b : Nat} {l : List (Nat × Nat)}, WalkL s.mem a l b → e ∈ l →
      Walk s.mem a e.1 ∧ (e.1 + e.2 ≤ b) := by
    intro a b l hw hm
    induction hw with
    | nil a => simp at hm
    | cons a v b l g1 g2 g3 g4 g5 ih =>
      rcases List.mem_cons.1 hm with rfl | hm
      · exact ⟨.refl _, g5.le⟩
      · exact ⟨.step a v _ g1 g2 g3 g4 (ih hm).1, (ih hm).2⟩
  obtain ⟨k1, k2⟩ := key hl he
  obtain ⟨-, -, k3, -, k4, -⟩ := hl.mem e he
  by_cases h1 : e.1 + 1 = s.freeHead
  · exfalso
    apply htail
    refine ⟨by omega, ?_, ?_⟩
    · rw [show s.freeHead - 1 = e.1 by omega]; exact k1
    · rw [show s.freeHead - 1 = e.1 by omega, k3]
      congr 1; omega
  · omega

/-- **C80**: a storage opened over any memory whose last entry is not one byte long answers every history of `get` and
`set` calls like a bounded map; the initial contents of the map are what is found in the memory. -/
theorem arbitrary_refines_map_partial (m : List Byte) (hcap : CapOk m.length) (s : Store) (hs : create m false = .ok s)
    (htail : ¬ OneByteTail s) :
    ∃ a : AMap, a.used = s.freeHead ∧ (∀ name n, name.length ≤ 4 → get s name n = .ok (a.get name n)) ∧
      ∀ ops : List Op, (∀ op ∈ ops, op.Normal ∧ op ≠ .reopen) →
        ∃ s', run s ops = .ok (s', (a.run m.length ops).2) := by
  obtain ⟨l, ho⟩ := opened_of_create hcap hs htail
  have hm : s.mem = m := by
    obtain ⟨s', h1, h2, -⟩ := open_total m hcap
    rw [hs] at h1; cases h1; exact h2
  obtain ⟨l', ho', hu, ha⟩ := ho.answers
  refine ⟨found s l, rfl, fun name n hn => ?_, fun ops hops => ?_⟩
  · rw [ho'.get, ha name n hn]
  · obtain ⟨s', h1, -, -⟩ := answers_run (cap := m.length) ⟨l', ho', hu, ha⟩ (by rw [hm]) ops hops
    exact ⟨s', h1⟩

/-! ### Reopening -/

theorem openLoop_list {m : List Byte} (hcap : CapOk m.length) {a b : Nat} {l : List (Nat × Nat)} (hw : WalkL m a l b)
    (fuel : Nat) (hfuel : l.length ≤ fuel) : openLoop m fuel a = openLoop m (fuel - l.length) b := by
  induction hw generalizing fuel with
  | nil a => simp
  | cons a v b l h1 h2 h3 h4 h5 ih =>
    obtain ⟨f, rfl⟩ : ∃ f, fuel = f + 1 := ⟨fuel - 1, by simp at hfuel; omega⟩
    simp only [List.length_cons] at hfuel
    rw [openLoop, if_pos h1, h2]
    simp only [Res.bind_ok]
    simp only [CapOk] at hcap
    rw [add32_of_lt (by omega), if_pos ⟨h3, h4⟩, ih f (by omega), List.length_cons]
    congr 1; omega

theorem WalkL.length_le {m : List Byte} {a b : Nat} {l : List (Nat × Nat)} (h : WalkL m a l b) : l.length ≤ b - a := by
  induction h with
  | nil a => simp
  | cons a v b l h1 h2 h3 h4 h5 ih =>
    have := h5.le
    rw [List.length_cons]; omega

/-- **C80**: reopening finds all entries again, possibly followed by further ones; no readable object is lost or
changed. -/
theorem reopen_keeps {s s' : Store} {l : List (Nat × Nat)} (h : Opened s l) (hs : create s.mem false = .ok s') :
    s'.mem = s.mem ∧ s.freeHead ≤ s'.freeHead ∧ (∃ l', WalkL s'.mem 0 (l ++ l') s'.freeHead) ∧
      ∀ name n v, get s name n = .ok (some v) → get s' name n = .ok (some v) := by
  unfold create at hs
  simp only [Bool.false_eq_true, if_false] at hs
  have hlen := h.walk.length_le
  have hhead := h.head
  rw [openLoop_list h.cap h.walk _ (by omega)] at hs
  rw [Res.bind_eq_ok] at hs
  obtain ⟨fh, h1, h2⟩ := hs
  cases h2
  obtain ⟨hw, hle⟩ := openLoop_walk s.mem h.cap _ _ _ h.head h1
  obtain ⟨l', hl'⟩ := hw.list
  have hall := h.walk.append hl'
  refine ⟨rfl, hw.le, ⟨l', hall⟩, fun name n v hv => ?_⟩
  rw [h.get] at hv
  rw [get_list (s := ⟨s.mem, fh⟩) h.cap hall, view_append, Res.ok.inj hv]
  rfl

/-- No reopening in the history finds a one-byte entry at the end. -/
def TailsOk : Store → List Op → Prop
  | _, [] => True
  | s, op :: ops => ∀ s' o, step s op = .ok (s', o) → (op = .reopen → ¬ OneByteTail s') ∧ TailsOk s' ops

/-- The operation does not overwrite the object `(name, n)`. -/
def Op.Spares (name : List Byte) (n : Nat) : Op → Prop
  | .set name' obj => ¬(stripNul name' = stripNul name ∧ obj.length = n)
  | _ => True

theorem Opened.step {s : Store} {l : List (Nat × Nat)} (h : Opened s l) (op : Op) (hop : op.Normal)
    (ht : ∀ s' o, Storage.step s op = .ok (s', o) → op = .reopen → ¬ OneByteTail s') :
    ∃ s' o l', Storage.step s op = .ok (s', o) ∧ Opened s' l' ∧ s'.mem.length = s.mem.length ∧
      (∀ name n v, name.length ≤ 4 → op.Spares name n → Storage.get s name n = .ok (some v) → Storage.get s' name n = .ok (some v)) ∧
      (∀ name obj, op = .set name obj → o = .flag true → Storage.get s' name obj.length = .ok (some obj)) := by
  cases op with
  | get name n =>
    exact ⟨s, _, l, by simp [Storage.step, h.get]; rfl, h, rfl, fun _ _ _ _ _ hv => hv, fun _ _ e => by cases e⟩
  | reopen =>
    obtain ⟨s', h1, h2, h3, h4⟩ := open_total s.mem h.cap
    have hst : Storage.step s .reopen = .ok (s', .opened) := by simp [Storage.step, h1]
    obtain ⟨l', hl'⟩ := opened_of_create h.cap h1 (ht s' _ hst rfl)
    exact ⟨s', _, l', hst, hl', by rw [h2], fun name n v _ _ hv => (reopen_keeps h h1).2.2.2 name n v hv,
      fun _ _ e => by cases e⟩
  | set name obj =>
    simp only [Op.Normal] at hop
    cases hf : l.find? (hit s.mem name obj.length) with
    | some e =>
      obtain ⟨s', h1, h2, h3, h4, h5⟩ := h.set_hit hf
      refine ⟨s', .flag true, l, by simp [Storage.step, h1], h4, h3, fun name' n' v hn' hsp hv => ?_, fun name' obj' e _ => ?_⟩
      · rw [h.get] at hv
        rw [h4.get, h5, if_neg ?_]
        · exact hv
        · rintro ⟨-, k1, k2⟩
          exact hsp ⟨((storedIdx_eq_iff hn' hop.1).1 k1).symm, k2.symm⟩
      · cases e
        rw [h4.get, h5, if_pos ⟨hop.1, rfl, rfl⟩]
    | none =>
      by_cases hroom : s.freeHead + 6 + obj.length ≤ s.mem.length
      · obtain ⟨s', h1, h2, h3, h4, h5⟩ := h.set_new hf hroom hop.2
        refine ⟨s', .flag true, _, by simp [Storage.step, h1], h4, h3, fun name' n' v _ _ hv => ?_,
          fun name' obj' e _ => ?_⟩
        · rw [h.get] at hv
          rw [h4.get, h5, Res.ok.inj hv]; rfl
        · cases e
          rw [h4.get, h5, if_pos ⟨hop.1, rfl, rfl⟩]
          have : view s.mem l name obj.length = none := by rw [view, hf]; rfl
          rw [this]; rfl
      · exact ⟨s, .flag false, l, by simp [Storage.step, h.set_full hf (by omega)], h, rfl, fun _ _ _ _ _ hv => hv,
          fun _ _ _ e => by cases e⟩

/-- **C80** (and C04 with reopens): histories with reopens over arbitrary memory, as long as no reopening finds a
one-byte entry at the end: they are defined, and an object which can be read stays readable, unchanged, until it is
overwritten. -/
theorem arbitrary_keeps (s : Store) (l : List (Nat × Nat)) (h : Opened s l) (ops : List Op)
    (hops : ∀ op ∈ ops, op.Normal) (ht : TailsOk s ops) :
    ∃ s' outs, run s ops = .ok (s', outs) ∧ s'.mem.length = s.mem.length ∧
      ∀ name n v, name.length ≤ 4 → (∀ op ∈ ops, op.Spares name n) → get s name n = .ok (some v) →
        get s' name n = .ok (some v) := by
  induction ops generalizing s l with
  | nil => exact ⟨s, [], rfl, rfl, fun _ _ _ _ _ hv => hv⟩
  | cons op ops ih =>
    simp only [List.mem_cons, forall_eq_or_imp] at hops
    obtain ⟨s1, o, l1, h1, h2, h3, h4, -⟩ := h.step op hops.1 (fun s' o hs hr => (ht s' o hs).1 hr)
    obtain ⟨s2, outs, g1, g2, g3⟩ := ih s1 l1 h2 hops.2 (ht s1 o h1).2
    refine ⟨s2, o :: outs, by simp [run, h1, g1], by rw [g2, h3], fun name n v hn hsp hv => ?_⟩
    simp only [List.mem_cons, forall_eq_or_imp] at hsp
    exact g3 name n v hn hsp.2 (h4 name n v hn hsp.1 hv)

/-- **C80**: in particular an acknowledged object is read back after any further calls which do not overwrite it. -/
theorem arbitrary_get_after_set (m : List Byte) (hcap : CapOk m.length) (s : Store) (hs : create m false = .ok s)
    (htail : ¬ OneByteTail s) (before after : List Op) (name obj : List Byte)
    (hops : ∀ op ∈ before ++ .set name obj :: after, op.Normal) (ht : TailsOk s (before ++ .set name obj :: after))
    (hsp : ∀ op ∈ after, op.Spares name obj.length) :
    ∃ s1 s2 s3 o1 b o3, run s before = .ok (s1, o1) ∧ set s1 name obj = .ok (s2, b) ∧ run s2 after = .ok (s3, o3) ∧
      (b = true → get s3 name obj.length = .ok (some obj)) := by
  obtain ⟨l, ho⟩ := opened_of_create hcap hs htail
  clear hs htail hcap
  induction before generalizing s l with
  | nil =>
    simp only [List.nil_append, List.mem_cons, forall_eq_or_imp] at hops ht
    obtain ⟨s1, o, l1, h1, h2, h3, h4, h5⟩ := ho.step _ hops.1 (fun s' o hs hr => (ht s' o hs).1 hr)
    obtain ⟨s2, outs, g1, g2, g3⟩ := arbitrary_keeps s1 l1 h2 after hops.2 (ht s1 o h1).2
    simp only [Storage.step] at h1
    rw [Res.bind_eq_ok] at h1
    obtain ⟨⟨s1', b⟩, e1, e2⟩ := h1
    cases e2
    refine ⟨s, s1', s2, [], b, outs, rfl, e1, g1, fun hb => ?_⟩
    subst hb
    have hn : name.length ≤ 4 := by have := hops.1; simp only [Op.Normal] at this; exact this.1
    exact g3 name obj.length obj hn hsp (h5 name obj rfl rfl)
  | cons op before ih =>
    simp only [List.cons_append, List.mem_cons, forall_eq_or_imp] at hops ht
    obtain ⟨s1, o, l1, h1, h2, -⟩ := ho.step op hops.1 (fun s' o hs hr => (ht s' o hs).1 hr)
    obtain ⟨t1, t2, t3, o1, b, o3, g1, g2⟩ := ih s1 hops.2 (ht s1 o h1).2 l1 h2
    exact ⟨t1, t2, t3, o :: o1, b, o3, by simp [run, h1, g1], g2⟩

/-! ### One-byte entries at the end -/

theorem getIdxLoop_skipL {m : List Byte} (hcap : CapOk m.length) {pos q fh : Nat} {l : List (Nat × Nat)}
    (hw : WalkL m pos l q) (name : List Byte) (n fuel : Nat) (hno : ∀ e ∈ l, hit m name n e = false) (hq : q + 6 ≤ fh + 1)
    (hfuel : l.length ≤ fuel) : getIdxLoop m fh name n fuel pos = getIdxLoop m fh name n (fuel - l.length) q := by
  induction hw generalizing fuel with
  | nil a => simp
  | cons a v b l h1 h2 h3 h4 h5 ih =>
    obtain ⟨f, rfl⟩ : ∃ f, fuel = f + 1 := ⟨fuel - 1, by simp at hfuel; omega⟩
    simp only [List.length_cons] at hfuel
    have hle := h5.le
    rw [getIdxLoop, if_pos (by simp only [descSize]; omega), nodeMatches_hit h1 h2, hno (a, v) (by simp)]
    simp only [Res.bind_ok, Bool.false_eq_true, if_false, h2]
    simp only [CapOk] at hcap
    rw [add32_of_lt (by omega), ih f (fun e he => hno e (by simp [he])) hq (by omega), List.length_cons]
    congr 1; omega

theorem storedIdx_four (l : List Byte) (h : l.length = 4) : storedIdx l = l := by
  unfold storedIdx
  rw [h, List.take_of_length_le (by omega)]
  simp

/-- Adding an object behind a one-byte entry: the entry's size takes over the low byte of the size of the new record. -/
private theorem one_byte_append (m : List Byte) (hcap : CapOk m.length) (s : Store) (hs : create m false = .ok s)
    (htail : OneByteTail s) (name obj : List Byte) (hsz : 6 + obj.length < 65536)
    (hnew : get s name obj.length = .ok none) (hroom : s.freeHead + 6 + obj.length ≤ m.length) :
    ∃ m' l1, set s name obj = .ok (⟨m', s.freeHead + (6 + obj.length)⟩, true) ∧ m'.length = m.length ∧ 1 ≤ s.freeHead ∧
      nodeSize m' s.freeHead = .ok (6 + obj.length) ∧ sub m' (s.freeHead + 2) 4 = storedIdx name ∧
      sub m' (s.freeHead + 6) obj.length = obj ∧
      nodeSize m' (s.freeHead - 1) = .ok (1 + 256 * ((6 + obj.length) % 256)) ∧ WalkL m' 0 l1 (s.freeHead - 1) ∧
      (∀ e ∈ l1, hit m' name obj.length e = false) := by
  obtain ⟨s0, h1, h2, h3, h4⟩ := open_total m hcap
  rw [hs] at h1; cases h1
  subst h2
  obtain ⟨t1, t2, t3⟩ := htail
  obtain ⟨l1, hl1⟩ := t2.list
  have hfh : s.freeHead - 1 + 1 = s.freeHead := by omega
  have hl : WalkL s.mem 0 (l1 ++ [(s.freeHead - 1, 1)]) s.freeHead := by
    refine hl1.append ?_
    have := WalkL.cons (m := s.mem) (s.freeHead - 1) 1 s.freeHead [] (by omega) t3 (by omega) (by omega)
      (by rw [hfh]; exact .nil _)
    exact this
  have hnone : ∀ e ∈ l1, hit s.mem name obj.length e = false := by
    rw [get_list hcap hl] at hnew
    have hv := Res.ok.inj hnew
    unfold view at hv
    rw [Option.map_eq_none_iff, List.find?_eq_none] at hv
    intro e he
    simpa using hv e (by simp [he])
  have hidx : getIdx s name obj.length = .ok none := by
    unfold getIdx
    rw [getIdxLoop_list hcap hl _ _ _ (by omega)]
    rw [get_list hcap hl] at hnew
    have hv := Res.ok.inj hnew
    unfold view at hv
    rw [Option.map_eq_none_iff] at hv
    rw [hv]; rfl
  obtain ⟨m', g1, g2, g3, g4, g5, g6⟩ := append_record hcap hidx hroom (by omega)
  -- the size of the last entry found has grown
  have hbig : nodeSize m' (s.freeHead - 1) = .ok (1 + 256 * ((6 + obj.length) % 256)) := by
    unfold nodeSize at t3 g4 ⊢
    rw [hfh] at t3 ⊢
    rw [g3 _ (by omega)]
    cases ha : s.mem[s.freeHead - 1]? with
    | none => rw [ha] at t3; simp at t3
    | some a =>
      cases hb : s.mem[s.freeHead]? with
      | none => rw [ha, hb] at t3; simp at t3
      | some b =>
        cases hc : m'[s.freeHead]? with
        | none => rw [hc] at g4; simp at g4
        | some c =>
          cases hd : m'[s.freeHead + 1]? with
          | none => rw [hc, hd] at g4; simp at g4
          | some d =>
            rw [ha, hb] at t3
            rw [hc, hd] at g4
            simp only [Res.ofOption_some, Res.bind_ok, Res.ok.injEq] at t3 g4 ⊢
            have := c.isLt
            omega
  have hw1 : WalkL m' 0 l1 (s.freeHead - 1) := by
    refine hl1.congr g2 fun e he => ?_
    have := hl1.mem e he
    exact nodeSize_congr (g3 _ (by omega)) (g3 _ (by omega))
  exact ⟨m', l1, g1, g2, Nat.one_le_iff_ne_zero.2 t1, g4, g5, g6, hbig, hw1, fun e he => by
    rw [(hit_below g3 (by have := hl1.mem e he; omega) name obj.length).1]; exact hnone e he⟩

/-- **C04, C80 (finding)**: in every region whose last entry is one byte long, an object that is not there yet is
acknowledged and cannot be read if the low byte of its record size is large enough for the jump over the whole record (all
objects of up to 249 bytes, for instance); and in a region no larger than the jump there is a look-up which reads outside
of the region.  (With 251 bytes the grown entry has the size of the new one, see `one_byte_tail_shifted`.) -/
theorem one_byte_tail_breaks (m : List Byte) (hcap : CapOk m.length) (s : Store) (hs : create m false = .ok s)
    (htail : OneByteTail s) (name obj : List Byte) (hsz : 6 + obj.length < 65536)
    (hjump : obj.length < 256 * ((6 + obj.length) % 256)) (h251 : obj.length ≠ 251)
    (hnew : get s name obj.length = .ok none) (hroom : s.freeHead + 6 + obj.length ≤ m.length) :
    ∃ s', set s name obj = .ok (s', true) ∧ get s' name obj.length = .ok none ∧
      (m.length ≤ 256 * ((6 + obj.length) % 256) → ∃ name' n, name'.length = 4 ∧ get s' name' n = .ub) := by
  obtain ⟨m', l1, g1, g2, t1, g4, g5, g6, hbig, hw1, hnone⟩ := one_byte_append m hcap s hs htail name obj hsz hnew hroom
  generalize hlo : (6 + obj.length) % 256 = lo at *
  have hcap' : CapOk m'.length := by rw [g2]; exact hcap
  have hlen1 := hw1.length_le
  -- the walk of a look-up
  have step : ∀ nm n, (∀ e ∈ l1, hit m' nm n e = false) →
      getIdx ⟨m', s.freeHead + (6 + obj.length)⟩ nm n =
        .ok (if hit m' nm n (s.freeHead - 1, 1 + 256 * lo) then some (s.freeHead - 1) else none) := by
    intro nm n hno
    unfold getIdx
    simp only
    rw [getIdxLoop_skipL hcap' hw1 nm n _ hno (by omega) (by omega)]
    obtain ⟨f, hf⟩ : ∃ f, s.freeHead + (6 + obj.length) + 1 - l1.length = f + 2 :=
      ⟨s.freeHead + (6 + obj.length) + 1 - l1.length - 2, by omega⟩
    simp only [hf]
    rw [getIdxLoop, if_pos (by simp only [descSize]; omega), nodeMatches_hit (by omega) hbig]
    cases hit m' nm n (s.freeHead - 1, 1 + 256 * lo) with
    | true => rfl
    | false =>
      simp only [Res.bind_ok, Bool.false_eq_true, if_false, hbig]
      have hc := hcap
      simp only [CapOk] at hc
      rw [add32_of_lt (by omega), getIdxLoop, if_neg (by simp only [descSize]; omega)]
  refine ⟨_, g1, ?_, ?_⟩
  · unfold get
    rw [step name obj.length hnone]
    have : hit m' name obj.length (s.freeHead - 1, 1 + 256 * lo) = false := by
      unfold hit; rw [decide_eq_false_iff_not]; simp only; omega
    rw [this]; rfl
  · intro hsmall
    refine ⟨sub m' (s.freeHead - 1 + 2) 4, 1 + 256 * lo - 6, sub_length (by omega), ?_⟩
    have hn4 : (sub m' (s.freeHead - 1 + 2) 4).length = 4 := sub_length (by omega)
    have hyes : hit m' (sub m' (s.freeHead - 1 + 2) 4) (1 + 256 * lo - 6) (s.freeHead - 1, 1 + 256 * lo) = true := by
      unfold hit
      rw [decide_eq_true_eq]
      exact ⟨by omega, by simp only; omega, (storedIdx_four _ hn4).symm⟩
    unfold get
    rw [step _ _ (fun e he => ?_), hyes]
    · simp only [if_true, Res.bind_ok]
      rw [nodeMatches_hit (by omega) hbig, hyes]
      simp only [Res.bind_ok, if_true]
      unfold readN
      rw [if_neg (by simp only [descSize]; omega)]
      rfl
    · have := hw1.mem e he
      unfold hit; rw [decide_eq_false_iff_not]; omega

/-- **C80**: objects whose record size is a multiple of 256 are kept even there: the one-byte entry stays what it was. -/
theorem one_byte_tail_kept (m : List Byte) (hcap : CapOk m.length) (s : Store) (hs : create m false = .ok s)
    (htail : OneByteTail s) (name obj : List Byte) (hn : name.length ≤ 4) (hsz : 6 + obj.length < 65536)
    (hmul : (6 + obj.length) % 256 = 0) (hnew : get s name obj.length = .ok none)
    (hroom : s.freeHead + 6 + obj.length ≤ m.length) :
    ∃ s', set s name obj = .ok (s', true) ∧ get s' name obj.length = .ok (some obj) := by
  obtain ⟨m', l1, g1, g2, t1, g4, g5, g6, hbig, hw1, hnone⟩ := one_byte_append m hcap s hs htail name obj hsz hnew hroom
  rw [hmul] at hbig
  refine ⟨_, g1, ?_⟩
  have hfh : s.freeHead - 1 + 1 = s.freeHead := by omega
  have hw : WalkL m' 0 (l1 ++ [(s.freeHead - 1, 1), (s.freeHead, 6 + obj.length)]) (s.freeHead + (6 + obj.length)) := by
    refine hw1.append (.cons _ 1 _ _ (by omega) hbig (by omega) (by omega) ?_)
    rw [hfh]
    exact .cons _ _ _ _ (by omega) g4 (by omega) (by omega) (.nil _)
  rw [get_list (s := ⟨m', s.freeHead + (6 + obj.length)⟩) (by rw [g2]; exact hcap) hw]
  unfold view
  rw [List.find?_append, List.find?_eq_none.2 (fun e he => by rw [hnone e he]; exact Bool.false_ne_true)]
  have h1 : hit m' name obj.length (s.freeHead - 1, 1) = false := by
    unfold hit; rw [decide_eq_false_iff_not]; simp only; omega
  have h2 : hit m' name obj.length (s.freeHead, 6 + obj.length) = true := by
    unfold hit; rw [decide_eq_true_eq]; exact ⟨hn, rfl, g5⟩
  simp only [Option.none_or, List.find?_cons, h1, h2, Option.map_some, g6]

/-- **C80 (finding)**: for all other sizes there are objects which are not kept.  If the jump does not lead over the record,
it leads into the object's own bytes: for an object of zeros every later look-up of it never ends. -/
theorem one_byte_tail_hangs (m : List Byte) (hcap : CapOk m.length) (s : Store) (hs : create m false = .ok s)
    (htail : OneByteTail s) (name : List Byte) (n : Nat) (hsz : 6 + n < 65536) (hlow : (6 + n) % 256 ≠ 0)
    (hjump : 256 * ((6 + n) % 256) ≤ n) (hnew : get s name n = .ok none) (hroom : s.freeHead + 6 + n ≤ m.length) :
    ∃ s', set s name (List.replicate n 0) = .ok (s', true) ∧ get s' name n = .hang := by
  obtain ⟨obj, hobj⟩ : ∃ obj : List Byte, obj = List.replicate n 0 := ⟨_, rfl⟩
  have hol : n = obj.length := by rw [hobj, List.length_replicate]
  rw [← hobj]
  have hz : ∀ i, i < n → obj[i]? = some 0 := by
    intro i hi
    rw [hobj, List.getElem?_replicate, if_pos hi]
  subst hol
  obtain ⟨m', l1, g1, g2, t1, g4, g5, g6, hbig, hw1, hnone⟩ := one_byte_append m hcap s hs htail name obj hsz hnew hroom
  generalize hlo : (6 + obj.length) % 256 = lo at *
  have hcap' : CapOk m'.length := by rw [g2]; exact hcap
  have hlen1 := hw1.length_le
  have hc := hcap
  simp only [CapOk] at hc
  have hdata : ∀ i, i < obj.length → m'[s.freeHead + 6 + i]? = some 0 := by
    intro i hi
    have := congrArg (fun l => l[i]?) g6
    simp only [hz i hi] at this
    unfold sub at this
    rw [List.getElem?_take, if_pos hi, List.getElem?_drop] at this
    exact this
  have hzero : nodeSize m' (s.freeHead + 256 * lo) = .ok 0 := by
    unfold nodeSize
    have e1 := hdata (256 * lo - 6) (by omega)
    have e2 := hdata (256 * lo - 5) (by omega)
    have a1 : s.freeHead + 6 + (256 * lo - 6) = s.freeHead + 256 * lo := by omega
    have a2 : s.freeHead + 6 + (256 * lo - 5) = s.freeHead + 256 * lo + 1 := by omega
    rw [a1] at e1
    rw [a2] at e2
    rw [e1, e2]
    rfl
  refine ⟨_, g1, ?_⟩
  have loop : ∀ fuel, getIdxLoop m' (s.freeHead + (6 + obj.length)) name obj.length fuel (s.freeHead + 256 * lo) = .hang := by
    intro fuel
    induction fuel with
    | zero => rfl
    | succ f ih =>
      rw [getIdxLoop, if_pos (by simp only [descSize]; omega), nodeMatches_hit (by omega) hzero]
      have : hit m' name obj.length (s.freeHead + 256 * lo, 0) = false := by
        unfold hit; rw [decide_eq_false_iff_not]; simp only; omega
      simp only [this, Res.bind_ok, Bool.false_eq_true, if_false, hzero]
      rw [add32_of_lt (by omega), Nat.add_zero]
      exact ih
  unfold get getIdx
  simp only
  rw [getIdxLoop_skipL hcap' hw1 name obj.length _ hnone (by omega) (by omega)]
  obtain ⟨f, hf⟩ : ∃ f, s.freeHead + (6 + obj.length) + 1 - l1.length = f + 1 :=
    ⟨s.freeHead + (6 + obj.length) + 1 - l1.length - 1, by omega⟩
  rw [hf, getIdxLoop, if_pos (by simp only [descSize]; omega), nodeMatches_hit (by omega) hbig]
  have : hit m' name obj.length (s.freeHead - 1, 1 + 256 * lo) = false := by
    unfold hit; rw [decide_eq_false_iff_not]; simp only; omega
  simp only [this, Res.bind_ok, Bool.false_eq_true, if_false, hbig]
  rw [add32_of_lt (by omega)]
  have a : s.freeHead - 1 + (1 + 256 * lo) = s.freeHead + 256 * lo := by omega
  rw [a, loop]
  rfl

/-- **C80 (finding)**: an object of 251 bytes named "\x01\x01\x01\x01" is read back shifted by one byte, one of another
name is lost. -/
theorem one_byte_tail_shifted (m : List Byte) (hcap : CapOk m.length) (s : Store) (hs : create m false = .ok s)
    (htail : OneByteTail s) (name obj : List Byte) (hn : name.length ≤ 4) (h251 : obj.length = 251)
    (hnew : get s name obj.length = .ok none) (hroom : s.freeHead + 6 + obj.length ≤ m.length) :
    ∃ s', set s name obj = .ok (s', true) ∧
      get s' name obj.length = .ok (if name = [1, 1, 1, 1] then some (1 :: obj.take 250) else none) := by
  obtain ⟨m', l1, g1, g2, t1, g4, g5, g6, hbig, hw1, hnone⟩ := one_byte_append m hcap s hs htail name obj (by omega) hnew hroom
  have hlo : 1 + 256 * ((6 + obj.length) % 256) = 257 := by omega
  rw [hlo] at hbig
  have hcap' : CapOk m'.length := by rw [g2]; exact hcap
  have hlen1 := hw1.length_le
  refine ⟨_, g1, ?_⟩
  have hfh : s.freeHead - 1 + 1 = s.freeHead := by omega
  have hc := hcap
  simp only [CapOk] at hc
  -- the bytes of the grown entry
  obtain ⟨a, b, c, d, hidx⟩ : ∃ a b c d, storedIdx name = [a, b, c, d] := by
    have h4 := storedIdx_length name
    match storedIdx name, h4 with
    | [a, b, c, d], _ => exact ⟨a, b, c, d, rfl⟩
  have hb1 : m'[s.freeHead + 1]? = some 1 := by
    unfold nodeSize at g4
    cases h0 : m'[s.freeHead]? with
    | none => rw [h0] at g4; simp at g4
    | some u =>
      cases h1 : m'[s.freeHead + 1]? with
      | none => rw [h0, h1] at g4; simp at g4
      | some v =>
        rw [h0, h1] at g4
        simp only [Res.ofOption_some, Res.bind_ok, Res.ok.injEq] at g4
        have := u.isLt
        congr 1
        apply BitVec.eq_of_toNat_eq
        show v.toNat = 1
        omega
  have hsub : ∀ p n (bs : List Byte), sub m' p n = bs → ∀ i, i < n → m'[p + i]? = bs[i]? := by
    intro p n bs h i hi
    rw [← h]
    unfold sub
    rw [List.getElem?_take, if_pos hi, List.getElem?_drop]
  have k0 := hsub _ _ _ g5 0 (by omega)
  have k1 := hsub _ _ _ g5 1 (by omega)
  have k2 := hsub _ _ _ g5 2 (by omega)
  have k3 := hsub _ _ _ g5 3 (by omega)
  rw [hidx] at k0 k1 k2 k3
  have hent : sub m' (s.freeHead - 1 + 2) 4 = [1, a, b, c] := by
    apply List.ext_getElem?
    intro i
    unfold sub
    rw [List.getElem?_take]
    split
    · rename_i hi
      rw [List.getElem?_drop]
      have : i = 0 ∨ i = 1 ∨ i = 2 ∨ i = 3 := by omega
      rcases this with rfl | rfl | rfl | rfl
      · rw [show s.freeHead - 1 + 2 + 0 = s.freeHead + 1 by omega, hb1]; rfl
      · rw [show s.freeHead - 1 + 2 + 1 = s.freeHead + 2 + 0 by omega, k0]; rfl
      · rw [show s.freeHead - 1 + 2 + 2 = s.freeHead + 2 + 1 by omega, k1]; rfl
      · rw [show s.freeHead - 1 + 2 + 3 = s.freeHead + 2 + 2 by omega, k2]; rfl
    · rename_i hi
      rw [List.getElem?_eq_none]
      simp only [List.length_cons, List.length_nil]; omega
  have hname : name = [1, 1, 1, 1] ↔ [1, a, b, c] = [a, b, c, d] := by
    constructor
    · rintro rfl
      injection hidx with e1 e2
      injection e2 with e2 e3
      injection e3 with e3 e4
      injection e4 with e4 e5
      subst e1 e2 e3 e4
      rfl
    · intro h
      injection h with e1 h
      injection h with e2 h
      injection h with e3 h
      injection h with e4 h
      subst e1 e2 e3 e4
      have h4 : name.length = 4 := by
        refine Decidable.byContradiction fun hne => ?_
        have hr : (4 - name.length) ≠ 0 := by omega
        have hz : (0 : Byte) ∈ storedIdx name := by
          unfold storedIdx
          exact List.mem_append.2 (.inr (List.mem_replicate.2 ⟨hr, rfl⟩))
        rw [hidx] at hz
        revert hz
        decide
      rw [storedIdx_four _ h4] at hidx
      exact hidx
  have hhit : hit m' name obj.length (s.freeHead - 1, 257) = decide (name = [1, 1, 1, 1]) := by
    unfold hit
    rw [decide_eq_decide, hent, hidx, hname]
    simp only
    constructor
    · exact fun h => h.2.2
    · exact fun h => ⟨hn, by omega, h⟩
  have step : getIdx ⟨m', s.freeHead + (6 + obj.length)⟩ name obj.length =
      .ok (if name = [1, 1, 1, 1] then some (s.freeHead - 1) else none) := by
    unfold getIdx
    simp only
    rw [getIdxLoop_skipL hcap' hw1 name obj.length _ hnone (by omega) (by omega)]
    obtain ⟨f, hf⟩ : ∃ f, s.freeHead + (6 + obj.length) + 1 - l1.length = f + 2 :=
      ⟨s.freeHead + (6 + obj.length) + 1 - l1.length - 2, by omega⟩
    rw [hf, getIdxLoop, if_pos (by simp only [descSize]; omega), nodeMatches_hit (by omega) hbig, hhit]
    by_cases he : name = [1, 1, 1, 1]
    · rw [decide_eq_true he, if_pos he]; rfl
    · rw [decide_eq_false he, if_neg he]
      simp only [Res.bind_ok, Bool.false_eq_true, if_false, hbig]
      rw [add32_of_lt (by omega), getIdxLoop, if_neg (by simp only [descSize]; omega)]
  unfold get
  rw [step]
  by_cases he : name = [1, 1, 1, 1]
  · rw [if_pos he, if_pos he]
    simp only [Res.bind_ok]
    rw [nodeMatches_hit (by omega) hbig, hhit, decide_eq_true he]
    simp only [Res.bind_ok, if_true]
    unfold readN
    rw [if_pos (by simp only [descSize]; omega)]
    simp only [Res.bind_ok]
    congr 2
    have hd : d = 1 := by
      have := hname.1 he
      injection this with e1 h
      injection h with e2 h
      injection h with e3 h
      injection h with e4 h
      rw [← e4, ← e3, ← e2, ← e1]
    subst hd
    apply List.ext_getElem?
    intro i
    rw [List.getElem?_take, List.getElem?_drop]
    split
    · rename_i hi
      cases i with
      | zero => rw [show s.freeHead - 1 + descSize + 0 = s.freeHead + 2 + 3 by simp only [descSize]; omega, k3]; rfl
      | succ i =>
        rw [show s.freeHead - 1 + descSize + (i + 1) = s.freeHead + 6 + i by simp only [descSize]; omega,
          hsub _ _ _ g6 i (by omega), List.getElem?_cons_succ, List.getElem?_take, if_pos (by omega)]
    · rw [List.getElem?_eq_none]
      rw [List.length_cons, List.length_take]; omega
  · rw [if_neg he, if_neg he]; rfl

/-! ### Examples -/

/-- Garbage with entries of 3, 7 and 8 bytes; the last of them is an object of two bytes. -/
def garbage : List Byte := [3, 0, 9, 7, 0, 1, 2, 3, 4, 5, 8, 0, 0x61, 0, 0, 0, 1, 2, 0, 0, 0, 7, 7, 7, 7, 7, 7, 7, 7, 7]

example : ∃ s, create garbage false = .ok s ∧ s.freeHead = 18 ∧ ¬ OneByteTail s ∧
    get s [0x61] 2 = .ok (some [1, 2]) ∧
    (do let (s, b) ← set s [0x62] [5]; let v ← get s [0x62] 1; let w ← get s [0x61] 2; .ok (b, v, w)) =
      .ok (true, some [5], some [1, 2]) := by
  refine ⟨⟨garbage, 18⟩, by decide, rfl, ?_, by decide, by decide⟩
  rintro ⟨-, -, h⟩
  exact absurd h (by decide)

example : ∃ s, create (List.replicate 12 0 ++ 1 :: List.replicate 20 0) false = .ok s ∧ s.freeHead = 0 := ⟨_, rfl, rfl⟩

/-- The hypotheses of `one_byte_tail_breaks` are met by a region of 20 bytes starting with 1, 0. -/
example : ∃ s s', create (1 :: List.replicate 19 0) false = .ok s ∧ OneByteTail s ∧ get s [0x61] 2 = .ok none ∧
    set s [0x61] [1, 2] = .ok (s', true) ∧ get s' [0x61] 2 = .ok none := by
  refine ⟨⟨1 :: List.replicate 19 0, 1⟩, ⟨1 :: 8 :: 0 :: 0x61 :: 0 :: 0 :: 0 :: 1 :: 2 :: List.replicate 11 0, 9⟩, by decide,
    ⟨by decide, .refl 0, by decide⟩, by decide, by decide, by decide⟩

/-- Behind a one-byte entry an object of 250 bytes is kept. -/
example : OneByteTail ⟨1 :: List.replicate 299 0, 1⟩ ∧ (6 + (List.replicate 250 (7 : Byte)).length) % 256 = 0 ∧
    create (1 :: List.replicate 299 0) false = .ok ⟨1 :: List.replicate 299 0, 1⟩ ∧
    get ⟨1 :: List.replicate 299 0, 1⟩ [0x61] 250 = .ok none := by
  refine ⟨⟨by decide, .refl 0, by decide⟩, by rw [List.length_replicate], ?_, ?_⟩
  · decide +kernel
  · decide +kernel

end Verif.Storage
