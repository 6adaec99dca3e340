import Verif.Storage.Lemmas2
/-!
# C04: opening arbitrary memory

The region may hold anything.  `create m false` walks over the size fields it finds.
-/
namespace Verif.Storage

/-- The positions the constructor's walk goes through from `a` to `b`: at each one there is a
complete descriptor with a non-zero size that stays inside the region. -/
inductive Walk (m : List Byte) : Nat → Nat → Prop where
  | refl (a : Nat) : Walk m a a
  | step (a v b : Nat) : a + 6 ≤ m.length → nodeSize m a = .ok v → v ≠ 0 → a + v ≤ m.length →
      Walk m (a + v) b → Walk m a b

/-- The last entry of the walk is one byte long, so that its size field reaches into the free area. -/
def OneByteTail (s : Store) : Prop :=
  s.freeHead ≠ 0 ∧ Walk s.mem 0 (s.freeHead - 1) ∧ nodeSize s.mem (s.freeHead - 1) = .ok 1

/-- As `Walk`, but with all size fields below `lim`. -/
inductive Seg (m : List Byte) (lim : Nat) : Nat → Nat → Prop where
  | refl (a : Nat) : Seg m lim a a
  | step (a v b : Nat) : a + 2 ≤ lim → nodeSize m a = .ok v → v ≠ 0 → Seg m lim (a + v) b →
      Seg m lim a b

theorem Seg.le {m lim a b} (h : Seg m lim a b) : a ≤ b := by
  induction h with
  | refl a => omega
  | step a v b _ _ _ _ ih => omega

theorem Seg.trans {m lim a b c} (h : Seg m lim a b) (h' : Seg m lim b c) : Seg m lim a c := by
  induction h with
  | refl a => exact h'
  | step a v b h1 h2 h3 _ ih => exact .step a v c h1 h2 h3 (ih h')

theorem Seg.mono {m lim lim' a b} (h : Seg m lim a b) (hl : lim ≤ lim') : Seg m lim' a b := by
  induction h with
  | refl a => exact .refl a
  | step a v b h1 h2 h3 _ ih => exact .step a v b (by omega) h2 h3 ih

theorem Seg.congr {m m' : List Byte} {lim a b : Nat} (h : Seg m lim a b)
    (heq : ∀ i, a ≤ i → i < lim → i ≤ b → m'[i]? = m[i]?) : Seg m' lim a b := by
  induction h with
  | refl a => exact .refl a
  | step a v b h1 h2 h3 h4 ih =>
    have := h4.le
    refine .step a v b h1 ?_ h3 (ih fun i hi hl hb => heq i (by omega) hl hb)
    unfold nodeSize
    rw [heq a (by omega) (by omega) (by omega), heq (a + 1) (by omega) (by omega) (by omega)]
    exact h2

theorem Walk.le {m a b} (h : Walk m a b) : a ≤ b := by
  induction h with
  | refl a => omega
  | step a v b _ _ _ _ _ ih => omega

theorem Walk.trans_step {m a b v} (h : Walk m a b) (h6 : b + 6 ≤ m.length)
    (hv : nodeSize m b = .ok v) (h0 : v ≠ 0) (hl : b + v ≤ m.length) : Walk m a (b + v) := by
  induction h with
  | refl a => exact .step a v _ h6 hv h0 hl (.refl _)
  | step a w b g1 g2 g3 g4 _ ih => exact .step a w _ g1 g2 g3 g4 (ih h6 hv hl)

theorem openLoop_walk (m : List Byte) (hcap : CapOk m.length) (fuel fh fh' : Nat)
    (hfh : fh ≤ m.length) (h : openLoop m fuel fh = .ok fh') : Walk m fh fh' ∧ fh' ≤ m.length := by
  induction fuel generalizing fh with
  | zero => cases h
  | succ f ih =>
    rw [openLoop] at h
    split at h
    · rename_i h6
      simp only [descSize] at h6
      obtain ⟨v, hv, hlt⟩ := nodeSize_ok m fh (by omega)
      simp only [hv, Res.bind_ok] at h
      simp only [CapOk] at hcap
      rw [add32_of_lt (by omega)] at h
      split at h
      · rename_i hc
        obtain ⟨h1, h2⟩ := ih _ hc.2 h
        exact ⟨.step fh v fh' h6 hv hc.1 hc.2 h1, h2⟩
      · cases h; exact ⟨.refl _, hfh⟩
    · cases h; exact ⟨.refl _, hfh⟩

/-- All size fields of a walk are below its end, unless its last entry is one byte long. -/
theorem Walk.seg {m : List Byte} {a b : Nat} (h : Walk m a b)
    (htail : ∀ p, Walk m a p → p + 1 = b → nodeSize m p ≠ .ok 1) : Seg m b a b := by
  induction h with
  | refl a => exact .refl a
  | step a v b h1 h2 h3 h4 h5 ih =>
    have hle := h5.le
    refine .step a v b ?_ h2 h3 (ih fun p hp he => htail p (.step a v p h1 h2 h3 h4 hp) he)
    by_cases hv : v = 1
    · subst hv
      by_cases hb : a + 1 = b
      · exact absurd h2 (htail a (.refl a) hb)
      · omega
    · omega

/-! ## Look-up on arbitrary memory -/

/-- On a walked region a look-up ends without undefined behaviour; a position it returns is an
entry of the walk whose data lie below the free head.  (Also when the last entry is one byte.) -/
theorem getIdxLoop_walk (m : List Byte) (hcap : CapOk m.length) (fh : Nat)
    (name : List Byte) (n fuel pos : Nat) (hw : Walk m pos fh) (hfuel : fh - pos < fuel) :
    getIdxLoop m fh name n fuel pos = .ok none ∨
    ∃ p, getIdxLoop m fh name n fuel pos = .ok (some p) ∧ Walk m pos p ∧
      nodeMatches m p name n = .ok true ∧ nodeSize m p = .ok (6 + n) ∧ Walk m (p + (6 + n)) fh ∧
      p + (6 + n) ≤ fh := by
  induction fuel generalizing pos with
  | zero => omega
  | succ f ih =>
    rw [getIdxLoop]
    split
    · rename_i h6
      simp only [descSize] at h6
      cases hw with
      | refl => omega
      | step _ v _ h1 h2 h3 h4 h5 =>
        obtain ⟨b, hb, hb2⟩ := nodeMatches_ok m pos name n (by omega)
        have hle := h5.le
        rw [hb]
        cases b with
        | true =>
          right
          have hv : v = 6 + n := Res.ok.inj (h2.symm.trans (hb2 rfl))
          subst hv
          exact ⟨pos, rfl, .refl _, hb, h2, h5, by omega⟩
        | false =>
          simp only [Res.bind_ok, Bool.false_eq_true, if_false, h2]
          simp only [CapOk] at hcap
          rw [add32_of_lt (by omega)]
          rcases ih (pos + v) h5 (by omega) with h | ⟨p, g1, g2, g3⟩
          · left; exact h
          · right; exact ⟨p, g1, .step pos v p h1 h2 h3 h4 g2, g3⟩
    · left; rfl

/-- As above for `Seg` (the invariant that survives writes). -/
theorem getIdxLoop_seg (m : List Byte) (hcap : CapOk m.length) (fh : Nat) (hfh : fh ≤ m.length)
    (name : List Byte) (n fuel pos : Nat) (hw : Seg m fh pos fh) (hfuel : fh - pos < fuel) :
    getIdxLoop m fh name n fuel pos = .ok none ∨
    ∃ p, getIdxLoop m fh name n fuel pos = .ok (some p) ∧ Seg m fh pos p ∧
      nodeMatches m p name n = .ok true ∧ nodeSize m p = .ok (6 + n) ∧ Seg m fh (p + (6 + n)) fh ∧
      p + (6 + n) ≤ fh := by
  induction fuel generalizing pos with
  | zero => omega
  | succ f ih =>
    rw [getIdxLoop]
    split
    · rename_i h6
      simp only [descSize] at h6
      cases hw with
      | refl => omega
      | step _ v _ h1 h2 h3 h5 =>
        obtain ⟨b, hb, hb2⟩ := nodeMatches_ok m pos name n (by omega)
        have hle := h5.le
        rw [hb]
        cases b with
        | true =>
          right
          have hv : v = 6 + n := Res.ok.inj (h2.symm.trans (hb2 rfl))
          subst hv
          exact ⟨pos, rfl, .refl _, hb, h2, h5, by omega⟩
        | false =>
          simp only [Res.bind_ok, Bool.false_eq_true, if_false, h2]
          simp only [CapOk] at hcap
          rw [add32_of_lt (by omega)]
          rcases ih (pos + v) h5 (by omega) with h | ⟨p, g1, g2, g3⟩
          · left; exact h
          · right; exact ⟨p, g1, .step pos v p h1 h2 h3 g2, g3⟩
    · left; rfl

/-- The invariant of a storage over arbitrary memory. -/
structure Sound (s : Store) : Prop where
  cap : CapOk s.mem.length
  head : s.freeHead ≤ s.mem.length
  seg : Seg s.mem s.freeHead 0 s.freeHead

theorem Sound.get_ok {s : Store} (h : Sound s) (name : List Byte) (n : Nat) :
    ∃ v, get s name n = .ok v := by
  unfold get getIdx
  rcases getIdxLoop_seg s.mem h.cap s.freeHead h.head name n (s.freeHead + 1) 0 h.seg (by omega) with
    h1 | ⟨p, h1, -, h2, -, -, h3⟩
  · rw [h1]; exact ⟨_, rfl⟩
  · have := h.head
    rw [h1]
    simp only [Res.bind_ok, h2, if_true]
    unfold readN
    rw [if_pos (by simp only [descSize]; omega)]
    exact ⟨_, rfl⟩

theorem Sound.set_ok {s : Store} (h : Sound s) (name obj : List Byte)
    (hsz : 6 + obj.length < 65536) :
    ∃ s' b, set s name obj = .ok (s', b) ∧ Sound s' ∧ s'.mem.length = s.mem.length := by
  have hcap := h.cap
  have hhead := h.head
  unfold set setPlan getIdx
  rcases getIdxLoop_seg s.mem h.cap s.freeHead h.head name obj.length (s.freeHead + 1) 0 h.seg (by omega)
    with h1 | ⟨p, h1, g1, g2, g3, g4, g5⟩
  · rw [h1]
    simp only [Res.bind_ok, descSize]
    split
    · exact ⟨s, false, rfl, h, rfl⟩
    · rename_i hroom
      have hc' := hcap
      simp only [CapOk] at hc'
      simp only [Res.bind_ok]
      rw [add32_of_lt (by omega)]
      have e := applyWrites_new (s.mem.take s.freeHead) (s.mem.drop s.freeHead) name obj
        (by rw [List.length_drop]; omega)
      rw [List.take_append_drop, List.length_take, Nat.min_eq_left hhead] at e
      rw [e]
      simp only [Res.bind_ok]
      refine ⟨_, true, rfl, ?_, ?_⟩
      · have hl : (s.mem.take s.freeHead ++ (Rec.enc ⟨storedIdx name, obj⟩ ++
            (s.mem.drop s.freeHead).drop (6 + obj.length))).length = s.mem.length := by
          simp [Rec.enc, le16_length, storedIdx_length]; omega
        refine ⟨by simp only [hl]; exact hcap, by simp only [hl]; omega, ?_⟩
        refine Seg.trans (b := s.freeHead) (Seg.mono (h.seg.congr ?_) (by simp)) ?_
        · intro i _ hi _
          rw [List.getElem?_append_left (by rw [List.length_take]; omega), List.getElem?_take, if_pos hi]
        · refine .step _ (6 + obj.length) _ (by simp only; omega) ?_ (by omega) (.refl _)
          have := nodeSize_enc (r := ⟨storedIdx name, obj⟩) ⟨storedIdx_length _, hsz⟩
            (s.mem.take s.freeHead) ((s.mem.drop s.freeHead).drop (6 + obj.length))
          rw [List.length_take, Nat.min_eq_left hhead] at this
          exact this
      · simp [Rec.enc, le16_length, storedIdx_length]; omega
  · rw [h1]
    simp only [Res.bind_ok, descSize]
    obtain ⟨m', e1, e2, e3, -⟩ := applyWrites_window s.mem (writesAt (p + 6) obj) (p + 6) obj.length
      (by omega) (fun w hw => by have := mem_writesAt hw; omega)
    rw [e1]
    simp only [Res.bind_ok]
    refine ⟨_, true, rfl, ⟨by simp only [e2]; exact hcap, by simp only [e2]; exact hhead, ?_⟩, e2⟩
    refine Seg.trans (b := p) (g1.congr fun i _ _ hi => e3 i (by omega)) ?_
    refine .step p (6 + obj.length) _ (by simp only; omega) ?_ (by omega)
      (g4.congr fun i hi _ _ => e3 i (by omega))
    unfold nodeSize
    rw [e3 p (by omega), e3 (p + 1) (by omega)]
    exact g3

/-! ## The property -/

/-- **C04**: opening terminates for every content of the region, and leaves the content alone. -/
theorem open_total (m : List Byte) (hcap : CapOk m.length) :
    ∃ s, create m false = .ok s ∧ s.mem = m ∧ s.freeHead ≤ m.length ∧ Walk m 0 s.freeHead := by
  obtain ⟨fh, h1, -, h3⟩ := openLoop_ok m hcap (m.length + 1) 0 (by omega) (by omega)
  exact ⟨⟨m, fh⟩, by simp [create, h1], rfl, h3, (openLoop_walk m hcap _ 0 fh (by omega) h1).1⟩

/-- **C04**: after opening arbitrary memory every `get` is defined (whatever name and size). -/
theorem open_get_safe (m : List Byte) (hcap : CapOk m.length) (s : Store)
    (hs : create m false = .ok s) (name : List Byte) (n : Nat) : ∃ v, get s name n = .ok v := by
  obtain ⟨s', h1, h2, h3, h4⟩ := open_total m hcap
  rw [hs] at h1; cases h1
  subst h2
  unfold get getIdx
  rcases getIdxLoop_walk s.mem hcap s.freeHead name n (s.freeHead + 1) 0 h4 (by omega) with
    h1 | ⟨p, h1, -, h2, -, -, h5⟩
  · rw [h1]; exact ⟨_, rfl⟩
  · rw [h1]
    simp only [Res.bind_ok, h2, if_true]
    unfold readN
    rw [if_pos (by simp only [descSize]; omega)]
    exact ⟨_, rfl⟩

/-- **C04**, the part that holds: unless the last entry found is one byte long, any sequence of
`get` and `set` calls after opening arbitrary memory is free of undefined behaviour and terminates.
Missing: regions whose last entry has size 1, see `open_one_byte_tail_unsafe`. -/
theorem open_ops_safe_partial (m : List Byte) (hcap : CapOk m.length) (s : Store)
    (hs : create m false = .ok s) (htail : ¬ OneByteTail s) (ops : List Op)
    (hops : ∀ op ∈ ops, op ≠ .reopen ∧ ∀ name obj, op = .set name obj → 6 + obj.length < 65536) :
    ∃ s' outs, run s ops = .ok (s', outs) ∧ s'.mem.length = m.length := by
  obtain ⟨s', h1, h2, h3, h4⟩ := open_total m hcap
  rw [hs] at h1; cases h1
  subst h2
  have hsound : Sound s := by
    refine ⟨hcap, h3, h4.seg fun p hp he hn => htail ?_⟩
    have : s.freeHead - 1 = p := by omega
    exact ⟨by omega, by rw [this]; exact hp, by rw [this]; exact hn⟩
  have gen : ∀ (ops : List Op) (t : Store), Sound t → (∀ op ∈ ops, op ≠ .reopen ∧
      ∀ name obj, op = .set name obj → 6 + obj.length < 65536) →
      ∃ s' outs, run t ops = .ok (s', outs) ∧ s'.mem.length = t.mem.length := by
    intro ops
    induction ops with
    | nil => intro t _ _; exact ⟨t, [], rfl, rfl⟩
    | cons op ops ih =>
      intro t ht hops
      simp only [List.mem_cons, forall_eq_or_imp] at hops
      cases op with
      | reopen => exact absurd rfl hops.1.1
      | get name n =>
        obtain ⟨v, hv⟩ := ht.get_ok name n
        obtain ⟨s', outs, g1, g2⟩ := ih t ht hops.2
        exact ⟨s', .value v :: outs, by simp [run, step, hv, g1], g2⟩
      | set name obj =>
        obtain ⟨t', b, hv, ht', hl⟩ := ht.set_ok name obj (hops.1.2 name obj rfl)
        obtain ⟨s', outs, g1, g2⟩ := ih t' ht' hops.2
        exact ⟨s', .flag b :: outs, by simp [run, step, hv, g1], by rw [g2, hl]⟩
  exact gen ops s hsound hops

/-- The hypotheses are met by garbage whose walk does not end with a one-byte entry, e.g. entries
of 3 and 7 bytes. -/
example : ∃ s, create [3, 0, 9, 7, 0, 1, 2, 3, 4, 5, 0, 0, 0, 0, 0, 0, 0, 0, 0, 0] false = .ok s ∧
    s.freeHead = 10 ∧ ¬ OneByteTail s := by
  refine ⟨⟨_, 10⟩, rfl, rfl, ?_⟩
  rintro ⟨-, -, h⟩
  exact absurd h (by decide)

/-- **C04** is false in general: memory starting with the bytes 1, 0 is opened with a one-byte
entry; the next `set` overwrites the upper half of its size field, and a later `get` reads beyond
the region. -/
theorem open_one_byte_tail_unsafe :
    ∃ (m : List Byte) (s s' : Store) (name obj name' : List Byte) (n : Nat),
      CapOk m.length ∧ create m false = .ok s ∧ 6 + obj.length < 65536 ∧ 6 + n < 65536 ∧
      set s name obj = .ok (s', true) ∧
      -- the object just stored cannot be read back …
      get s' name obj.length = .ok none ∧
      -- … and another look-up is undefined
      get s' name' n = .ub := by
  refine ⟨1 :: List.replicate 11 0, ⟨1 :: List.replicate 11 0, 1⟩,
    ⟨[1, 8, 0, 0x61, 0x62, 0, 0, 1, 2, 0, 0, 0], 9⟩, [0x61, 0x62], [1, 2], [0, 0x61, 0x62], 2043,
    by simp [CapOk], by decide, by decide, by decide, by decide, by decide, by decide⟩

end Verif.Storage
