import Verif.Storage.Tasks
/-!
# How much work a call is (C131)

The number of accesses to the memory region and to `free_head_` which a call performs, counted on the access-by-access
code of C129.  The code compares names byte by byte and stops at the first difference, the model reads all four bytes; so
the counts are upper bounds of what the compiled code does.
-/
namespace Verif.Storage

/-- The number of accesses of a program which runs without anybody else. -/
def Acc.work {α : Type} : Acc α → Store → Nat
  | .ret _, _ => 0
  | .hang, _ => 0
  | .head k, s => 1 + (k s.freeHead).work s
  | .setHead n k, s => 1 + k.work ⟨s.mem, n⟩
  | .read i k, s => match s.mem[i]? with
    | some b => 1 + (k b).work s
    | none => 1
  | .write i b k, s => 1 + k.work ⟨s.mem.set i b, s.freeHead⟩

/-- `work` counts the steps: after that many and no fewer the program has come to its end. -/
theorem Acc.work_steps {α : Type} {p : Acc α} {s s' : Store} {a : α} (h : p.exec s = .ok (a, s')) :
    p.steps (p.work s) s = .ok (.ret a, s') ∧
      ∀ n, n < p.work s → ∃ (q : Acc α) (t : Store), p.steps n s = .ok (q, t) ∧ q.result = none := by
  have key : ∀ (p q : Acc α) (s t : Store), p.step s = .ok (q, t) → p.result = none →
      (q.steps (q.work t) t = .ok (.ret a, s') ∧ ∀ n, n < q.work t → ∃ (r : Acc α) (u : Store), q.steps n t = .ok (r, u) ∧ r.result = none) →
      p.work s = 1 + q.work t → (p.steps (p.work s) s = .ok (.ret a, s') ∧
        ∀ n, n < p.work s → ∃ (r : Acc α) (u : Store), p.steps n s = .ok (r, u) ∧ r.result = none) := by
    intro p q s t h1 h0 h2 h3
    rw [h3, Nat.add_comm]
    refine ⟨by simp only [steps, h1, Res.bind_ok]; exact h2.1, fun n hn => ?_⟩
    cases n with
    | zero => exact ⟨p, s, rfl, h0⟩
    | succ n => simp only [steps, h1, Res.bind_ok]; exact h2.2 n (by omega)
  induction p generalizing s with
  | ret b => cases h; exact ⟨rfl, fun n hn => absurd hn (Nat.not_lt_zero n)⟩
  | hang => cases h
  | head k ih => exact key _ _ _ _ rfl rfl (ih _ h) rfl
  | setHead n k ih => exact key _ _ _ _ rfl rfl (ih h) rfl
  | read i k ih =>
    simp only [exec] at h
    cases hb : s.mem[i]? with
    | none => rw [hb] at h; cases h
    | some b =>
      rw [hb] at h
      exact key _ (k b) _ s (by simp only [step, hb]) rfl (ih b h) (by simp only [work, hb])
  | write i b k ih =>
    simp only [exec] at h
    by_cases hi : i < s.mem.length
    · rw [if_pos hi] at h
      exact key _ k _ ⟨s.mem.set i b, s.freeHead⟩ (by simp only [step, if_pos hi]) rfl (ih h) rfl
    · rw [if_neg hi] at h; cases h

theorem Acc.work_bind {α β : Type} {p : Acc α} {f : α → Acc β} {s s' : Store} {a : α} (h : p.exec s = .ok (a, s')) :
    (p.bind f).work s = p.work s + (f a).work s' := by
  induction p generalizing s with
  | ret b => cases h; simp [bind, work]
  | hang => cases h
  | head k ih => simp only [bind, work]; rw [ih _ h]; omega
  | setHead n k ih => simp only [bind, work]; rw [ih h]; omega
  | read i k ih =>
    simp only [exec] at h
    cases hb : s.mem[i]? with
    | none => rw [hb] at h; cases h
    | some b => rw [hb] at h; simp only [bind, work, hb]; rw [ih b h]; omega
  | write i b k ih =>
    simp only [exec] at h
    by_cases hi : i < s.mem.length
    · rw [if_pos hi] at h; simp only [bind, work]; rw [ih h]; omega
    · rw [if_neg hi] at h; cases h

/-! ## The parts -/

theorem readNA_work (n : Nat) : ∀ (p : Nat) (s : Store), p + n ≤ s.mem.length → (readNA p n).work s = n := by
  induction n with
  | zero => intros; rfl
  | succ n ih =>
    intro p s h
    have hp : p < s.mem.length := by omega
    simp only [readNA, Acc.work, List.getElem?_eq_getElem hp]
    rw [Acc.work_bind (readNA_exec (p + 1) n s (by omega)), ih (p + 1) s (by omega)]
    simp only [Acc.work]; omega

theorem writeNA_work (bs : List Byte) : ∀ (p : Nat) (s : Store), (writeNA p bs).work s = bs.length := by
  induction bs with
  | nil => intros; rfl
  | cons b bs ih => intro p s; simp only [writeNA, Acc.work, ih, List.length_cons]; omega

theorem nodeSizeA_work {p : Nat} {s : Store} (h : p + 2 ≤ s.mem.length) : (nodeSizeA p).work s = 2 := by
  simp only [nodeSizeA, Acc.work, List.getElem?_eq_getElem (show p < s.mem.length by omega),
    List.getElem?_eq_getElem (show p + 1 < s.mem.length by omega)]

theorem nodeMatchesA_work {p : Nat} {s : Store} (h : p + 6 ≤ s.mem.length) (name : List Byte) (n : Nat) :
    (nodeMatchesA p name n).work s ≤ 6 := by
  unfold nodeMatchesA
  split
  · simp [Acc.work]
  · rw [Acc.work_bind (readNA_exec (p + 2) 4 s (by omega)), readNA_work 4 (p + 2) s (by omega)]
    split
    · obtain ⟨v, hv, -⟩ := nodeSize_ok s.mem p (by omega)
      rw [Acc.work_bind (by rw [nodeSizeA_exec, hv]; rfl), nodeSizeA_work (by omega)]
      simp [Acc.work]
    · simp [Acc.work]

/-- The search looks at every entry at most once. -/
theorem getIdxLoopA_work {s : Store} (hcap : CapOk s.mem.length) {pos : Nat} {l : List (Nat × Nat)}
    (hw : WalkL s.mem pos l s.freeHead) (name : List Byte) (n fuel : Nat) (hfuel : s.freeHead - pos < fuel)
    (hh : s.freeHead ≤ s.mem.length) : (getIdxLoopA name n fuel pos).work s ≤ 9 * l.length + 1 ∧
      ∀ e, l.find? (hit s.mem name n) = some e → (getIdxLoopA name n fuel pos).work s + 2 ≤ 9 * l.length := by
  induction fuel generalizing pos l with
  | zero => omega
  | succ f ih =>
    rw [getIdxLoopA]
    simp only [Acc.work, descSize]
    by_cases h6 : pos + 6 ≤ s.freeHead
    · rw [if_pos h6]
      obtain ⟨b, hb, -⟩ := nodeMatches_ok s.mem pos name n (by omega)
      obtain ⟨v, hv, hvl⟩ := nodeSize_ok s.mem pos (by omega)
      have hm := nodeMatchesA_work (show pos + 6 ≤ s.mem.length by omega) name n
      rw [Acc.work_bind (by rw [nodeMatchesA_exec, hb]; rfl)]
      cases hw with
      | nil => omega
      | cons _ v' _ l h1 h2 h3 h4 h5 =>
        rw [hv] at h2
        cases h2
        simp only [List.length_cons]
        cases b with
        | true => simp only [Acc.work]; exact ⟨by omega, fun _ _ => by omega⟩
        | false =>
          simp only
          have hno : hit s.mem name n (pos, v) = false := by
            rw [nodeMatches_hit h1 hv] at hb; exact Res.ok.inj hb
          simp only [CapOk] at hcap
          have hle := h5.le
          rw [Acc.work_bind (by rw [nodeSizeA_exec, hv]; rfl), nodeSizeA_work (by omega), add32_of_lt (by omega)]
          obtain ⟨i1, i2⟩ := ih h5 (by omega)
          refine ⟨by omega, fun e he => ?_⟩
          rw [List.find?_cons_of_neg (by simp [hno])] at he
          have := i2 e he
          omega
    · rw [if_neg h6]
      simp only [Acc.work]
      refine ⟨by omega, fun e he => ?_⟩
      obtain ⟨g1, g2, -⟩ := hw.mem e (List.mem_of_find?_eq_some he)
      have := (hit_size (List.find?_some he)).2.1
      omega

theorem applyWrites_writesAt_ok (bs : List Byte) : ∀ (m : List Byte) (p : Nat), p + bs.length ≤ m.length →
    ∃ m', applyWrites m (writesAt p bs) = .ok m' := by
  induction bs with
  | nil => intro m p _; exact ⟨m, rfl⟩
  | cons b bs ih =>
    intro m p h
    simp only [List.length_cons] at h
    rw [writesAt_cons, applyWrites, if_pos (by omega)]
    exact ih _ _ (by rw [List.length_set]; omega)

/-! ## The calls -/

theorem WalkL.length_six {m : List Byte} {a b : Nat} {l : List (Nat × Nat)} (h : WalkL m a l b) (h6 : ∀ e ∈ l, 6 ≤ e.2) :
    a + 6 * l.length ≤ b := by
  induction h with
  | nil => simp
  | cons _ v _ l h1 h2 h3 h4 h5 ih =>
    have := ih fun e he => h6 e (List.mem_cons_of_mem _ he)
    have := h6 _ List.mem_cons_self
    simp only [List.length_cons] at *
    omega

theorem getA_work {s : Store} {l : List (Nat × Nat)} (ho : Opened s l) (name : List Byte) (n : Nat) :
    (getA (s.freeHead + 1) name n).work s ≤ 9 * l.length + 4 + n := by
  have hh := ho.head
  obtain ⟨hl, hl'⟩ := getIdxLoopA_work ho.cap ho.walk name n (s.freeHead + 1) (by omega) hh
  have hex := getIdxLoopA_exec name n (s.freeHead + 1) 0 s
  rw [getIdxLoop_list ho.cap ho.walk name n _ (by omega), Res.bind_ok] at hex
  unfold getA
  rw [Acc.work_bind hex]
  cases hf : l.find? (hit s.mem name n) with
  | none => simp only [Option.map_none, Acc.work]; omega
  | some e =>
    obtain ⟨g1, g2, g3, g4, g5, g6⟩ := ho.walk.mem e (List.mem_of_find?_eq_some hf)
    obtain ⟨k1, k2, k3⟩ := hit_size (List.find?_some hf)
    have hl' := hl' e hf
    have hm := nodeMatchesA_work (show e.1 + 6 ≤ s.mem.length by omega) name n
    simp only [Option.map_some]
    rw [Acc.work_bind (by rw [nodeMatchesA_exec, nodeMatches_hit g4 g3, List.find?_some hf]; rfl)]
    simp only
    rw [Acc.work_bind (readNA_exec _ n s (by simp only [descSize]; omega)), readNA_work n _ s (by simp only [descSize]; omega)]
    simp only [Acc.work]
    omega

theorem setA_work {s : Store} {l : List (Nat × Nat)} (ho : Opened s l) (name obj : List Byte) :
    (setA (s.freeHead + 1) s.mem.length name obj).work s ≤ 9 * l.length + 11 + obj.length := by
  have hh := ho.head
  obtain ⟨hl, hl'⟩ := getIdxLoopA_work ho.cap ho.walk name obj.length (s.freeHead + 1) (by omega) hh
  have hex := getIdxLoopA_exec name obj.length (s.freeHead + 1) 0 s
  rw [getIdxLoop_list ho.cap ho.walk name obj.length _ (by omega), Res.bind_ok] at hex
  have hwr : ∀ (p : Nat) (bs : List Byte) (t : Store), p + bs.length ≤ t.mem.length →
      ∃ m' : List Byte, (writeNA p bs).exec t = .ok ((), ⟨m', t.freeHead⟩) ∧ m'.length = t.mem.length := by
    intro p bs t h
    obtain ⟨m', hm⟩ := applyWrites_writesAt_ok bs t.mem p h
    exact ⟨m', by rw [writeNA_exec, hm]; rfl, (applyWrites_frame hm).1⟩
  unfold setA
  rw [Acc.work_bind hex]
  cases hf : l.find? (hit s.mem name obj.length) with
  | some e =>
    obtain ⟨g1, g2, g3, g4, g5, g6⟩ := ho.walk.mem e (List.mem_of_find?_eq_some hf)
    obtain ⟨k1, k2, k3⟩ := hit_size (List.find?_some hf)
    obtain ⟨m', h1, -⟩ := hwr (e.1 + 6) obj s (by omega)
    simp only [Option.map_some, descSize]
    rw [Acc.work_bind h1, writeNA_work]
    simp only [Acc.work]
    omega
  | none =>
    simp only [Option.map_none, Acc.work, descSize]
    split
    · simp only [Acc.work]; omega
    · rename_i hroom
      obtain ⟨m1, h1, l1⟩ := hwr (s.freeHead + 2) (storedIdx name) s (by rw [storedIdx_length]; omega)
      obtain ⟨m2, h2, l2⟩ := hwr s.freeHead (le16 (6 + obj.length)) ⟨m1, s.freeHead⟩ (by
        simp only [le16, List.length_cons, List.length_nil]; omega)
      obtain ⟨m3, h3, l3⟩ := hwr (s.freeHead + 6) obj ⟨m2, s.freeHead⟩ (by simp only at *; omega)
      simp only [Acc.work]
      rw [Acc.work_bind h1, Acc.work_bind h2, Acc.work_bind h3, writeNA_work, writeNA_work, writeNA_work, storedIdx_length]
      simp only [Acc.work, le16, List.length_cons, List.length_nil]
      omega

/-- Storages which were initialised and then written by `set`: no foreign contents, no power loss. -/
inductive Made : Store → Nat → Prop where
  | init (m : List Byte) (s : Store) : CapOk m.length → create m true = .ok s → Made s 0
  | over (s s' : Store) (k : Nat) (name obj : List Byte) : Made s k → 6 + obj.length < 65536 →
      Storage.set s name obj = .ok (s', true) → s'.freeHead = s.freeHead → Made s' k
  | full (s s' : Store) (k : Nat) (name obj : List Byte) : Made s k → 6 + obj.length < 65536 →
      Storage.set s name obj = .ok (s', false) → Made s' k
  | add (s s' : Store) (k : Nat) (name obj : List Byte) : Made s k → 6 + obj.length < 65536 →
      Storage.set s name obj = .ok (s', true) → s'.freeHead ≠ s.freeHead → Made s' (k + 1)

theorem Made.opened {s : Store} {k : Nat} (h : Made s k) : ∃ l, Opened s l ∧ l.length = k ∧ ∀ e ∈ l, 6 ≤ e.2 := by
  induction h with
  | init m s hcap hs =>
    cases hs
    exact ⟨[], ⟨by simpa using hcap, Nat.zero_le _, .nil _, by simp⟩, rfl, by simp⟩
  | over s s' k name obj h hsz hs hfh ih =>
    obtain ⟨l, ho, hk, h6⟩ := ih
    cases hf : l.find? (hit s.mem name obj.length) with
    | some e =>
      obtain ⟨s1, h1, h2, h3, h4, -⟩ := ho.set_hit hf
      rw [h1] at hs
      cases hs
      exact ⟨l, h4, hk, h6⟩
    | none =>
      by_cases hroom : s.mem.length < s.freeHead + 6 + obj.length
      · rw [ho.set_full hf hroom] at hs; cases hs
      · obtain ⟨s1, h1, h2, -⟩ := ho.set_new hf (by omega) hsz
        rw [h1] at hs
        cases hs
        omega
  | full s s' k name obj h hsz hs ih =>
    obtain ⟨l, ho, hk, h6⟩ := ih
    cases hf : l.find? (hit s.mem name obj.length) with
    | some e =>
      obtain ⟨s1, h1, -⟩ := ho.set_hit hf
      rw [h1] at hs; cases hs
    | none =>
      by_cases hroom : s.mem.length < s.freeHead + 6 + obj.length
      · rw [ho.set_full hf hroom] at hs; cases hs; exact ⟨l, ho, hk, h6⟩
      · obtain ⟨s1, h1, -⟩ := ho.set_new hf (by omega) hsz
        rw [h1] at hs; cases hs
  | add s s' k name obj h hsz hs hfh ih =>
    obtain ⟨l, ho, hk, h6⟩ := ih
    cases hf : l.find? (hit s.mem name obj.length) with
    | some e =>
      obtain ⟨s1, h1, h2, -⟩ := ho.set_hit hf
      rw [h1] at hs
      cases hs
      exact absurd h2 hfh
    | none =>
      by_cases hroom : s.mem.length < s.freeHead + 6 + obj.length
      · rw [ho.set_full hf hroom] at hs; cases hs
      · obtain ⟨s1, h1, h2, h3, h4, -⟩ := ho.set_new hf (by omega) hsz
        rw [h1] at hs
        cases hs
        refine ⟨_, h4, by simp [hk], fun e he => ?_⟩
        rcases List.mem_append.1 he with he | he
        · exact h6 e he
        · simp only [List.mem_singleton] at he; subst he; simp

/-- **C131**: in a storage with `k` objects `get` comes to its end after at most `9 k + 4 + n` accesses to the memory and
`free_head_`, whatever it looks for, and gives its answer then. -/
theorem get_work {s : Store} {k : Nat} (h : Made s k) (name : List Byte) (n : Nat) :
    ∃ (N : Nat) (r : Option (List Byte)), N ≤ 9 * k + 4 + n ∧ get s name n = .ok r ∧
      (getA (s.freeHead + 1) name n).steps N s = .ok (.ret r, s) := by
  obtain ⟨l, ho, rfl, -⟩ := h.opened
  have hg : (getA (s.freeHead + 1) name n).exec s = .ok (view s.mem l name n, s) := by rw [getA_exec, ho.get, Res.bind_ok]
  exact ⟨_, _, getA_work ho name n, ho.get name n, (Acc.work_steps hg).1⟩

/-- `set` comes to its end after at most `9 k + 11 + n` accesses. -/
theorem set_work {s : Store} {k : Nat} (h : Made s k) (name obj : List Byte) (hsz : 6 + obj.length < 65536) :
    ∃ (N : Nat) (r : Bool) (s' : Store), N ≤ 9 * k + 11 + obj.length ∧ set s name obj = .ok (s', r) ∧
      (setA (s.freeHead + 1) s.mem.length name obj).steps N s = .ok (.ret r, s') := by
  obtain ⟨l, ho, rfl, -⟩ := h.opened
  have hset : ∃ s' r, set s name obj = .ok (s', r) := by
    cases hf : l.find? (hit s.mem name obj.length) with
    | some e => obtain ⟨s', h, -⟩ := ho.set_hit hf; exact ⟨s', _, h⟩
    | none =>
      by_cases hroom : s.mem.length < s.freeHead + 6 + obj.length
      · exact ⟨_, _, ho.set_full hf hroom⟩
      · obtain ⟨s', h, -⟩ := ho.set_new hf (by omega) hsz; exact ⟨s', _, h⟩
  obtain ⟨s', r, hs⟩ := hset
  have he : (setA (s.freeHead + 1) s.mem.length name obj).exec s = .ok (r, s') := by rw [setA_exec, hs, Res.bind_ok]
  exact ⟨_, r, s', setA_work ho name obj, hs, (Acc.work_steps he).1⟩

/-- There are at most `free_head_ / 6` objects, so the bounds are known from the capacity alone. -/
theorem made_few {s : Store} {k : Nat} (h : Made s k) : 6 * k ≤ s.freeHead ∧ s.freeHead ≤ s.mem.length := by
  obtain ⟨l, ho, rfl, h6⟩ := h.opened
  have := ho.walk.length_six h6
  exact ⟨by omega, ho.head⟩

/-- A storage of any origin (foreign contents, power losses): the work is bounded by the capacity, too. -/
theorem call_work {s : Store} (hu : InUse s) (name : List Byte) (n : Nat) (obj : List Byte) :
    (getA (s.freeHead + 1) name n).work s ≤ 9 * s.mem.length + 4 + n ∧
      (setA (s.freeHead + 1) s.mem.length name obj).work s ≤ 9 * s.mem.length + 11 + obj.length := by
  obtain ⟨l, ho⟩ := hu.opened'
  have h1 := getA_work ho name n
  have h2 := setA_work ho name obj
  have h3 := ho.walk.length_le
  have h4 := ho.head
  omega

/-! ## Examples -/

/-- Two objects with the same name and different sizes. -/
def twins : Store := ⟨[7, 0, 0x41, 0, 0, 0, 1, 8, 0, 0x41, 0, 0, 0, 2, 2] ++ List.replicate 17 0, 15⟩

theorem twins_made : Made twins 2 := by
  have h0 : Made ⟨List.replicate 32 0, 0⟩ 0 := .init (List.replicate 32 0) _ (by simp [CapOk]) (by decide +kernel)
  have h1 : Made ⟨[7, 0, 0x41, 0, 0, 0, 1] ++ List.replicate 25 0, 7⟩ 1 :=
    .add _ _ _ [0x41] [1] h0 (by decide) (by decide +kernel) (by decide)
  exact .add _ _ _ [0x41] [2, 2] h1 (by decide) (by decide +kernel) (by decide)

/-- Both bounds are attained. -/
theorem work_tight : (setA (twins.freeHead + 1) twins.mem.length [0x41] [1, 2, 3]).work twins = 9 * 2 + 11 + 3 ∧
    (getA (twins.freeHead + 1) [0x41] 2).work twins = 9 * 2 + 4 + 2 := by
  decide +kernel

end Verif.Storage
