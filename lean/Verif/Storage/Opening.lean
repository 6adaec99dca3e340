import Verif.Storage.Work
import Verif.Storage.Adder
/-!
# C145: opening a storage while it is used

The constructor with `init = false` as a program of single accesses.  The storage object which is made has a `free_head_` of
its own, so nothing but the bytes of the region is shared with the tasks which use the region already.
-/
namespace Verif.Storage

/-! ## Model -/

/-- The loop PersistentStorage.cpp:12-17: the size is read for the test (13), for the sum (14) and for the addition (16);
`free_head_` of the new object is not shared. -/
def openLoopA (cap : Nat) : Nat → Nat → Acc Nat
  | 0, _ => .hang
  | fuel + 1, fh =>
    if fh + descSize ≤ cap then
      (nodeSizeA fh).bind fun s1 =>
        if s1 = 0 then .ret fh
        else (nodeSizeA fh).bind fun s2 =>
          if add32 fh s2 ≤ cap then (nodeSizeA fh).bind fun s3 => openLoopA cap fuel (add32 fh s3)
          else .ret fh
    else .ret fh

/-- The constructor with `init = false`, PersistentStorage.cpp:3-20; the answer is the new `free_head_`. -/
def openA (cap : Nat) : Acc Nat := openLoopA cap (cap + 1) 0

/-! ## Alone -/

theorem openLoopA_exec (s : Store) (fuel pos : Nat) :
    (openLoopA s.mem.length fuel pos).exec s = (openLoop s.mem fuel pos >>= fun fh => .ok (fh, s)) := by
  induction fuel generalizing pos with
  | zero => rfl
  | succ f ih =>
    rw [openLoopA, openLoop]
    by_cases h6 : pos + descSize ≤ s.mem.length
    · rw [if_pos h6, if_pos h6]
      simp only [descSize] at h6
      obtain ⟨v, hv, -⟩ := nodeSize_ok s.mem pos (by omega)
      rw [Acc.exec_bind, nodeSizeA_exec, hv]
      simp only [Res.bind_ok]
      by_cases h0 : v = 0
      · rw [if_pos h0, if_neg (by simp [h0])]; rfl
      · rw [if_neg h0, Acc.exec_bind, nodeSizeA_exec, hv]
        simp only [Res.bind_ok]
        by_cases hc : add32 pos v ≤ s.mem.length
        · rw [if_pos hc, if_pos ⟨h0, hc⟩, Acc.exec_bind, nodeSizeA_exec, hv]
          simp only [Res.bind_ok]
          exact ih _
        · rw [if_neg hc, if_neg (by simp [hc])]; rfl
    · rw [if_neg h6, if_neg h6]; rfl

/-- Without anybody else it is the constructor of C02 and C04. -/
theorem openA_exec (s : Store) :
    (openA s.mem.length).exec s = (create s.mem false >>= fun t => .ok (t.freeHead, s)) := by
  unfold openA create
  rw [openLoopA_exec]
  simp only [Bool.false_eq_true, if_false]
  cases openLoop s.mem (s.mem.length + 1) 0 <;> rfl

/-! ## The work -/

theorem openLoopA_work {s : Store} (hcap : CapOk s.mem.length) {pos b : Nat} {l : List (Nat × Nat)}
    (hw : WalkL s.mem pos l b) (fuel : Nat) (hend : openLoop s.mem fuel pos = .ok b) :
    (openLoopA s.mem.length fuel pos).work s ≤ 6 * l.length + 4 := by
  induction fuel generalizing pos l with
  | zero => cases hend
  | succ f ih =>
    rw [openLoopA]
    rw [openLoop] at hend
    by_cases h6 : pos + descSize ≤ s.mem.length
    · rw [if_pos h6]
      rw [if_pos h6] at hend
      simp only [descSize] at h6
      obtain ⟨v, hv, hvl⟩ := nodeSize_ok s.mem pos (by omega)
      have hex : (nodeSizeA pos).exec s = .ok (v, s) := by rw [nodeSizeA_exec, hv]; rfl
      have hwk : (nodeSizeA pos).work s = 2 := nodeSizeA_work (by omega)
      rw [Acc.work_bind hex, hwk]
      rw [hv] at hend
      simp only [Res.bind_ok] at hend
      by_cases h0 : v = 0
      · rw [if_pos h0]; simp only [Acc.work]; omega
      · rw [if_neg h0, Acc.work_bind hex, hwk]
        by_cases hc : add32 pos v ≤ s.mem.length
        · rw [if_pos hc, Acc.work_bind hex, hwk]
          rw [if_pos ⟨h0, hc⟩] at hend
          simp only [CapOk] at hcap
          have e32 : add32 pos v = pos + v := add32_of_lt (by omega)
          rw [e32] at hend hc ⊢
          cases hw with
          | nil =>
            have := (openLoop_walk s.mem (by simpa [CapOk] using hcap) _ _ _ hc hend).1.le
            omega
          | cons _ v' _ l h1 h2 h3 h4 h5 =>
            rw [hv] at h2
            cases h2
            have := ih h5 hend
            simp only [List.length_cons]
            omega
        · rw [if_neg hc]; simp only [Acc.work]; omega
    · rw [if_neg h6]; simp only [Acc.work]; omega

/-- **C145**: opening a region of any contents comes to its end after at most six accesses for every record found (`l`) and
four more. -/
theorem open_work (m : List Byte) (hcap : CapOk m.length) (fh : Nat) :
    ∃ (s : Store) (l : List (Nat × Nat)), create m false = .ok s ∧ WalkL m 0 l s.freeHead ∧ l.length ≤ s.freeHead ∧
      (openA m.length).exec ⟨m, fh⟩ = .ok (s.freeHead, ⟨m, fh⟩) ∧ (openA m.length).work ⟨m, fh⟩ ≤ 6 * l.length + 4 := by
  obtain ⟨b, hb, -, hb2⟩ := openLoop_ok m hcap (m.length + 1) 0 (by omega) (by omega)
  have hc : create m false = .ok ⟨m, b⟩ := by
    unfold create
    simp only [Bool.false_eq_true, if_false, hb, Res.bind_ok]
  obtain ⟨l, hl⟩ := (openLoop_walk m hcap _ _ _ (by omega) hb).1.list
  refine ⟨⟨m, b⟩, l, hc, hl, by have := hl.length_le; simpa using this, ?_, ?_⟩
  · have := openA_exec ⟨m, fh⟩
    simp only [hc, Res.bind_ok] at this
    exact this
  · exact openLoopA_work (s := ⟨m, fh⟩) hcap hl _ hb

/-- The bound is attained: one object, and then a size which does not fit. -/
theorem open_work_tight : (openA 16).work ⟨[7, 0, 0x41, 0, 0, 0, 1, 200, 0] ++ List.replicate 7 0, 0⟩ = 6 * 1 + 4 ∧
    create ([7, 0, 0x41, 0, 0, 0, 1, 200, 0] ++ List.replicate 7 0) false =
      .ok ⟨[7, 0, 0x41, 0, 0, 0, 1, 200, 0] ++ List.replicate 7 0, 7⟩ := by decide +kernel

/-! ## Beside other tasks -/

theorem openLoopA_safe {R W : Nat → Prop} {m : List Byte} (hcap : CapOk m.length) {fh : Nat} {pos : Nat}
    (hr : ∀ p, (∃ l, WalkL m 0 l p) → R p ∧ R (p + 1)) (fuel b : Nat) (hw : ∃ l, WalkL m 0 l pos) (hpos : pos ≤ m.length)
    (hend : openLoop m fuel pos = .ok b) :
    (openLoopA m.length fuel pos).Safe R W fh m fun r m' => r = b ∧ m' = m := by
  refine Acc.Safe.exact ?_ (by
    have := openLoopA_exec ⟨m, fh⟩ fuel pos
    simp only [hend, Res.bind_ok] at this
    exact this)
  induction fuel generalizing pos with
  | zero => cases hend
  | succ f ih =>
    rw [openLoopA]
    rw [openLoop] at hend
    by_cases h6 : pos + descSize ≤ m.length
    · rw [if_pos h6]
      rw [if_pos h6] at hend
      simp only [descSize] at h6
      obtain ⟨r1, r2⟩ := hr pos hw
      obtain ⟨v, hv, hvl⟩ := nodeSize_ok m pos (by omega)
      have hs : (nodeSizeA pos).Safe R W fh m fun r m' => r = v ∧ m' = m := nodeSizeA_safe r1 r2 hv
      rw [hv] at hend
      simp only [Res.bind_ok] at hend
      refine Acc.Safe.bind (hs.mono ?_)
      rintro r m' ⟨e1, e2⟩
      rw [e1, e2]
      split
      · trivial
      · rename_i h0
        refine Acc.Safe.bind (hs.mono ?_)
        rintro r m' ⟨e1, e2⟩
        rw [e1, e2]
        split
        · rename_i hc
          rw [if_pos ⟨h0, hc⟩] at hend
          refine Acc.Safe.bind (hs.mono ?_)
          rintro r m' ⟨e1, e2⟩
          rw [e1, e2]
          simp only [CapOk] at hcap
          have e32 : add32 pos v = pos + v := add32_of_lt (by omega)
          rw [e32] at hend hc ⊢
          refine ih ?_ hc hend
          obtain ⟨l, hl⟩ := hw
          exact ⟨l ++ [(pos, v)], hl.append (.cons _ _ _ _ h6 hv h0 hc (.nil _))⟩
        · trivial
    · rw [if_neg h6]
      trivial

/-- Where the loop can be: at a record of the storage, or behind them all. -/
theorem walk_place {m : List Byte} {l : List (Nat × Nat)} {a fh : Nat} (h : WalkL m a l fh) {l' : List (Nat × Nat)} {p : Nat}
    (h' : WalkL m a l' p) : (∃ e ∈ l, e.1 = p) ∨ fh ≤ p := by
  induction h generalizing l' with
  | nil a => exact .inr h'.le
  | cons a v b l h1 h2 h3 h4 _ ih =>
    cases h' with
    | nil => exact .inl ⟨_, List.mem_cons_self, rfl⟩
    | cons _ v' _ l' _ g2 _ _ g5 =>
      rw [h2] at g2
      cases g2
      rcases ih g5 with ⟨e, he, rfl⟩ | h
      · exact .inl ⟨e, List.mem_cons_of_mem _ he, rfl⟩
      · exact .inr h

/-- No task owns a byte which the constructor reads. -/
theorem opener_reads {ι : Type} {Own : ι → List Byte → Nat → Prop} {m0 : List Byte} {l : List (Nat × Nat)} {fh : Nat}
    (hw : WalkL m0 0 l fh) (p : Nat) (hp : ∃ l', WalkL m0 0 l' p) :
    (∀ t, ¬ Mine Own m0 l t p) ∧ ∀ t, ¬ Mine Own m0 l t (p + 1) := by
  obtain ⟨l', hl'⟩ := hp
  rcases walk_place hw hl' with ⟨e, he, rfl⟩ | hb
  · exact ⟨header_not_mine hw he (by omega) (by omega), header_not_mine hw he (by omega) (by omega)⟩
  · have : ∀ t i, fh ≤ i → ¬ Mine Own m0 l t i := by
      rintro t i hi ⟨name, n, f, -, hf, g1, g2⟩
      have h1 := hw.mem f (List.mem_of_find?_eq_some hf)
      have h2 := (hit_size (List.find?_some hf)).2.1
      omega
    exact ⟨fun t => this t _ hb, fun t => this t _ (by omega)⟩

/-- The constructor sees nothing but the two bytes of each size it comes to. -/
theorem openLoop_same {m g : List Byte} (hcap : CapOk m.length) (hl : g.length = m.length)
    (hr : ∀ p, (∃ l, WalkL m 0 l p) → g[p]? = m[p]? ∧ g[p + 1]? = m[p + 1]?) (fuel pos : Nat)
    (hw : ∃ l, WalkL m 0 l pos) (hpos : pos ≤ m.length) : openLoop g fuel pos = openLoop m fuel pos := by
  induction fuel generalizing pos with
  | zero => rfl
  | succ f ih =>
    rw [openLoop, openLoop, hl]
    split
    · rename_i h6
      simp only [descSize] at h6
      obtain ⟨v, hv, hvl⟩ := nodeSize_ok m pos (by omega)
      rw [nodeSize_congr (hr pos hw).1 (hr pos hw).2, hv]
      simp only [Res.bind_ok]
      split
      · rename_i hc
        simp only [CapOk] at hcap
        have e32 : add32 pos v = pos + v := add32_of_lt (by omega)
        rw [e32] at hc ⊢
        refine ih _ ?_ hc.2
        obtain ⟨l, hw⟩ := hw
        exact ⟨_, hw.append (.cons _ _ _ _ h6 hv hc.1 hc.2 (.nil _))⟩
      · rfl
    · rfl

theorem count_option {ι : Type} [DecidableEq ι] (o : Option ι) (l : List (Option ι)) :
    @List.count (Option ι) instBEqOfDecidableEq o l = l.count o := by
  induction l with
  | nil => rfl
  | cons a l ih =>
    rw [@List.count_cons _ instBEqOfDecidableEq, List.count_cons, ih]
    by_cases h : a = o <;> simp [h]

/-- One more task which opens the storage and answers something about the `free_head_` it has found. -/
def withOpener {ι β : Type} (cap : Nat) (f : Nat → β) (code : ι → Acc β) : Option ι → Acc β
  | none => (openA cap).bind fun h => .ret (f h)
  | some t => code t

/-- **C145**: a storage can be opened while other tasks use it, if each of them writes only objects of its own which exist
already: in every schedule the constructor finds the free head it would have found before (and would find afterwards), it
is done after a number of its own accesses which does not depend on the schedule, and the answers of the other tasks are
those they would get if they were alone. -/
theorem open_beside {ι β : Type} [DecidableEq ι] {s : Store} (hu : InUse s) (Own : ι → List Byte → Nat → Prop)
    (hown : ∀ t name n, Own t name n → ∃ v, get s name n = .ok (some v))
    (progs : ι → Prog β) (hpol : ∀ t, (progs t).Polite (Own t) fun b k => ∃ u, u ≠ t ∧ Own u b k)
    (fuel : Nat) (hfuel : s.freeHead < fuel) (f : Nat → β) :
    ∃ (s0 : Store) (res : ι → β) (fin : ι → Store) (need : Option ι → Nat), create s.mem false = .ok s0 ∧
      (∀ t, (progs t).alone s = .ok (res t, fin t)) ∧
      ∀ sched : List (Option ι), ∃ (ps : Option ι → Acc β) (s' : Store),
        interleave sched (withOpener s.mem.length f fun t => (progs t).code fuel s.mem.length) s = .ok (ps, s') ∧
        (∀ b, ps none = .ret b → b = f s0.freeHead) ∧ (need none ≤ sched.count none → ps none = .ret (f s0.freeHead)) ∧
        (∀ t b, ps (some t) = .ret b → b = res t) ∧
        (∀ t, need (some t) ≤ sched.count (some t) → ps (some t) = .ret (res t)) ∧
        create s'.mem false = .ok ⟨s'.mem, s0.freeHead⟩ := by
  obtain ⟨l, ho⟩ := hu.opened'
  obtain ⟨m0, fh⟩ := s
  obtain ⟨h0, hh0, -, -⟩ := openLoop_ok m0 ho.cap (m0.length + 1) 0 (by omega) (by omega)
  have hreads := fun p hp => opener_reads (Own := Own) ho.walk p hp
  have hc : create m0 false = .ok ⟨m0, h0⟩ := by
    unfold create
    simp only [Bool.false_eq_true, if_false, hh0, Res.bind_ok]
  let R : Option ι → Nat → Prop := fun o i => match o with
    | none => ∀ t, ¬ Mine Own m0 l t i
    | some t => Quiet Own m0 l t i
  let W : Option ι → Nat → Prop := fun o i => match o with
    | none => False
    | some t => Mine Own m0 l t i
  let Q : Option ι → β → List Byte → Prop := fun o b m' => match o with
    | none => b = f h0
    | some t => (progs t).alone ⟨m0, fh⟩ = .ok (b, ⟨m', fh⟩)
  have hsafe : ∀ o, (withOpener m0.length f (fun t => (progs t).code fuel m0.length) o).Safe (R o) (W o) fh m0 (Q o) := by
    intro o
    cases o with
    | none =>
      refine Acc.Safe.bind ((openLoopA_safe (R := R none) (W := W none) ho.cap hreads _ h0 ⟨[], .nil _⟩ (by omega) hh0).mono ?_)
      rintro r m' ⟨e1, -⟩
      rw [e1]
      exact rfl
    | some t =>
      exact (code_safe ho fuel m0.length hfuel t (hown t) (progs t) m0 ⟨rfl, fun _ _ _ _ _ => rfl⟩ (hpol t)).mono
        fun _ _ h => h.1
  have hdis : ∀ o o' i, o ≠ o' → W o i → ¬ R o' i := by
    intro o o' i hne hw hr
    cases o with
    | none => exact hw
    | some t =>
      cases o' with
      | none => exact hr t hw
      | some u => exact hr t (fun e => hne (by rw [e])) hw
  have hends := fun o => (hsafe o).ends
  have hex : ∃ (res : Option ι → β) (fin : Option ι → List Byte) (need : Option ι → Nat),
      (∀ o, Q o (res o) (fin o)) ∧ ∀ o n, need o ≤ n →
        (withOpener m0.length f (fun t => (progs t).code fuel m0.length) o).steps n ⟨m0, fh⟩ = .ok (.ret (res o), ⟨fin o, fh⟩) :=
    ⟨fun t => (hends t).choose, fun t => (hends t).choose_spec.choose, fun t => (hends t).choose_spec.choose_spec.choose,
      fun t => (hends t).choose_spec.choose_spec.choose_spec.1, fun t => (hends t).choose_spec.choose_spec.choose_spec.2⟩
  obtain ⟨res, fin, need, hq, hneed⟩ := hex
  refine ⟨⟨m0, h0⟩, fun t => res (some t), fun t => ⟨fin (some t), fh⟩, need, hc, fun t => hq (some t), fun sched => ?_⟩
  obtain ⟨ps, ms, g, j1, j2, j3, j4, j5, j6⟩ := interleave_alone hdis sched _ (fun _ => m0) m0 hsafe (fun _ => rfl)
    (fun _ _ _ => rfl)
  have hdone : ∀ o, need o ≤ sched.count o → ps o = .ret (res o) := by
    intro o ht
    have h' := (j2 o).symm.trans (hneed o _ (by rw [count_option]; exact ht))
    simp only [Res.ok.injEq, Prod.mk.injEq] at h'
    exact h'.1
  refine ⟨ps, ⟨g, fh⟩, j1, fun b hb => ?_, fun h => ?_, fun t b hb => ?_, fun t h => hdone _ h, ?_⟩
  · have h := j3 none
    rw [hb] at h
    exact h
  · rw [hdone _ h, show res none = f h0 from hq none]
  · have h := j3 (some t)
    rw [hb] at h
    have h' : (progs t).alone ⟨m0, fh⟩ = .ok (b, ⟨ms (some t), fh⟩) := h
    rw [show (progs t).alone ⟨m0, fh⟩ = _ from hq (some t)] at h'
    simp only [Res.ok.injEq, Prod.mk.injEq] at h'
    exact h'.1.symm
  · have hsame : openLoop g (g.length + 1) 0 = openLoop m0 (g.length + 1) 0 := by
      refine openLoop_same ho.cap j4 (fun p hp => ?_) _ 0 ⟨[], .nil _⟩ (by omega)
      obtain ⟨r1, r2⟩ := hreads p hp
      refine ⟨j6 p fun o => ?_, j6 (p + 1) fun o => ?_⟩ <;> cases o
      · exact id
      · exact r1 _
      · exact id
      · exact r2 _
    unfold create
    simp only [Bool.false_eq_true, if_false]
    rw [hsame, j4, hh0]
    rfl

/-! ## Two counters are used while the storage is opened -/

example : ∃ need : Option Bool → Nat, ∀ sched : List (Option Bool), ∃ (ps : Option Bool → Acc (Option (List Byte))) (s' : Store),
    interleave sched (withOpener 32 (fun h => some [BitVec.ofNat 8 h]) fun t => (count (slotOf t)).code 15 32) counters =
      .ok (ps, s') ∧ (need none ≤ sched.count none → ps none = .ret (some [14])) := by
  obtain ⟨s0, res, fin, need, h0, -, h2⟩ := open_beside counters_inUse
    (fun (t : Bool) name n => name = slotOf t ∧ n = 1)
    (by
      rintro t name n ⟨rfl, rfl⟩
      cases t
      · exact ⟨[1], by decide +kernel⟩
      · exact ⟨[5], by decide +kernel⟩)
    (fun t => count (slotOf t))
    (by
      intro t
      refine ⟨?_, fun r => ⟨⟨rfl, ?_⟩, fun r => ⟨?_, fun _ => trivial⟩⟩⟩
      · rintro b m ⟨u, hu, rfl, rfl⟩ ⟨h, -⟩
        cases t <;> cases u <;> first | exact hu rfl | exact absurd h (by decide)
      · rfl
      · rintro b m ⟨u, hu, rfl, rfl⟩ ⟨h, -⟩
        cases t <;> cases u <;> first | exact hu rfl | exact absurd h (by decide))
    15 (by decide) (fun h => some [BitVec.ofNat 8 h])
  have h1 : create counters.mem false = .ok counters := by decide +kernel
  rw [h1] at h0
  cases h0
  refine ⟨need, fun sched => ?_⟩
  obtain ⟨ps, s', k1, -, k2, -⟩ := h2 sched
  exact ⟨ps, s', k1, k2⟩

/-! ## If an object is added meanwhile -/

/-- An object of 256 bytes; the size of its record is 262, `06 01`. -/
def bigA : Prog Nat := .set [0x41] (List.replicate 256 7) fun _ => .ret 0

/-- Finding: the constructor runs between the two bytes of the size of a new record.  It takes the record for one of six
bytes; the storage object it makes has its free head at the first byte of the data, and the first new object set through it
destroys the other one, although both calls answer success. -/
theorem open_torn : ∃ (sched : List (Option Unit)) (ps : Option Unit → Acc Nat) (s' s'' : Store),
    interleave sched (withOpener 300 id fun _ => bigA.code 400 300) ⟨List.replicate 300 0, 0⟩ = .ok (ps, s') ∧
    (ps none).result = some 6 ∧ (ps (some ())).result = some 0 ∧ s'.freeHead = 262 ∧
    get s' [0x41] 256 = .ok (some (List.replicate 256 7)) ∧ set ⟨s'.mem, 6⟩ [0x42] [1] = .ok (s'', true) ∧
    get ⟨s''.mem, 262⟩ [0x41] 256 = .ok (some ([7, 0, 0x42, 0, 0, 0, 1] ++ List.replicate 249 7)) := by
  have h : (match interleave (List.replicate 8 (some ()) ++ List.replicate 12 none ++ List.replicate 300 (some ()))
      (withOpener 300 id fun _ => bigA.code 400 300) ⟨List.replicate 300 0, 0⟩ with
    | .ok (ps, s') => match set ⟨s'.mem, 6⟩ [0x42] [1] with
      | .ok (s'', b) => decide (((ps none).result = some 6 ∧ (ps (some ())).result = some 0 ∧ s'.freeHead = 262 ∧
          get s' [0x41] 256 = .ok (some (List.replicate 256 7))) ∧ b = true ∧
          get ⟨s''.mem, 262⟩ [0x41] 256 = .ok (some ([7, 0, 0x42, 0, 0, 0, 1] ++ List.replicate 249 7)))
      | _ => false
    | _ => false) = true := by decide +kernel
  split at h
  · rename_i ps s' he
    split at h
    · rename_i s'' b hs
      obtain ⟨⟨h1, h2, h3, h4⟩, rfl, h5⟩ := of_decide_eq_true h
      exact ⟨_, ps, s', s'', he, h1, h2, h3, h4, hs, h5⟩
    · cases h
  · cases h

end Verif.Storage
