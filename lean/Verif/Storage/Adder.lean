import Verif.Storage.Tasks
/-!
# One task which adds objects (C130)

As C129, but one of the tasks (the adder) may also store new objects and look for objects which may be missing.  The
others use objects which were present from the beginning.  All accesses to bytes stay free of races; `free_head_` is
written by the adder while others read it.  It is an ordinary 32-bit member, so the interleaving semantics used here is
an assumption for it (a single core with the adder interrupted between accesses, or an atomic member).
-/
namespace Verif.Storage

/-- As `Acc.Safe`, for the adder (`adds`) and for the others, which must not depend on how far `free_head_` is above
`lo`. -/
def Acc.Part {α : Type} (adds : Bool) (R W : Nat → Prop) (lo : Nat) : Acc α → Store → (α → Store → Prop) → Prop
  | .ret a, s, Q => Q a s
  | .hang, _, _ => False
  | .head k, s, Q => (adds = false → ∀ h, lo ≤ h → k h = k s.freeHead) ∧ (k s.freeHead).Part adds R W lo s Q
  | .setHead n k, s, Q => adds = true ∧ lo ≤ n ∧ n ≤ s.mem.length ∧ k.Part adds R W lo ⟨s.mem, n⟩ Q
  | .read i k, s, Q => R i ∧ ∃ b, s.mem[i]? = some b ∧ (k b).Part adds R W lo s Q
  | .write i b k, s, Q => W i ∧ i < s.mem.length ∧ k.Part adds R W lo ⟨s.mem.set i b, s.freeHead⟩ Q

section Rules
variable {α β : Type} {adds : Bool} {R W : Nat → Prop} {lo : Nat}

theorem Acc.Part.mono {p : Acc α} {s : Store} {Q Q' : α → Store → Prop} (h : p.Part adds R W lo s Q)
    (hq : ∀ a s, Q a s → Q' a s) : p.Part adds R W lo s Q' := by
  induction p generalizing s with
  | ret a => exact hq _ _ h
  | hang => exact h
  | head k ih => exact ⟨h.1, ih _ h.2⟩
  | setHead n k ih => obtain ⟨h1, h2, h3, h4⟩ := h; exact ⟨h1, h2, h3, ih h4⟩
  | read i k ih => obtain ⟨h1, b, h2, h3⟩ := h; exact ⟨h1, b, h2, ih b h3⟩
  | write i b k ih => obtain ⟨h1, h2, h3⟩ := h; exact ⟨h1, h2, ih h3⟩

theorem Acc.Part.bind {p : Acc α} {f : α → Acc β} {s : Store} {Q : β → Store → Prop}
    (h : p.Part adds R W lo s fun a s' => (f a).Part adds R W lo s' Q) : (p.bind f).Part adds R W lo s Q := by
  induction p generalizing s with
  | ret a => exact h
  | hang => exact h
  | head k ih => exact ⟨fun ha n hn => congrArg (fun p => Acc.bind p f) (h.1 ha n hn), ih _ h.2⟩
  | setHead n k ih => obtain ⟨h1, h2, h3, h4⟩ := h; exact ⟨h1, h2, h3, ih h4⟩
  | read i k ih => obtain ⟨h1, b, h2, h3⟩ := h; exact ⟨h1, b, h2, ih b h3⟩
  | write i b k ih => obtain ⟨h1, h2, h3⟩ := h; exact ⟨h1, h2, ih h3⟩

theorem Acc.Part.exact {p : Acc α} {s : Store} (h : p.Part adds R W lo s fun _ _ => True) {a : α} {s' : Store}
    (he : p.exec s = .ok (a, s')) : p.Part adds R W lo s fun a1 s1 => a1 = a ∧ s1 = s' := by
  induction p generalizing s with
  | ret a => cases he; exact ⟨rfl, rfl⟩
  | hang => exact h
  | head k ih => exact ⟨h.1, ih _ h.2 he⟩
  | setHead n k ih => obtain ⟨h1, h2, h3, h4⟩ := h; exact ⟨h1, h2, h3, ih h4 he⟩
  | read i k ih =>
    obtain ⟨h1, b, h2, h3⟩ := h
    simp only [exec, h2] at he
    exact ⟨h1, b, h2, ih b h3 he⟩
  | write i b k ih =>
    obtain ⟨h1, h2, h3⟩ := h
    simp only [exec] at he
    rw [if_pos h2] at he
    exact ⟨h1, h2, ih h3 he⟩

/-- The adder may do what any task may. -/
theorem Acc.Safe.part {p : Acc α} {m : List Byte} {fh : Nat} {Q : α → List Byte → Prop} (h : p.Safe R W fh m Q) :
    p.Part true R W lo ⟨m, fh⟩ fun a s => s.freeHead = fh ∧ Q a s.mem := by
  induction p generalizing m with
  | ret a => exact ⟨rfl, h⟩
  | hang => exact h.elim
  | head k ih => exact ⟨fun h => (Bool.noConfusion h), ih _ h⟩
  | setHead n k ih => exact h.elim
  | read i k ih => obtain ⟨h1, b, h2, h3⟩ := h; exact ⟨h1, b, h2, ih b h3⟩
  | write i b k ih => obtain ⟨h1, h2, h3⟩ := h; exact ⟨h1, h2, ih h3⟩

theorem Acc.Part.ends {p : Acc α} {s : Store} {Q : α → Store → Prop} (h : p.Part adds R W lo s Q) :
    ∃ (a : α) (s' : Store) (N : Nat), Q a s' ∧ ∀ n, N ≤ n → p.steps n s = .ok (.ret a, s') := by
  induction p generalizing s with
  | ret a => exact ⟨a, s, 0, h, fun n _ => steps_ret n a _⟩
  | hang => exact h.elim
  | head k ih =>
    obtain ⟨a, s', N, hq, hs⟩ := ih _ h.2
    refine ⟨a, s', N + 1, hq, fun n hn => ?_⟩
    obtain ⟨n, rfl⟩ : ∃ j, n = j + 1 := ⟨n - 1, by omega⟩
    exact hs n (by omega)
  | setHead n k ih =>
    obtain ⟨h1, h2, h3, h4⟩ := h
    obtain ⟨a, s', N, hq, hs⟩ := ih h4
    refine ⟨a, s', N + 1, hq, fun n hn => ?_⟩
    obtain ⟨n, rfl⟩ : ∃ j, n = j + 1 := ⟨n - 1, by omega⟩
    exact hs n (by omega)
  | read i k ih =>
    obtain ⟨h1, b, h2, h3⟩ := h
    obtain ⟨a, s', N, hq, hs⟩ := ih b h3
    refine ⟨a, s', N + 1, hq, fun n hn => ?_⟩
    obtain ⟨n, rfl⟩ : ∃ j, n = j + 1 := ⟨n - 1, by omega⟩
    simp only [steps, step, h2]
    exact hs n (by omega)
  | write i b k ih =>
    obtain ⟨h1, h2, h3⟩ := h
    obtain ⟨a, s', N, hq, hs⟩ := ih h3
    refine ⟨a, s', N + 1, hq, fun n hn => ?_⟩
    obtain ⟨n, rfl⟩ : ∃ j, n = j + 1 := ⟨n - 1, by omega⟩
    simp only [steps, step, if_pos h2]
    exact hs n (by omega)

/-- How the private memory of a task and the common one belong together. -/
structure Fits (adds : Bool) (R : Nat → Prop) (lo : Nat) (s g : Store) : Prop where
  len : g.mem.length = s.mem.length
  same : ∀ i, R i → g.mem[i]? = s.mem[i]?
  head : if adds then g.freeHead = s.freeHead else s.freeHead = lo
  above : lo ≤ g.freeHead
  below : g.freeHead ≤ g.mem.length

theorem Acc.Part.step {p : Acc α} {s g : Store} {Q : α → Store → Prop} (h : p.Part adds R W lo s Q)
    (hg : Fits adds R lo s g) :
    ∃ (p' : Acc α) (s' g' : Store), p.step s = .ok (p', s') ∧ p.step g = .ok (p', g') ∧ p'.Part adds R W lo s' Q ∧
      Fits adds R lo s' g' ∧ g'.mem.length = g.mem.length ∧ (∀ i, ¬ W i → g'.mem[i]? = g.mem[i]?) ∧
      (adds = false → g'.freeHead = g.freeHead) := by
  obtain ⟨hl, hs, hh, ha, hb⟩ := hg
  cases p with
  | ret a => exact ⟨_, s, g, rfl, rfl, h, ⟨hl, hs, hh, ha, hb⟩, rfl, fun _ _ => rfl, fun _ => rfl⟩
  | hang => exact h.elim
  | head k =>
    refine ⟨_, s, g, rfl, ?_, h.2, ⟨hl, hs, hh, ha, hb⟩, rfl, fun _ _ => rfl, fun _ => rfl⟩
    simp only [Acc.step, Res.ok.injEq, Prod.mk.injEq, and_true]
    cases adds with
    | true => rw [show g.freeHead = s.freeHead from hh]
    | false => exact h.1 rfl _ ha
  | setHead n k =>
    obtain ⟨h1, h2, h3, h4⟩ := h
    subst h1
    exact ⟨k, ⟨s.mem, n⟩, ⟨g.mem, n⟩, rfl, rfl, h4, ⟨hl, hs, rfl, h2, by simpa [hl] using h3⟩, rfl, fun _ _ => rfl,
      fun h => by cases h⟩
  | read i k =>
    obtain ⟨h1, b, h2, h3⟩ := h
    refine ⟨k b, s, g, ?_, ?_, h3, ⟨hl, hs, hh, ha, hb⟩, rfl, fun _ _ => rfl, fun _ => rfl⟩
    · simp only [Acc.step, h2]
    · simp only [Acc.step, hs i h1, h2]
  | write i b k =>
    obtain ⟨h1, h2, h3⟩ := h
    refine ⟨k, ⟨s.mem.set i b, s.freeHead⟩, ⟨g.mem.set i b, g.freeHead⟩, ?_, ?_, h3,
      ⟨by simpa using hl, fun j hj => ?_, hh, ha, by simpa using hb⟩, by simp, fun j hj => ?_, fun _ => rfl⟩
    · simp only [Acc.step, if_pos h2]
    · simp only [Acc.step]; rw [if_pos (by omega)]
    · simp only [List.getElem?_set, hl, hs j hj]
    · rw [List.getElem?_set, if_neg]
      rintro rfl; exact hj h1

end Rules

/-- The counterpart of `interleave_alone` with one task which writes `free_head_`. -/
theorem interleave_adder {ι β : Type} [DecidableEq ι] {adds : ι → Bool} {R W : ι → Nat → Prop} {lo : Nat}
    {Q : ι → β → Store → Prop} (hone : ∀ t u, adds t = true → adds u = true → t = u)
    (hdis : ∀ t u i, t ≠ u → W t i → ¬ R u i) (sched : List ι) :
    ∀ (ps : ι → Acc β) (st : ι → Store) (g : Store), (∀ t, (ps t).Part (adds t) (R t) (W t) lo (st t) (Q t)) →
      (∀ t, Fits (adds t) (R t) lo (st t) g) → lo ≤ g.freeHead → g.freeHead ≤ g.mem.length →
      ∃ (ps' : ι → Acc β) (st' : ι → Store) (g' : Store), interleave sched ps g = .ok (ps', g') ∧
        (∀ t, (ps t).steps (sched.count t) (st t) = .ok (ps' t, st' t)) ∧
        (∀ t, (ps' t).Part (adds t) (R t) (W t) lo (st' t) (Q t)) ∧ (∀ t, Fits (adds t) (R t) lo (st' t) g') ∧
        lo ≤ g'.freeHead ∧ g'.freeHead ≤ g'.mem.length ∧ g'.mem.length = g.mem.length ∧
        ∀ i, (∀ t, ¬ W t i) → g'.mem[i]? = g.mem[i]? := by
  induction sched with
  | nil => intro ps st g h1 h2 h3 h4; exact ⟨ps, st, g, rfl, fun _ => rfl, h1, h2, h3, h4, rfl, fun _ _ => rfl⟩
  | cons t ts ih =>
    intro ps st g h1 h2 h3 h4
    obtain ⟨p', s', g1, k1, k2, k3, k4, k5, k6, k7⟩ := (h1 t).step (h2 t)
    obtain ⟨ps', st', g', j1, j2, j3, j4, j5, j6, j7, j8⟩ := ih (put ps t p') (put st t s') g1
      (fun u => by
        by_cases hu : u = t
        · subst hu; rw [put_same, put_same]; exact k3
        · rw [put_other _ _ hu, put_other _ _ hu]; exact h1 u)
      (fun u => by
        by_cases hu : u = t
        · subst hu; rw [put_same]; exact k4
        · rw [put_other _ _ hu]
          obtain ⟨f1, f2, f3, f4, f5⟩ := h2 u
          refine ⟨by rw [k5, f1], fun i hi => ?_, ?_, k4.above, k4.below⟩
          · rw [k6 i fun hw => hdis t u i (Ne.symm hu) hw hi]; exact f2 i hi
          · cases hau : adds u with
            | false => rw [hau] at f3; exact f3
            | true =>
              have : adds t = false := by
                cases hat : adds t with
                | false => rfl
                | true => exact absurd (hone u t hau hat) hu
              rw [hau] at f3
              rw [if_pos rfl, k7 this]
              exact f3)
      k4.above k4.below
    refine ⟨ps', st', g', ?_, fun u => ?_, j3, j4, j5, j6, by rw [j7, k5], fun i hi => by rw [j8 i hi, k6 i (hi t)]⟩
    · rw [interleave, k2]; exact j1
    · have := j2 u
      by_cases hu : u = t
      · subst hu
        rw [put_same, put_same] at this
        rw [List.count_cons_self, Acc.steps, k1]; exact this
      · rw [put_other _ _ hu, put_other _ _ hu] at this
        rw [List.count_cons_of_ne (Ne.symm hu)]; exact this

/-! ## The others: objects which are present -/

section Others
variable {R W : Nat → Prop} {lo : Nat}

theorem readNA_part {adds : Bool} {p n : Nat} {s : Store} (hr : ∀ i, p ≤ i → i < p + n → R i)
    (h : p + n ≤ s.mem.length) : (readNA p n).Part adds R W lo s fun r s' => r = sub s.mem p n ∧ s' = s := by
  refine Acc.Part.exact ?_ (readNA_exec p n s h)
  induction n generalizing p with
  | zero => trivial
  | succ n ih =>
    refine ⟨hr p (by omega) (by omega), _, List.getElem?_eq_getElem (by omega), ?_⟩
    exact Acc.Part.bind (Q := fun _ _ => True) (ih (fun i h1 h2 => hr i (by omega) (by omega)) (by omega))

theorem nodeSizeA_part {adds : Bool} {p v : Nat} {s : Store} (h0 : R p) (h1 : R (p + 1)) (hv : nodeSize s.mem p = .ok v) :
    (nodeSizeA p).Part adds R W lo s fun r s' => r = v ∧ s' = s := by
  refine Acc.Part.exact ?_ (by rw [nodeSizeA_exec, hv]; rfl)
  unfold nodeSize at hv
  rw [Res.bind_eq_ok] at hv
  obtain ⟨lo', k1, hv⟩ := hv
  rw [Res.bind_eq_ok] at hv
  obtain ⟨hi, k2, -⟩ := hv
  cases e1 : s.mem[p]? with
  | none => rw [e1] at k1; cases k1
  | some b1 =>
    cases e2 : s.mem[p + 1]? with
    | none => rw [e2] at k2; cases k2
    | some b2 => exact ⟨h0, b1, e1, h1, b2, e2, trivial⟩

theorem nodeMatchesA_part {adds : Bool} {p v : Nat} {s : Store} (hr : ∀ i, p ≤ i → i < p + 6 → R i)
    (hp : p + 6 ≤ s.mem.length) (hv : nodeSize s.mem p = .ok v) (name : List Byte) (n : Nat) :
    (nodeMatchesA p name n).Part adds R W lo s fun r s' => r = hit s.mem name n (p, v) ∧ s' = s := by
  refine Acc.Part.exact ?_ (by rw [nodeMatchesA_exec, nodeMatches_hit hp hv]; rfl)
  unfold nodeMatchesA
  split
  · trivial
  · refine Acc.Part.bind ((readNA_part (fun i h1 h2 => hr i (by omega) (by omega)) (by omega)).mono ?_)
    rintro idx s' ⟨-, rfl⟩
    split
    · refine Acc.Part.bind ((nodeSizeA_part (hr _ (by omega) (by omega)) (hr _ (by omega) (by omega)) hv).mono ?_)
      intros; trivial
    · trivial

/-- Looking for an object which is present never meets the free head. -/
theorem getIdxLoopA_part {m : List Byte} (hcap : CapOk m.length) {fh pos : Nat} {l : List (Nat × Nat)}
    (hw : WalkL m pos l fh) (hr : ∀ e ∈ l, e.1 + 6 ≤ lo → ∀ i, e.1 ≤ i → i < e.1 + 6 → R i) (name : List Byte) (n fuel : Nat)
    (hfuel : fh - pos < fuel) (hlo : lo ≤ fh) {e : Nat × Nat} (hf : l.find? (hit m name n) = some e)
    (he : e.1 + 6 ≤ lo) :
    (getIdxLoopA name n fuel pos).Part false R W lo ⟨m, fh⟩ fun r s' => r = some e.1 ∧ s' = ⟨m, fh⟩ := by
  refine Acc.Part.exact ?_ (by rw [getIdxLoopA_exec, getIdxLoop_list hcap hw name n fuel hfuel, hf]; rfl)
  induction fuel generalizing pos l with
  | zero => omega
  | succ f ih =>
    rw [getIdxLoopA]
    cases hw with
    | nil => simp at hf
    | cons _ v _ l h1 h2 h3 h4 h5 =>
      have hle := h5.le
      have hpos : pos + 6 ≤ lo := by
        have hem := List.mem_of_find?_eq_some hf
        rcases List.mem_cons.1 hem with rfl | hem
        · exact he
        · have := (h5.mem e hem).1; omega
      refine ⟨fun _ h hh => ?_, ?_⟩
      · simp only [descSize]
        rw [if_pos (by omega), if_pos (by omega)]
      simp only [descSize]
      rw [if_pos (by omega)]
      refine Acc.Part.bind ((nodeMatchesA_part (hr (pos, v) (by simp) hpos) h1 h2 name n).mono ?_)
      rintro b s' ⟨hb, rfl⟩
      cases b with
      | true => trivial
      | false =>
        refine Acc.Part.bind ((nodeSizeA_part (hr (pos, v) (by simp) hpos _ (by simp) (by simp))
          (hr (pos, v) (by simp) hpos _ (by simp) (by simp)) h2).mono ?_)
        rintro w s'' ⟨rfl, rfl⟩
        simp only [CapOk] at hcap
        rw [add32_of_lt (by omega)]
        rw [List.find?_cons, ← hb] at hf
        exact ih h5 (fun e he => hr e (by simp [he])) (by omega) hf

theorem getA_part {m : List Byte} {fh : Nat} {l : List (Nat × Nat)} (ho : Opened ⟨m, fh⟩ l)
    (hr : ∀ e ∈ l, e.1 + 6 ≤ lo → ∀ i, e.1 ≤ i → i < e.1 + 6 → R i) (name : List Byte) (n : Nat) {e : Nat × Nat}
    (hf : l.find? (hit m name n) = some e) (hd : ∀ i, e.1 + 6 ≤ i → i < e.1 + 6 + n → R i) (fuel : Nat) (hfuel : fh < fuel)
    (hlo : lo ≤ fh) (he6 : e.1 + 6 ≤ lo) :
    (getA fuel name n).Part false R W lo ⟨m, fh⟩ fun r s' => get ⟨m, fh⟩ name n = .ok r ∧ s' = ⟨m, fh⟩ := by
  refine Acc.Part.bind ((getIdxLoopA_part ho.cap ho.walk hr name n fuel (by simpa using hfuel) hlo hf he6).mono ?_)
  rintro r s' ⟨rfl, rfl⟩
  rw [ho.get]
  unfold view
  have he := List.mem_of_find?_eq_some hf
  obtain ⟨g1, g2, g3, g4, g5, g6⟩ := ho.walk.mem e he
  obtain ⟨k1, k2, k3⟩ := hit_size (List.find?_some hf)
  have hh := List.find?_some hf
  refine Acc.Part.bind ((nodeMatchesA_part (s := ⟨m, fh⟩) (hr e he he6) g4 g3 name n).mono ?_)
  rintro b m'' ⟨rfl, rfl⟩
  rw [hh]
  simp only at g6
  refine Acc.Part.bind ((readNA_part (s := ⟨m, fh⟩) hd (by simp only; omega)).mono ?_)
  rintro d m3 ⟨rfl, rfl⟩
  rw [hf]
  exact ⟨rfl, rfl⟩

theorem writeNA_part {adds : Bool} {p : Nat} {bs : List Byte} {s : Store} (hr : ∀ i, p ≤ i → i < p + bs.length → W i)
    (h : p + bs.length ≤ s.mem.length) :
    (writeNA p bs).Part adds R W lo s fun _ s' => s'.freeHead = s.freeHead ∧ applyWrites s.mem (writesAt p bs) = .ok s'.mem := by
  induction bs generalizing p s with
  | nil => exact ⟨rfl, rfl⟩
  | cons b bs ih =>
    rw [List.length_cons] at hr h
    refine ⟨hr p (by omega) (by omega), by omega, ?_⟩
    refine (ih (s := ⟨s.mem.set p b, s.freeHead⟩) (fun i h1 h2 => hr i (by omega) (by omega))
      (by simp only [List.length_set]; omega)).mono ?_
    rintro _ s' ⟨h1, hm⟩
    rw [writesAt_cons, applyWrites, if_pos (by omega)]
    exact ⟨h1, hm⟩

theorem set_found {m : List Byte} {fh : Nat} {l : List (Nat × Nat)} (ho : Opened ⟨m, fh⟩ l) {name obj : List Byte}
    {e : Nat × Nat} (hf : l.find? (hit m name obj.length) = some e) {m' : List Byte}
    (hm : applyWrites m (writesAt (e.1 + 6) obj) = .ok m') :
    set ⟨m, fh⟩ name obj = .ok (⟨m', fh⟩, true) ∧ m'.length = m.length ∧
      ∀ i, i < e.1 + 6 ∨ e.1 + 6 + obj.length ≤ i → m'[i]? = m[i]? := by
  refine ⟨?_, (applyWrites_frame hm).1, fun i hi => (applyWrites_frame hm).2.1 i ?_⟩
  · unfold set setPlan getIdx
    rw [getIdxLoop_list ho.cap ho.walk _ _ _ (by simp), hf]
    simp only [Option.map_some, Res.bind_ok, descSize, hm]
  · intro w hw hwi
    unfold writesAt at hw
    rw [List.mem_mapIdx] at hw
    obtain ⟨j, hj, rfl⟩ := hw
    simp only at hwi
    omega

theorem setA_part {m : List Byte} {fh : Nat} {l : List (Nat × Nat)} (ho : Opened ⟨m, fh⟩ l)
    (hr : ∀ e ∈ l, e.1 + 6 ≤ lo → ∀ i, e.1 ≤ i → i < e.1 + 6 → R i) (name obj : List Byte) {e : Nat × Nat}
    (hf : l.find? (hit m name obj.length) = some e) (hd : ∀ i, e.1 + 6 ≤ i → i < e.1 + 6 + obj.length → W i)
    (fuel cap : Nat) (hfuel : fh < fuel) (hlo : lo ≤ fh) (he6 : e.1 + 6 ≤ lo) :
    (setA fuel cap name obj).Part false R W lo ⟨m, fh⟩ fun r s' => r = true ∧ s'.freeHead = fh ∧
      set ⟨m, fh⟩ name obj = .ok (s', r) ∧ s'.mem.length = m.length ∧
      ∀ i, i < e.1 + 6 ∨ e.1 + 6 + obj.length ≤ i → s'.mem[i]? = m[i]? := by
  refine Acc.Part.bind ((getIdxLoopA_part ho.cap ho.walk hr name obj.length fuel (by simpa using hfuel) hlo hf he6).mono ?_)
  rintro r s1 ⟨rfl, rfl⟩
  obtain ⟨g1, g2, g3, g4, g5, g6⟩ := ho.walk.mem e (List.mem_of_find?_eq_some hf)
  obtain ⟨k1, k2, k3⟩ := hit_size (List.find?_some hf)
  simp only at g6
  refine Acc.Part.bind ((writeNA_part (s := ⟨m, fh⟩) hd (by simp only; omega)).mono ?_)
  rintro _ ⟨m', fh'⟩ ⟨hfh, hm⟩
  obtain ⟨w1, w2, w3⟩ := set_found ho hf hm
  simp only at hfh
  subst hfh
  exact ⟨rfl, rfl, w1, w2, w3⟩

end Others

/-! ## The adder -/

section Lead
variable {R W : Nat → Prop} {lo : Nat}

/-- What `set` changes. -/
theorem set_grow {s s' : Store} {L : List (Nat × Nat)} (ho : Opened s L) {name obj : List Byte} {r : Bool}
    (hsz : 6 + obj.length < 65536) (h : set s name obj = .ok (s', r)) :
    ∃ x, Opened s' (L ++ x) ∧ (∀ e ∈ x, s.freeHead ≤ e.1) ∧ s.freeHead ≤ s'.freeHead ∧
      s'.mem.length = s.mem.length ∧ ∀ i : Nat, s'.mem[i]? = s.mem[i]? ∨ s.freeHead ≤ i ∨
        ∃ e, L.find? (hit s.mem name obj.length) = some e ∧ e.1 + 6 ≤ i ∧ i < e.1 + 6 + obj.length := by
  cases hf : L.find? (hit s.mem name obj.length) with
  | some e =>
    obtain ⟨s1, h1, h2, h3, h4, -⟩ := ho.set_hit hf
    rw [h1] at h
    simp only [Res.ok.injEq, Prod.mk.injEq] at h
    obtain ⟨rfl, -⟩ := h
    refine ⟨[], by simpa using h4, by simp, by omega, h3, fun i => ?_⟩
    unfold set setPlan getIdx at h1
    rw [getIdxLoop_list ho.cap ho.walk _ _ _ (by omega), hf] at h1
    simp only [Option.map_some, Res.bind_ok, descSize] at h1
    rw [Res.bind_eq_ok] at h1
    obtain ⟨m', hm, h1⟩ := h1
    simp only [Res.ok.injEq, Prod.mk.injEq, and_true] at h1
    subst h1
    by_cases hi : e.1 + 6 ≤ i ∧ i < e.1 + 6 + obj.length
    · exact .inr (.inr ⟨e, rfl, hi⟩)
    · refine .inl ((applyWrites_frame hm).2.1 i fun w hw hwi => ?_)
      unfold writesAt at hw
      rw [List.mem_mapIdx] at hw
      obtain ⟨j, hj, rfl⟩ := hw
      simp only at hwi
      omega
  | none =>
    by_cases hroom : s.mem.length < s.freeHead + 6 + obj.length
    · rw [ho.set_full hf hroom] at h
      simp only [Res.ok.injEq, Prod.mk.injEq] at h
      obtain ⟨rfl, -⟩ := h
      exact ⟨[], by simpa using ho, by simp, Nat.le_refl _, rfl, fun _ => .inl rfl⟩
    · obtain ⟨s1, h1, h2, h3, h4, -⟩ := ho.set_new hf (by omega) hsz
      rw [h1] at h
      simp only [Res.ok.injEq, Prod.mk.injEq] at h
      obtain ⟨rfl, -⟩ := h
      refine ⟨_, h4, by simp, by omega, h3, fun i => ?_⟩
      unfold set setPlan getIdx at h1
      rw [getIdxLoop_list ho.cap ho.walk _ _ _ (by omega), hf] at h1
      simp only [Option.map_none, Res.bind_ok, descSize] at h1
      rw [if_neg (by omega)] at h1
      simp only [Res.bind_ok] at h1
      rw [Res.bind_eq_ok] at h1
      obtain ⟨m', hm, h1⟩ := h1
      simp only [Res.ok.injEq, Prod.mk.injEq, and_true] at h1
      subst h1
      by_cases hi : s.freeHead ≤ i
      · exact .inr (.inl hi)
      · refine .inl ((applyWrites_frame hm).2.1 i fun w hw hwi => ?_)
        simp only [List.mem_append, writesAt, List.mem_mapIdx] at hw
        rcases hw with (⟨j, hj, rfl⟩ | ⟨j, hj, rfl⟩) | ⟨j, hj, rfl⟩ <;> simp only at hwi <;> omega

theorem setA_exec_fuel {s : Store} {L : List (Nat × Nat)} (ho : Opened s L) (name obj : List Byte) (fuel : Nat)
    (hfuel : s.freeHead < fuel) :
    (setA fuel s.mem.length name obj).exec s = (set s name obj >>= fun r => .ok (r.2, r.1)) := by
  rw [← setA_exec]
  unfold setA
  rw [Acc.exec_bind, Acc.exec_bind, getIdxLoopA_exec, getIdxLoopA_exec, getIdxLoop_list ho.cap ho.walk _ _ _ (by omega),
    getIdxLoop_list ho.cap ho.walk _ _ _ (by omega)]

theorem setA_lead {m : List Byte} {fh : Nat} {L : List (Nat × Nat)} (ho : Opened ⟨m, fh⟩ L)
    (hr : ∀ e ∈ L, ∀ i, e.1 ≤ i → i < e.1 + 6 → R i) (name obj : List Byte)
    (hd : ∀ e, L.find? (hit m name obj.length) = some e → ∀ i, e.1 + 6 ≤ i → i < e.1 + 6 + obj.length → W i)
    (hnew : ∀ i, lo ≤ i → W i) (hsz : 6 + obj.length < 65536) (fuel : Nat) (hfuel : fh < fuel) (hlo : lo ≤ fh) :
    (setA fuel m.length name obj).Part true R W lo ⟨m, fh⟩ fun r s' => set ⟨m, fh⟩ name obj = .ok (s', r) := by
  have hset : ∃ s' r, set ⟨m, fh⟩ name obj = .ok (s', r) := by
    cases hf : L.find? (hit m name obj.length) with
    | some e => obtain ⟨s', h, -⟩ := ho.set_hit hf; exact ⟨s', _, h⟩
    | none =>
      by_cases hroom : m.length < fh + 6 + obj.length
      · exact ⟨_, _, ho.set_full hf hroom⟩
      · obtain ⟨s', h, -⟩ := ho.set_new hf (by simp only; omega) hsz; exact ⟨s', _, h⟩
  obtain ⟨s', r, hset⟩ := hset
  have hex := setA_exec_fuel ho name obj fuel hfuel
  rw [hset] at hex
  refine (Acc.Part.exact ?_ hex).mono ?_
  · refine Acc.Part.bind (((getIdxLoopA_safe ho.cap ho.walk hr name obj.length fuel (by simpa using hfuel)).part).mono ?_)
    rintro q ⟨m1, fh1⟩ ⟨h1, rfl, h2⟩
    simp only at h1 h2
    subst h1 h2
    have hh := ho.head
    simp only at hh
    cases hf : L.find? (hit m1 name obj.length) with
    | some e =>
      obtain ⟨g1, g2, g3, g4, g5, g6⟩ := ho.walk.mem e (List.mem_of_find?_eq_some hf)
      obtain ⟨k1, k2, k3⟩ := hit_size (List.find?_some hf)
      simp only at g6
      exact Acc.Part.bind ((writeNA_part (s := ⟨m1, fh1⟩) (hd e hf) (by simp only; omega)).mono fun _ _ _ => trivial)
    | none =>
      refine ⟨fun h => Bool.noConfusion h, ?_⟩
      simp only
      split
      · trivial
      · rename_i hroom
        simp only [descSize] at hroom
        refine ⟨fun h => Bool.noConfusion h, ?_⟩
        simp only
        refine Acc.Part.bind ((writeNA_part (s := ⟨m1, fh1⟩) (fun i h1 _ => hnew i (by omega))
          (by rw [storedIdx_length]; simp only; omega)).mono ?_)
        rintro _ ⟨m2, fh2⟩ ⟨q2, w2⟩
        have q2 : fh1 = fh2 := q2.symm
        subst q2
        have l2 := (applyWrites_frame w2).1
        simp only at l2
        refine Acc.Part.bind ((writeNA_part (s := ⟨m2, fh1⟩) (fun i h1 _ => hnew i (by omega))
          (by simp only [le16, List.length_cons, List.length_nil]; omega)).mono ?_)
        rintro _ ⟨m3, fh3⟩ ⟨q3, w3⟩
        have q3 : fh1 = fh3 := q3.symm
        subst q3
        have l3 := (applyWrites_frame w3).1
        simp only at l3
        refine Acc.Part.bind ((writeNA_part (s := ⟨m3, fh1⟩) (fun i h1 _ => hnew i (by omega))
          (by simp only [descSize]; omega)).mono ?_)
        rintro _ ⟨m4, fh4⟩ ⟨q4, w4⟩
        have q4 : fh1 = fh4 := q4.symm
        subst q4
        have l4 := (applyWrites_frame w4).1
        simp only at l4
        have hcap := ho.cap
        simp only [CapOk] at hcap
        refine ⟨fun h => Bool.noConfusion h, rfl, ?_, ?_, trivial⟩
        · rw [add32_of_lt (by simp only [descSize]; omega)]; simp only; omega
        · rw [add32_of_lt (by simp only [descSize]; omega)]; simp only [descSize]; omega
  · rintro a s1 ⟨rfl, rfl⟩; exact hset

end Lead

/-! ## The theorems -/

section Owners
variable {ι β : Type} {m0 : List Byte} {lo : Nat} {l : List (Nat × Nat)} {Own : ι → List Byte → Nat → Prop}

/-- The descriptors below `lo` are what they were. -/
def Heads' (m0 : List Byte) (l : List (Nat × Nat)) (lo : Nat) (m : List Byte) : Prop :=
  m.length = m0.length ∧ ∀ e ∈ l, ∀ i, e.1 ≤ i → i < e.1 + 6 → i < lo → m[i]? = m0[i]?

theorem Heads'.hit (h : Heads' m0 l lo m) (hw : WalkL m0 0 l lo) (name : List Byte) (n : Nat) {e : Nat × Nat} (he : e ∈ l) :
    Storage.hit m name n e = Storage.hit m0 name n e := by
  unfold Storage.hit
  by_cases h6 : e.2 = 6 + n
  · have := (hw.mem e he).2.1
    rw [sub_congr (m' := m) (m := m0) fun i h1 h2 => h.2 e he i (by omega) (by omega) (by omega)]
  · simp [h6]

theorem Heads'.walk {m : List Byte} (h : Heads' m0 l lo m) (ho : Opened ⟨m0, lo⟩ l) : WalkL m 0 l lo := by
  refine ho.walk.congr h.1 fun e he => ?_
  have ht := ho.tail e he
  simp only at ht
  exact nodeSize_congr (h.2 e he _ (by omega) (by omega) (by omega)) (h.2 e he _ (by omega) (by omega) (by omega))

theorem Heads'.opened {m : List Byte} (h : Heads' m0 l lo m) (ho : Opened ⟨m0, lo⟩ l) : Opened ⟨m, lo⟩ l :=
  ⟨by simp only [h.1]; exact ho.cap, by simp only [h.1]; exact ho.head, h.walk ho, ho.tail⟩

theorem Heads'.hits {m : List Byte} (h : Heads' m0 l lo m) (hw : WalkL m0 0 l lo) (name : List Byte) (n : Nat) :
    l.find? (Storage.hit m name n) = l.find? (Storage.hit m0 name n) := find_congr fun _ he => h.hit hw name n he

theorem mine_below (hw : WalkL m0 0 l lo) {t : ι} {i : Nat} (h : Mine Own m0 l t i) : i < lo := by
  obtain ⟨name, n, e, -, hf, h1, h2⟩ := h
  have := (hw.mem e (List.mem_of_find?_eq_some hf)).2.1
  have := (hit_size (List.find?_some hf)).2.1
  omega

/-- What the adder may write: its objects and everything behind the objects there are. -/
def LeadW (Own : ι → List Byte → Nat → Prop) (m0 : List Byte) (l : List (Nat × Nat)) (lo : Nat) (t : ι) (i : Nat) : Prop :=
  Mine Own m0 l t i ∨ lo ≤ i

theorem lead_part {t : ι} (ho : Opened ⟨m0, lo⟩ l) (fuel : Nat) (hfuel : m0.length < fuel)
    (hown : ∀ name n, Own t name n → ∃ v, get ⟨m0, lo⟩ name n = .ok (some v)) (p : Prog β) :
    ∀ (m : List Byte) (fh : Nat) (x : List (Nat × Nat)), Heads' m0 l lo m → Opened ⟨m, fh⟩ (l ++ x) → (∀ e ∈ x, lo ≤ e.1) →
      lo ≤ fh →
      p.Polite (fun name n => (Own t name n ∨ get ⟨m0, lo⟩ name n = .ok none) ∧ 6 + n < 65536)
        (fun b k => ∃ u, u ≠ t ∧ Own u b k) →
      (p.code fuel m0.length).Part true (Quiet Own m0 l t) (LeadW Own m0 l lo t) lo ⟨m, fh⟩ fun b s' =>
        p.alone ⟨m, fh⟩ = .ok (b, s') ∧ Heads' m0 l lo s'.mem ∧ lo ≤ s'.freeHead ∧
        ∃ x', Opened s' (l ++ x') ∧ ∀ e ∈ x', lo ≤ e.1 := by
  have hhead : ∀ x : List (Nat × Nat), (∀ e ∈ x, lo ≤ e.1) → ∀ e ∈ l ++ x, ∀ i, e.1 ≤ i → i < e.1 + 6 → Quiet Own m0 l t i := by
    intro x hx e he i h1 h2 u _ hm
    rcases List.mem_append.1 he with he | he
    · exact header_not_mine ho.walk he h1 h2 u hm
    · have := hx e he; have := mine_below ho.walk hm; simp only at this; omega
  induction p with
  | ret b => intro m fh x hm hx hxl hlo _; exact ⟨rfl, hm, hlo, x, hx, hxl⟩
  | get name n k ih =>
    rintro m fh x hm hx hxl hlo ⟨hp, hk⟩
    have hfh := hx.head
    simp only [hm.1] at hfh
    refine Acc.Part.bind (((getA_safe hx (hhead x hxl) name n ?_ fuel (by omega)).part).mono ?_)
    · rintro e he i h1 h2 u hu hmine
      have hmb := mine_below ho.walk hmine
      simp only at hmb
      obtain ⟨b, j, f, o1, o2, o3, o4⟩ := hmine
      rcases List.mem_append.1 (List.mem_of_find?_eq_some he) with hel | hex
      · rw [List.find?_append] at he
        cases hfl : l.find? (hit m name n) with
        | none =>
          have := List.find?_eq_none.1 hfl e hel
          rw [hfl, Option.none_or] at he
          exact this (List.find?_some he)
        | some e' =>
          rw [hfl, Option.some_or, Option.some.injEq] at he
          subst he
          rw [hm.hits ho.walk] at hfl
          exact data_apart ho.walk (hp b j ⟨u, hu, o1⟩) hfl o2 h1 h2 ⟨o3, o4⟩
      · have := hxl e hex; omega
    · rintro r ⟨m', fh'⟩ ⟨h1, hr, h2⟩
      simp only at h1 h2
      subst h1 h2
      refine (ih r _ _ x hm hx hxl hlo (hk r)).mono fun b s2 h => ⟨?_, h.2⟩
      simp only [Prog.alone, hr, Res.bind_ok]; exact h.1
  | set name obj k ih =>
    rintro m fh x hm hx hxl hlo ⟨⟨hp, hsz⟩, hk⟩
    have hfh := hx.head
    simp only [hm.1] at hfh
    have hfound : ∀ e, (l ++ x).find? (hit m name obj.length) = some e → ∀ i, e.1 + 6 ≤ i → i < e.1 + 6 + obj.length →
        LeadW Own m0 l lo t i := by
      intro e he i h1 h2
      rw [List.find?_append, hm.hits ho.walk] at he
      rcases hp with hp | hp
      · obtain ⟨v, hv⟩ := hown name obj.length hp
        rw [ho.get] at hv
        have hv := Res.ok.inj hv
        unfold view at hv
        rw [Option.map_eq_some_iff] at hv
        obtain ⟨e', he', -⟩ := hv
        simp only at he'
        rw [he', Option.some_or, Option.some.injEq] at he
        subst he
        exact .inl ⟨name, _, e', hp, he', h1, h2⟩
      · rw [ho.get] at hp
        have hv := Res.ok.inj hp
        unfold view at hv
        rw [Option.map_eq_none_iff] at hv
        simp only at hv
        rw [hv, Option.none_or] at he
        have := hxl e (List.mem_of_find?_eq_some he)
        exact .inr (by omega)
    rw [← hm.1]
    refine Acc.Part.bind ((setA_lead hx (hhead x hxl) name obj hfound (fun i hi => .inr hi) hsz fuel (by omega) hlo).mono ?_)
    rintro r s' hs
    rw [hm.1]
    obtain ⟨x', g1, g2, g3, g4, g5⟩ := set_grow hx hsz hs
    simp only at g2 g3 g4 g5
    have hm' : Heads' m0 l lo s'.mem := by
      refine ⟨by rw [g4, hm.1], fun e he i h1 h2 h3 => ?_⟩
      rw [← hm.2 e he i h1 h2 h3]
      rcases g5 i with h | h | ⟨f, hf, f1, f2⟩
      · exact h
      · omega
      · rcases hfound f hf i f1 f2 with h | h
        · exact absurd h (header_not_mine ho.walk he h1 h2 t)
        · omega
    refine (ih r s'.mem s'.freeHead (x ++ x') hm' (by rw [← List.append_assoc]; exact g1) ?_ (by omega) (hk r)).mono
      fun b s2 h => ⟨?_, h.2⟩
    · intro e he
      rcases List.mem_append.1 he with he | he
      · exact hxl e he
      · have := g2 e he; omega
    · simp only [Prog.alone, hs, Res.bind_ok]; exact h.1

/-- Every object the program asks for satisfies `ok`. -/
def Prog.Seeks (ok : List Byte → Nat → Prop) : Prog β → Prop
  | .ret _ => True
  | .get name n k => ok name n ∧ ∀ r, (k r).Seeks ok
  | .set _ _ k => ∀ r, (k r).Seeks ok

theorem follow_part {t : ι} (ho : Opened ⟨m0, lo⟩ l) (fuel cap : Nat) (hfuel : lo < fuel)
    (hown : ∀ name n, Own t name n → ∃ v, get ⟨m0, lo⟩ name n = .ok (some v)) (p : Prog β) :
    ∀ m : List Byte, Heads' m0 l lo m →
      p.Polite (Own t) (fun b k => ∃ u, u ≠ t ∧ Own u b k) → p.Seeks (fun name n => get ⟨m0, lo⟩ name n ≠ .ok none) →
      (p.code fuel cap).Part false (fun i => Quiet Own m0 l t i ∧ i < lo) (Mine Own m0 l t) lo ⟨m, lo⟩ fun b s' =>
        p.alone ⟨m, lo⟩ = .ok (b, s') ∧ Heads' m0 l lo s'.mem ∧ s'.freeHead = lo := by
  have hhead : ∀ e ∈ l, e.1 + 6 ≤ lo → ∀ i, e.1 ≤ i → i < e.1 + 6 → Quiet Own m0 l t i ∧ i < lo :=
    fun e he h6 i h1 h2 => ⟨fun u _ => header_not_mine ho.walk he h1 h2 u, by omega⟩
  have hpres : ∀ name n, ¬ get ⟨m0, lo⟩ name n = .ok none → ∃ e, l.find? (hit m0 name n) = some e ∧
      e.1 + 6 + n ≤ lo := by
    intro name n h
    rw [ho.get] at h
    unfold view at h
    simp only at h
    cases hf : l.find? (hit m0 name n) with
    | none => rw [hf] at h; exact absurd rfl h
    | some e =>
      have := (ho.walk.mem e (List.mem_of_find?_eq_some hf)).2.1
      have := (hit_size (List.find?_some hf)).2.1
      exact ⟨e, rfl, by simp only at *; omega⟩
  induction p with
  | ret b => intro m hm _ _; exact ⟨rfl, hm, rfl⟩
  | get name n k ih =>
    rintro m hm ⟨hp, hk⟩ hs
    obtain ⟨e, he, hroom⟩ := hpres name n hs.1
    refine Acc.Part.bind ((getA_part (hm.opened ho) hhead name n (by rw [hm.hits ho.walk]; exact he) ?_ fuel hfuel
      (Nat.le_refl _) (by omega)).mono ?_)
    · intro i h1 h2
      refine ⟨?_, by omega⟩
      rintro u hu ⟨b, k, f, o1, o2, o3, o4⟩
      exact data_apart ho.walk (hp b k ⟨u, hu, o1⟩) he o2 h1 h2 ⟨o3, o4⟩
    · rintro r s' ⟨hr, rfl⟩
      refine (ih r m hm (hk r) (hs.2 r)).mono fun b s2 h => ⟨?_, h.2⟩
      simp only [Prog.alone, hr, Res.bind_ok]; exact h.1
  | set name obj k ih =>
    rintro m hm ⟨hp, hk⟩ hs
    obtain ⟨v, hv⟩ := hown name obj.length hp
    obtain ⟨e, he, hroom⟩ := hpres name obj.length (by rw [hv]; simp)
    have hem := List.mem_of_find?_eq_some he
    obtain ⟨k1, k2, k3⟩ := hit_size (List.find?_some he)
    refine Acc.Part.bind ((setA_part (hm.opened ho) hhead name obj (by rw [hm.hits ho.walk]; exact he) ?_ fuel cap hfuel
      (Nat.le_refl _) (by omega)).mono ?_)
    · exact fun i h1 h2 => ⟨name, _, e, hp, he, h1, h2⟩
    · rintro r ⟨m', fh'⟩ ⟨rfl, h1, hset, hl, ho'⟩
      simp only at h1 hl ho'
      subst h1
      have hm' : Heads' m0 l fh' m' :=
        ⟨by rw [hl, hm.1], fun f hf i h1 h2 h3 => by
          rw [ho' i (header_clear ho.walk hf hem k2 h1 h2), hm.2 f hf i h1 h2 h3]⟩
      refine (ih true m' hm' (hk true) (hs true)).mono fun b m2 h => ⟨?_, h.2⟩
      simp only [Prog.alone, hset, Res.bind_ok]; exact h.1

end Owners

/-- An object below `lo` is read the same however far `free_head_` is above `lo`. -/
theorem get_above {m : List Byte} {lo fh : Nat} {l : List (Nat × Nat)} (ho : Opened ⟨m, lo⟩ l) (h1 : lo ≤ fh)
    (h2 : fh ≤ m.length) {name : List Byte} {n : Nat} {e : Nat × Nat} (hf : l.find? (hit m name n) = some e) :
    get ⟨m, fh⟩ name n = .ok (some (sub m (e.1 + 6) n)) := by
  obtain ⟨hp, l1, l2, rfl, hn⟩ := List.find?_eq_some_iff_append.1 hf
  obtain ⟨g1, g2, g3, g4, g5, g6⟩ := ho.walk.mem e (by simp)
  obtain ⟨k1, k2, k3⟩ := hit_size (List.find?_some hf)
  refine Placed.get (s := ⟨m, fh⟩) (l := l1) (p := e.1) ⟨ho.cap, h2, ho.walk.split l1, by rw [← k2]; exact g3, by simp only at *; omega,
    fun x hx => by simpa using hn x hx, k1, k3, rfl⟩

section Final
variable {ι β : Type} [DecidableEq ι]

/-- What the adder may do, and what the others may do: the adder also stores objects which were missing and looks for
missing ones. -/
def Rules (s : Store) (Own : ι → List Byte → Nat → Prop) (lead t : ι) (p : Prog β) : Prop :=
  if t = lead then
    p.Polite (fun name n => (Own t name n ∨ get s name n = .ok none) ∧ 6 + n < 65536) (fun b k => ∃ u, u ≠ t ∧ Own u b k)
  else p.Polite (Own t) (fun b k => ∃ u, u ≠ t ∧ Own u b k) ∧ p.Seeks fun name n => get s name n ≠ .ok none

theorem adder_run {m0 : List Byte} {lo : Nat} {l : List (Nat × Nat)} (ho : Opened ⟨m0, lo⟩ l)
    (Own : ι → List Byte → Nat → Prop) (lead : ι)
    (hown : ∀ t name n, Own t name n → ∃ v, get ⟨m0, lo⟩ name n = .ok (some v))
    (hdis : ∀ t u a n b k, t ≠ u → Own t a n → Own u b k → ¬ Same a n b k)
    (progs : ι → Prog β) (hpol : ∀ t, Rules ⟨m0, lo⟩ Own lead t (progs t)) (fuel : Nat) (hfuel : m0.length < fuel) :
    ∃ (R W : ι → Nat → Prop) (Q : ι → β → Store → Prop),
      (∀ t i, R t i ↔ Quiet Own m0 l t i ∧ (t ≠ lead → i < lo)) ∧
      (∀ t i, W t i ↔ Mine Own m0 l t i ∨ t = lead ∧ lo ≤ i) ∧
      (∀ t b s', Q t b s' → (progs t).alone ⟨m0, lo⟩ = .ok (b, s') ∧ Heads' m0 l lo s'.mem ∧ (t ≠ lead → s'.freeHead = lo) ∧
        (t = lead → ∃ x', Opened s' (l ++ x') ∧ ∀ e ∈ x', lo ≤ e.1)) ∧
      (∀ t, ((progs t).code fuel m0.length).Part (decide (t = lead)) (R t) (W t) lo ⟨m0, lo⟩ (Q t)) ∧
      (∀ t u i, t ≠ u → W t i → ¬ R u i) ∧ (∀ t u i, t ≠ u → W t i → ¬ W u i) := by
  have hh := ho.head
  simp only at hh
  have h0 : Heads' m0 l lo m0 := ⟨rfl, fun _ _ _ _ _ _ => rfl⟩
  refine ⟨fun t i => Quiet Own m0 l t i ∧ (t ≠ lead → i < lo), fun t i => Mine Own m0 l t i ∨ t = lead ∧ lo ≤ i,
    fun t b s' => (progs t).alone ⟨m0, lo⟩ = .ok (b, s') ∧ Heads' m0 l lo s'.mem ∧ (t ≠ lead → s'.freeHead = lo) ∧
        (t = lead → ∃ x', Opened s' (l ++ x') ∧ ∀ e ∈ x', lo ≤ e.1), fun _ _ => Iff.rfl, fun _ _ => Iff.rfl,
    fun _ _ _ h => h, ?_, ?_, ?_⟩
  · intro t
    have hp := hpol t
    unfold Rules at hp
    by_cases ht : t = lead
    · subst ht
      rw [if_pos rfl] at hp
      have := (lead_part ho fuel hfuel (hown t) (progs t) m0 lo [] h0 (by simpa using ho) (by simp) (Nat.le_refl _) hp)
      rw [decide_eq_true rfl]
      have e1 : (fun i => Quiet Own m0 l t i ∧ (t ≠ t → i < lo)) = Quiet Own m0 l t := by
        funext i; simp
      have e2 : (fun i => Mine Own m0 l t i ∨ t = t ∧ lo ≤ i) = LeadW Own m0 l lo t := by
        funext i; simp [LeadW]
      change Acc.Part true (fun i => Quiet Own m0 l t i ∧ (t ≠ t → i < lo)) (fun i => Mine Own m0 l t i ∨ t = t ∧ lo ≤ i) _ _ _ _
      rw [e1, e2]
      exact this.mono fun b s' ⟨a1, a2, a3, a4⟩ => ⟨a1, a2, fun h => absurd rfl h, fun _ => a4⟩
    · rw [if_neg ht] at hp
      have := follow_part ho fuel m0.length (by omega) (hown t) (progs t) m0 h0 hp.1 hp.2
      rw [decide_eq_false ht]
      have e1 : (fun i => Quiet Own m0 l t i ∧ (t ≠ lead → i < lo)) = fun i => Quiet Own m0 l t i ∧ i < lo := by
        funext i; simp [ht]
      have e2 : (fun i => Mine Own m0 l t i ∨ t = lead ∧ lo ≤ i) = Mine Own m0 l t := by
        funext i; simp [ht]
      change Acc.Part false (fun i => Quiet Own m0 l t i ∧ (t ≠ lead → i < lo)) (fun i => Mine Own m0 l t i ∨ t = lead ∧ lo ≤ i) _ _ _ _
      rw [e1, e2]
      exact this.mono fun b s' ⟨a1, a2, a3⟩ => ⟨a1, a2, fun _ => a3, fun h => absurd h ht⟩
  · rintro t u i htu (h | ⟨rfl, h⟩) ⟨q1, q2⟩
    · exact q1 t htu h
    · have := q2 (Ne.symm htu); omega
  · have hmm : ∀ t u i, t ≠ u → Mine Own m0 l t i → ¬ Mine Own m0 l u i := by
      rintro t u i htu ⟨a, n, e, h1, h2, h3, h4⟩ ⟨b, k, f, o1, o2, o3, o4⟩
      exact data_apart ho.walk (hdis t u _ _ _ _ htu h1 o1) h2 o2 h3 h4 ⟨o3, o4⟩
    rintro t u i htu (h | ⟨rfl, h⟩) (h' | ⟨rfl, h'⟩)
    · exact hmm t u i htu h h'
    · have := mine_below ho.walk h; simp only at this; omega
    · have := mine_below ho.walk h'; simp only at this; omega
    · exact htu rfl

/-- **C130**: as C129, with one task `lead` which may also store new objects and look for missing ones while the others
use the objects which are there.  In every interleaving no access is undefined, every task gets the answers it would get
alone after a number of accesses of its own, whatever the adder adds meanwhile; its objects are then what they would be
alone; objects without owner which were present never change; and when the adder is done, everything that does not
belong to others – its new objects, too – reads as if it had been alone. -/
theorem one_adder {s : Store} (hu : InUse s) (Own : ι → List Byte → Nat → Prop) (lead : ι)
    (hown : ∀ t name n, Own t name n → ∃ v, get s name n = .ok (some v))
    (hdis : ∀ t u a n b k, t ≠ u → Own t a n → Own u b k → ¬ Same a n b k)
    (progs : ι → Prog β) (hpol : ∀ t, Rules s Own lead t (progs t)) (fuel : Nat) (hfuel : s.mem.length < fuel) :
    ∃ (res : ι → β) (fin : ι → Store) (need : ι → Nat), (∀ t, (progs t).alone s = .ok (res t, fin t)) ∧
      ∀ sched : List ι, ∃ (ps : ι → Acc β) (s' : Store),
        interleave sched (fun t => (progs t).code fuel s.mem.length) s = .ok (ps, s') ∧
        (∀ t b, ps t = .ret b → b = res t) ∧
        (∀ t, need t ≤ sched.count t → ps t = .ret (res t)) ∧
        (∀ t, ps t = .ret (res t) → ∀ name n, Own t name n → get s' name n = get (fin t) name n) ∧
        (∀ name n, get s name n ≠ .ok none → (∀ t b k, Own t b k → ¬ Same name n b k) → get s' name n = get s name n) ∧
        (ps lead = .ret (res lead) → ∀ name n, (∀ t b k, t ≠ lead → Own t b k → ¬ Same name n b k) →
          get s' name n = get (fin lead) name n) := by
  obtain ⟨l, ho⟩ := hu.opened'
  obtain ⟨m0, lo⟩ := s
  obtain ⟨R, W, Q, hR, hW, hQ, hpart, hwr, -⟩ := adder_run ho Own lead hown hdis progs hpol fuel hfuel
  have hh := ho.head
  simp only at hh
  have hends := fun t => (hpart t).ends
  have hex : ∃ (res : ι → β) (fin : ι → Store) (need : ι → Nat), (∀ t, Q t (res t) (fin t)) ∧
      ∀ t n, need t ≤ n → ((progs t).code fuel m0.length).steps n ⟨m0, lo⟩ = .ok (.ret (res t), fin t) :=
    ⟨fun t => (hends t).choose, fun t => (hends t).choose_spec.choose, fun t => (hends t).choose_spec.choose_spec.choose,
      fun t => (hends t).choose_spec.choose_spec.choose_spec.1, fun t => (hends t).choose_spec.choose_spec.choose_spec.2⟩
  obtain ⟨res, fin, need, hfinQ, hneed⟩ := hex
  refine ⟨res, fin, need, fun t => (hQ _ _ _ (hfinQ t)).1, fun sched => ?_⟩
  obtain ⟨ps, st, g, j1, j2, j3, j4, j5, j6, j7, j8⟩ := interleave_adder (R := R) (W := W) (Q := Q)
    (adds := fun t => decide (t = lead)) (fun t u h1 h2 => by simp at h1 h2; rw [h1, h2]) hwr sched _ (fun _ => ⟨m0, lo⟩)
    ⟨m0, lo⟩ hpart (fun t => ⟨rfl, fun _ _ => rfl, by simp, Nat.le_refl _, hh⟩) (Nat.le_refl _) hh
  simp only at j5 j6 j7 j8
  have hg : Heads' m0 l lo g.mem := ⟨j7, fun e he i h1 h2 h3 => j8 i fun t h => by
    rcases (hW t i).1 h with h | ⟨-, h⟩
    · exact header_not_mine ho.walk he h1 h2 t h
    · omega⟩
  have hfin : ∀ t b, ps t = .ret b → b = res t ∧ st t = fin t := by
    intro t b hb
    have h := (hQ _ _ _ (hfinQ t)).1
    have h' := j3 t
    rw [hb] at h'
    rw [(hQ _ _ _ (show Q t b (st t) from h')).1] at h
    simp only [Res.ok.injEq, Prod.mk.injEq] at h
    exact h
  -- reading an object which was present from the beginning
  have hread : ∀ (m : List Byte) (fh : Nat) name n e, Heads' m0 l lo m → lo ≤ fh → fh ≤ m.length →
      l.find? (hit m0 name n) = some e → get ⟨m, fh⟩ name n = .ok (some (sub m (e.1 + 6) n)) :=
    fun m fh name n e hm h1 h2 he => get_above (hm.opened ho) h1 h2 (by rw [hm.hits ho.walk]; exact he)
  have hfind : ∀ name n, get ⟨m0, lo⟩ name n ≠ .ok none → ∃ e, l.find? (hit m0 name n) = some e ∧ e.1 + 6 + n ≤ lo := by
    intro name n h
    rw [ho.get] at h
    unfold view at h
    simp only at h
    cases hf : l.find? (hit m0 name n) with
    | none => rw [hf] at h; exact absurd rfl h
    | some e =>
      have := (ho.walk.mem e (List.mem_of_find?_eq_some hf)).2.1
      have := (hit_size (List.find?_some hf)).2.1
      exact ⟨e, rfl, by simp only at *; omega⟩
  refine ⟨ps, g, j1, fun t b hb => (hfin t b hb).1, fun t ht => ?_, fun t ht name n hn => ?_, fun name n hpres hn => ?_,
    fun hl name n hn => ?_⟩
  · have h := hneed t _ ht
    have h' := (j2 t).symm.trans h
    simp only [Res.ok.injEq, Prod.mk.injEq] at h'
    exact h'.1
  · obtain ⟨v, hv⟩ := hown t name n hn
    obtain ⟨e, he, hroom⟩ := hfind name n (by rw [hv]; simp)
    obtain ⟨q1, q2, q3, q4⟩ := hQ _ _ _ (hfinQ t)
    have hst := (hfin t _ ht).2
    have hb : lo ≤ (fin t).freeHead ∧ (fin t).freeHead ≤ (fin t).mem.length := by
      have f := j4 t
      rw [hst] at f
      by_cases htl : t = lead
      · have := f.head
        simp only [htl, decide_true, if_true] at this
        have f1 := f.above
        have f2 := f.below
        have f3 := f.len
        rw [htl] at f3 ⊢
        omega
      · rw [q3 htl, q2.1]; exact ⟨Nat.le_refl _, hh⟩
    rw [show g = ⟨g.mem, g.freeHead⟩ from rfl, hread _ _ name n e hg j5 j6 he,
      show fin t = ⟨(fin t).mem, (fin t).freeHead⟩ from rfl, hread _ _ name n e q2 hb.1 hb.2 he]
    rw [sub_congr fun i h1 h2 => ?_]
    rw [← hst]
    refine (j4 t).same i ((hR t i).2 ⟨?_, fun _ => by omega⟩)
    rintro u hut ⟨b, k, f, o1, o2, o3, o4⟩
    exact data_apart ho.walk (hdis t u _ _ _ _ (Ne.symm hut) hn o1) he o2 h1 h2 ⟨o3, o4⟩
  · obtain ⟨e, he, hroom⟩ := hfind name n hpres
    rw [show g = ⟨g.mem, g.freeHead⟩ from rfl, hread _ _ name n e hg j5 j6 he,
      hread m0 lo name n e ⟨rfl, fun _ _ _ _ _ _ => rfl⟩ (Nat.le_refl _) hh he, sub_congr fun i h1 h2 => ?_]
    refine j8 i fun t h => ?_
    rcases (hW t i).1 h with ⟨b, k, f, o1, o2, o3, o4⟩ | ⟨-, h⟩
    · exact data_apart ho.walk (hn t b k o1) he o2 h1 h2 ⟨o3, o4⟩
    · omega
  · obtain ⟨q1, q2, q3, q4⟩ := hQ _ _ _ (hfinQ lead)
    obtain ⟨x, hx, hxl⟩ := q4 rfl
    have hst := (hfin lead _ hl).2
    have f := j4 lead
    rw [hst] at f
    have hfh : g.freeHead = (fin lead).freeHead := by simpa using f.head
    have hsame : ∀ i, Quiet Own m0 l lead i → g.mem[i]? = (fin lead).mem[i]? :=
      fun i hi => f.same i ((hR lead i).2 ⟨hi, fun h => absurd rfl h⟩)
    have hhead : ∀ e ∈ l ++ x, ∀ i, e.1 ≤ i → i < e.1 + 6 → Quiet Own m0 l lead i := by
      intro e he i h1 h2 u _ hm
      rcases List.mem_append.1 he with he | he
      · exact header_not_mine ho.walk he h1 h2 u hm
      · have := hxl e he; have := mine_below ho.walk hm; simp only at this; omega
    have hgo : Heads (fin lead).mem (l ++ x) g.mem :=
      ⟨f.len, fun e he i h1 h2 => hsame i (hhead e he i h1 h2)⟩
    have hgx : Opened g (l ++ x) := by
      have : Opened ⟨g.mem, (fin lead).freeHead⟩ (l ++ x) := hgo.opened hx
      rwa [← hfh] at this
    rw [hgx.get, hx.get]
    congr 1
    refine view_congr (hgo.hits name n) fun e he i h1 h2 => hsame i ?_
    rintro u hul hmine
    have hmb := mine_below ho.walk hmine
    simp only at hmb
    obtain ⟨b, k, e', o1, o2, o3, o4⟩ := hmine
    rw [List.find?_append, q2.hits ho.walk] at he
    cases hfl : l.find? (hit m0 name n) with
    | none =>
      rw [hfl, Option.none_or] at he
      have := hxl e (List.mem_of_find?_eq_some he)
      omega
    | some e1 =>
      rw [hfl, Option.some_or, Option.some.injEq] at he
      subst he
      exact data_apart ho.walk (hn u b k hul o1) hfl o2 h1 h2 ⟨o3, o4⟩

/-- Under the same conditions no byte of the storage is ever subject to a race: at no time one task is about to write
what another one is about to read or to write; `free_head_` is written by the adder only. -/
theorem only_head {s : Store} (hu : InUse s) (Own : ι → List Byte → Nat → Prop) (lead : ι)
    (hown : ∀ t name n, Own t name n → ∃ v, get s name n = .ok (some v))
    (hdis : ∀ t u a n b k, t ≠ u → Own t a n → Own u b k → ¬ Same a n b k)
    (progs : ι → Prog β) (hpol : ∀ t, Rules s Own lead t (progs t)) (fuel : Nat) (hfuel : s.mem.length < fuel)
    (sched : List ι) :
    ∃ (ps : ι → Acc β) (s' : Store), interleave sched (fun t => (progs t).code fuel s.mem.length) s = .ok (ps, s') ∧
      (∀ t, (ps t).AltersHead → t = lead) ∧ ∀ t u i, t ≠ u → (ps t).Alters i → ¬ (ps u).Touches i := by
  obtain ⟨l, ho⟩ := hu.opened'
  obtain ⟨m0, lo⟩ := s
  obtain ⟨R, W, Q, hR, hW, hQ, hpart, hwr, hww⟩ := adder_run ho Own lead hown hdis progs hpol fuel hfuel
  have hh := ho.head
  simp only at hh
  obtain ⟨ps, st, g, j1, j2, j3, j4, j5, j6, j7, j8⟩ := interleave_adder (R := R) (W := W) (Q := Q)
    (adds := fun t => decide (t = lead)) (fun t u h1 h2 => by simp at h1 h2; rw [h1, h2]) hwr sched _ (fun _ => ⟨m0, lo⟩)
    ⟨m0, lo⟩ hpart (fun t => ⟨rfl, fun _ _ => rfl, by simp, Nat.le_refl _, hh⟩) (Nat.le_refl _) hh
  refine ⟨ps, g, j1, fun t ht => ?_, fun t u i htu h1 h2 => ?_⟩
  · have h := j3 t
    cases hp : ps t with
    | setHead n k => rw [hp] at h; exact of_decide_eq_true h.1
    | _ => rw [hp] at ht; exact ht.elim
  · have k1 := j3 t
    have k2 := j3 u
    have hw : W t i := by
      cases hp : ps t with
      | write j b k => rw [hp] at h1 k1; cases h1; exact k1.1
      | _ => rw [hp] at h1; exact h1.elim
    cases hp : ps u with
    | read j k => rw [hp] at h2 k2; cases h2; exact hwr t u i htu hw k2.1
    | write j b k => rw [hp] at h2 k2; cases h2; exact hww t u i htu hw k2.1
    | _ => rw [hp] at h2; exact h2.elim

end Final

/-! ## An example -/

/-- One task counts, the other one looks for its object and stores it when it is missing. -/
def firstRun : Bool → Prog (Option (List Byte))
  | false => count [0x41]
  | true => .get [0x43] 2 fun v => match v with
    | some v => .ret (some v)
    | none => .set [0x43] [9, 9] fun _ => .get [0x43] 2 .ret

example : ∃ need : Bool → Nat, ∀ sched : List Bool,
    ∃ (ps : Bool → Acc (Option (List Byte))) (s' : Store),
      interleave sched (fun t => (firstRun t).code 33 32) counters = .ok (ps, s') ∧
      (need false ≤ sched.count false → ps false = .ret (some [2])) ∧
      (need true ≤ sched.count true → ps true = .ret (some [9, 9]) ∧ get s' [0x43] 2 = .ok (some [9, 9])) ∧
      get s' [0x42] 1 = .ok (some [5]) := by
  obtain ⟨res, fin, need, h1, h2⟩ := one_adder counters_inUse
    (fun (t : Bool) name n => t = false ∧ name = [0x41] ∧ n = 1) true
    (by rintro t name n ⟨rfl, rfl, rfl⟩; exact ⟨[1], by decide +kernel⟩)
    (by rintro t u a n b k htu ⟨rfl, -⟩ ⟨rfl, -⟩; exact absurd rfl htu)
    firstRun
    (by
      intro t
      cases t with
      | false =>
        show (count [0x41]).Polite _ _ ∧ (count [0x41]).Seeks _
        have hno : ∀ b k, (∃ u, u ≠ false ∧ u = false ∧ b = [0x41] ∧ k = 1) → ¬ Same [0x41] 1 b k := by
          rintro b k ⟨u, h, h', -⟩ -
          exact h h'
        have hin : get counters [0x41] 1 ≠ .ok none := by decide +kernel
        exact ⟨⟨hno, fun r => ⟨⟨rfl, rfl, rfl⟩, fun r => ⟨hno, fun _ => trivial⟩⟩⟩, hin, fun r r' => ⟨hin, fun _ => trivial⟩⟩
      | true =>
        have hno : ∀ b k, (∃ u, u ≠ true ∧ u = false ∧ b = [0x41] ∧ k = 1) → ¬ Same [0x43] 2 b k := by
          rintro b k ⟨u, -, -, rfl, rfl⟩ ⟨h, -⟩
          exact absurd h (by decide)
        refine ⟨hno, fun r => ?_⟩
        cases r with
        | some v => trivial
        | none => exact ⟨⟨.inr (by decide +kernel), by decide⟩, fun _ => ⟨hno, fun _ => trivial⟩⟩)
    33 (by decide)
  have a1 : ∃ s', (firstRun false).alone counters = .ok (some [2], s') :=
    ⟨⟨[7, 0, 0x41, 0, 0, 0, 2, 7, 0, 0x42, 0, 0, 0, 5] ++ List.replicate 18 0, 14⟩, by decide +kernel⟩
  have a2 : ∃ s', (firstRun true).alone counters = .ok (some [9, 9], s') ∧ get s' [0x43] 2 = .ok (some [9, 9]) :=
    ⟨⟨[7, 0, 0x41, 0, 0, 0, 1, 7, 0, 0x42, 0, 0, 0, 5, 8, 0, 0x43, 0, 0, 0, 9, 9] ++ List.replicate 10 0, 22⟩,
      by decide +kernel, by decide +kernel⟩
  obtain ⟨s1, a1⟩ := a1
  obtain ⟨s2, a2, a3⟩ := a2
  have b1 := h1 false
  have b2 := h1 true
  rw [a1] at b1
  rw [a2] at b2
  simp only [Res.ok.injEq, Prod.mk.injEq] at b1 b2
  refine ⟨need, fun sched => ?_⟩
  obtain ⟨ps, s', g1, g2, g3, g4, g5, g6⟩ := h2 sched
  refine ⟨ps, s', g1, fun h => by rw [g3 false h, ← b1.1], fun h => ⟨by rw [g3 true h, ← b2.1], ?_⟩, ?_⟩
  · rw [g6 (g3 true h), ← b2.2, a3]
    rintro t b k - ⟨-, rfl, rfl⟩ ⟨h, -⟩
    exact absurd h (by decide)
  · rw [g5 [0x42] 1 (by decide +kernel)]
    · decide +kernel
    · rintro t b k ⟨-, rfl, rfl⟩ ⟨h, -⟩
      exact absurd h (by decide)

end Verif.Storage
