import Verif.Storage.Opening
/-!
# C145: opening a storage while an object is added

The finding `open_torn` needs a size both bytes of which change.  If the size of the new record is less than 256 or a multiple
of 256, one byte only changes, and the constructor finds the storage with the new object or without it.
-/
namespace Verif.Storage

/-! ## Programs beside each other, by what the memory may do meanwhile -/

/-- All writes of the program are allowed. -/
def Acc.Writes {α : Type} (okw : Nat → Byte → Prop) : Acc α → Store → Prop
  | .ret _, _ => True
  | .hang, _ => False
  | .head k, s => (k s.freeHead).Writes okw s
  | .setHead n k, s => k.Writes okw ⟨s.mem, n⟩
  | .read i k, s => ∃ b, s.mem[i]? = some b ∧ (k b).Writes okw s
  | .write i b k, s => i < s.mem.length ∧ okw i b ∧ k.Writes okw ⟨s.mem.set i b, s.freeHead⟩

theorem Acc.Safe.writes {α β : Type} {R : Nat → Prop} {okw : Nat → Byte → Prop} {fh : Nat} {p : Acc α} {f : α → Acc β}
    {m : List Byte} (h : p.Safe R (fun _ => False) fh m fun a m' => (f a).Writes okw ⟨m', fh⟩) :
    (p.bind f).Writes okw ⟨m, fh⟩ := by
  induction p generalizing m with
  | ret a => exact h
  | hang => exact h.elim
  | head k ih => exact ih _ h
  | setHead n k ih => exact h.elim
  | read i k ih =>
    obtain ⟨-, b, hb, h⟩ := h
    exact ⟨b, hb, ih _ h⟩
  | write i b k ih => exact h.1.elim

theorem writeNA_writes {α : Type} {okw : Nat → Byte → Prop} {bs : List Byte} {p L fh : Nat} {f : Unit → Acc α}
    (hp : p + bs.length ≤ L) (hok : ∀ (k : Nat) b, bs[k]? = some b → okw (p + k) b)
    (hf : ∀ m : List Byte, m.length = L → (f ()).Writes okw ⟨m, fh⟩) :
    ∀ m : List Byte, m.length = L → ((writeNA p bs).bind f).Writes okw ⟨m, fh⟩ := by
  induction bs generalizing p with
  | nil => exact hf
  | cons b bs ih =>
    intro m hm
    simp only [List.length_cons] at hp
    refine ⟨by simp only; omega, by simpa using hok 0 b rfl, ih (by omega) (fun k c hk => ?_) _ (by simpa using hm)⟩
    have := hok (k + 1) c (by simpa using hk)
    rwa [show p + (k + 1) = p + 1 + k by omega] at this

/-- The program only reads, and whatever allowed memory it finds meanwhile its answer satisfies `Q`. -/
def Acc.Rely {α : Type} (I : List Byte → Prop) (le : List Byte → List Byte → Prop) (Q : α → Prop) :
    Acc α → List Byte → Prop
  | .ret a, _ => Q a
  | .read i k, m => ∀ m', I m' → le m m' → ∃ b, m'[i]? = some b ∧ (k b).Rely I le Q m'
  | _, _ => False

/-- The program ends after at most `n` readings, if it ends. -/
def Acc.Within {α : Type} : Acc α → Nat → Prop
  | .ret _, _ => True
  | .hang, _ => True
  | .head k, n => ∀ h, (k h).Within n
  | .setHead _ k, n => k.Within n
  | .read _ _, 0 => False
  | .read _ k, n + 1 => ∀ b, (k b).Within n
  | .write _ _ k, n => k.Within n

theorem Acc.Within.mono {α : Type} {p : Acc α} {n n' : Nat} (h : p.Within n) (hn : n ≤ n') : p.Within n' := by
  induction p generalizing n n' with
  | ret a => trivial
  | hang => trivial
  | head k ih => exact fun x => ih x (h x) hn
  | setHead _ k ih => exact ih h hn
  | read i k ih =>
    match n, n', h, hn with
    | n + 1, n' + 1, h, hn => exact fun b => ih b (h b) (by omega)
  | write _ _ k ih => exact ih h hn

theorem openLoopA_within (cap : Nat) : ∀ fuel pos, (openLoopA cap fuel pos).Within (6 * fuel)
  | 0, _ => trivial
  | fuel + 1, pos => by
    rw [openLoopA]
    split
    · rw [show 6 * (fuel + 1) = 6 * fuel + 4 + 1 + 1 by omega]
      intro lo hi
      simp only [Acc.bind]
      split
      · trivial
      · intro lo hi
        simp only [Acc.bind]
        split
        · intro lo hi
          simp only [Acc.bind]
          exact openLoopA_within cap fuel _
        · trivial
    · trivial

section Beside
variable {α β : Type} {I : List Byte → Prop} {le : List Byte → List Byte → Prop}

theorem Acc.Rely.later {Q : α → Prop} (htr : ∀ a b c, le a b → le b c → le a c) {p : Acc α} {m m' : List Byte}
    (h : p.Rely I le Q m) (hle : le m m') : p.Rely I le Q m' := by
  cases p with
  | ret a => exact h
  | read i k => exact fun m2 h1 h2 => h m2 h1 (htr _ _ _ hle h2)
  | hang => exact h
  | head k => exact h
  | setHead n k => exact h
  | write i b k => exact h

theorem Acc.Within.bind_ret {p : Acc α} {f : α → β} {n : Nat} (h : p.Within n) : (p.bind fun a => .ret (f a)).Within n := by
  induction p generalizing n with
  | ret a => trivial
  | hang => trivial
  | head k ih => exact fun x => ih x (h x)
  | setHead _ k ih => exact ih h
  | read i k ih =>
    match n, h with
    | n + 1, h => exact fun b => ih b (h b)
  | write _ _ k ih => exact ih h

theorem Acc.Rely.bind {Q : β → Prop} {p : Acc α} {f : α → Acc β} {m : List Byte} {Q' : α → Prop}
    (h : p.Rely I le Q' m) (hf : ∀ a m', Q' a → (f a).Rely I le Q m') : (p.bind f).Rely I le Q m := by
  induction p generalizing m with
  | ret a => exact hf a m h
  | hang => exact h.elim
  | head k ih => exact h.elim
  | setHead n k ih => exact h.elim
  | read i k ih =>
    intro m' h1 h2
    obtain ⟨b, hb, hk⟩ := h m' h1 h2
    exact ⟨b, hb, ih b hk⟩
  | write i b k ih => exact h.elim

/-- A reader beside one writer. -/
theorem interleave_rely {Q : β → Prop} {okw : Nat → Byte → Prop} (hrefl : ∀ m, le m m)
    (htr : ∀ a b c, le a b → le b c → le a c)
    (hw : ∀ m i b, I m → i < m.length → okw i b → I (m.set i b) ∧ le m (m.set i b)) (sched : List (Option Unit)) :
    ∀ (ps : Option Unit → Acc β) (g : Store) (n : Nat), (ps none).Rely I le Q g.mem → (ps (some ())).Writes okw g → I g.mem →
      (ps none).Within n →
      ∃ (ps' : Option Unit → Acc β) (g' : Store), interleave sched ps g = .ok (ps', g') ∧
        (ps' none).Rely I le Q g'.mem ∧ I g'.mem ∧ (ps' none).Within (n - sched.count none) := by
  induction sched with
  | nil => intro ps g n h1 _ h3 h4; exact ⟨ps, g, rfl, h1, h3, by simpa using h4⟩
  | cons t ts ih =>
    intro ps g n h1 h2 h3 h4
    cases t with
    | none =>
      have hstep : ∃ p', (ps none).step g = .ok (p', g) ∧ p'.Rely I le Q g.mem ∧ p'.Within (n - 1) := by
        cases hp : ps none with
        | ret a => rw [hp] at h1; exact ⟨_, rfl, h1, trivial⟩
        | read i k =>
          rw [hp] at h1 h4
          obtain ⟨b, hb, hk⟩ := h1 g.mem h3 (hrefl _)
          refine ⟨k b, by simp only [Acc.step, hb], hk, ?_⟩
          match n, h4 with
          | n + 1, h4 => exact h4 b
        | hang => rw [hp] at h1; exact h1.elim
        | head k => rw [hp] at h1; exact h1.elim
        | setHead n k => rw [hp] at h1; exact h1.elim
        | write i b k => rw [hp] at h1; exact h1.elim
      obtain ⟨p', k1, k2, k3⟩ := hstep
      obtain ⟨ps', g', j1, j2, j3, j4⟩ := ih (put ps none p') g (n - 1) (by simpa [put] using k2) (by simpa [put] using h2) h3
        (by simpa [put] using k3)
      refine ⟨ps', g', by simp only [interleave, k1, Res.bind_ok]; exact j1, j2, j3, ?_⟩
      rw [List.count_cons_self, Nat.add_comm, ← Nat.sub_sub]
      exact j4
    | some u =>
      cases u
      have hstep : ∃ p' g1, (ps (some ())).step g = .ok (p', g1) ∧ p'.Writes okw g1 ∧ I g1.mem ∧ le g.mem g1.mem := by
        cases hp : ps (some ()) with
        | ret a => exact ⟨_, _, rfl, trivial, h3, hrefl _⟩
        | read i k =>
          rw [hp] at h2
          obtain ⟨b, hb, hk⟩ := h2
          exact ⟨k b, g, by simp only [Acc.step, hb], hk, h3, hrefl _⟩
        | hang => rw [hp] at h2; exact h2.elim
        | head k => rw [hp] at h2; exact ⟨_, _, rfl, h2, h3, hrefl _⟩
        | setHead n k => rw [hp] at h2; exact ⟨_, _, rfl, h2, h3, hrefl _⟩
        | write i b k =>
          rw [hp] at h2
          obtain ⟨a1, a2, a3⟩ := h2
          obtain ⟨b1, b2⟩ := hw _ i b h3 a1 a2
          exact ⟨k, _, by simp only [Acc.step]; rw [if_pos a1], a3, b1, b2⟩
      obtain ⟨p', g1, k1, k2, k3, k4⟩ := hstep
      obtain ⟨ps', g', j1, j2, j3, j4⟩ := ih (put ps (some ()) p') g1 n (by simpa [put] using h1.later htr k4)
        (by simpa [put] using k2) k3 (by simpa [put] using h4)
      refine ⟨ps', g', by simp only [interleave, k1, Res.bind_ok]; exact j1, j2, j3, ?_⟩
      rw [List.count_cons_of_ne (by simp)]
      exact j4

end Beside

/-! ## A new record whose size changes in one byte only -/

/-- The two bytes of a size. -/
abbrev sizeLo (v : Nat) : Byte := BitVec.ofNat 8 (v % 256)
abbrev sizeHi (v : Nat) : Byte := BitVec.ofNat 8 (v / 256)

/-- The memory while a record of `v` bytes is added at `h`. -/
def Adding (m0 : List Byte) (h v : Nat) (m : List Byte) : Prop :=
  m.length = m0.length ∧ (∀ i, i < h ∨ h + v ≤ i → m[i]? = m0[i]?) ∧ (m[h + 1]? = some 0 ∨ m[h + 1]? = some (sizeHi v)) ∧
    (m[h]? = some 0 ∨ m[h]? = some (sizeLo v))

/-- The size does not go away again. -/
def Stays (h v : Nat) (m m' : List Byte) : Prop :=
  (m[h]? = some (sizeLo v) → m'[h]? = some (sizeLo v)) ∧ (m[h + 1]? = some (sizeHi v) → m'[h + 1]? = some (sizeHi v))

/-- The writes of `set` for a new record. -/
def AddWrite (h v i : Nat) (b : Byte) : Prop :=
  (h + 2 ≤ i ∧ i < h + v) ∨ (i = h ∧ b = sizeLo v) ∨ (i = h + 1 ∧ b = sizeHi v)

theorem adding_set {m0 m : List Byte} {h v i : Nat} {b : Byte} (hv : 2 ≤ v) (hI : Adding m0 h v m) (hi : i < m.length)
    (hb : AddWrite h v i b) : Adding m0 h v (m.set i b) ∧ Stays h v m (m.set i b) := by
  obtain ⟨a1, a2, a3, a4⟩ := hI
  unfold Adding Stays
  have hne : ∀ j, i ≠ j → (m.set i b)[j]? = m[j]? := fun j hj => List.getElem?_set_ne hj
  have heq : (m.set i b)[i]? = some b := by rw [List.getElem?_set_self hi]
  rw [List.length_set]
  rcases hb with ⟨b1, b2⟩ | ⟨rfl, rfl⟩ | ⟨rfl, rfl⟩
  · rw [hne h (by omega), hne (h + 1) (by omega)]
    exact ⟨⟨a1, fun j hj => (hne j (by omega)).trans (a2 j hj), a3, a4⟩, id, id⟩
  · rw [heq, hne (i + 1) (by omega)]
    exact ⟨⟨a1, fun j hj => (hne j (by omega)).trans (a2 j hj), a3, .inr rfl⟩, fun _ => rfl, id⟩
  · rw [heq, hne h (by omega)]
    exact ⟨⟨a1, fun j hj => (hne j (by omega)).trans (a2 j hj), .inr rfl, a4⟩, id, fun _ => rfl⟩

theorem openLoopA_rely {m0 : List Byte} (hcap : CapOk m0.length) {h v : Nat} (hv : 6 ≤ v) (hv' : v < 65536)
    (hone : v < 256 ∨ v % 256 = 0)
    (hroom : h + v ≤ m0.length) (hz : ∀ i, h ≤ i → i < m0.length → m0[i]? = some 0) {pos : Nat} {l : List (Nat × Nat)}
    (hw : WalkL m0 pos l h) (ht : ∀ e ∈ l, e.1 + 2 ≤ h) :
    ∀ (fuel : Nat), l.length + 2 ≤ fuel → ∀ m, (openLoopA m0.length fuel pos).Rely (Adding m0 h v) (Stays h v)
      (fun r => r = h ∨ r = h + v) m := by
  simp only [CapOk] at hcap
  induction hw with
  | nil h =>
    intro fuel hf m
    obtain ⟨k, rfl⟩ : ∃ k, fuel = k + 2 := ⟨fuel - 2, by simp only [List.length_nil] at hf; omega⟩
    rw [openLoopA, if_pos (by simp only [descSize]; omega)]
    have eL : (sizeLo v).toNat = v % 256 := by simp only [sizeLo, BitVec.toNat_ofNat]; omega
    have eH : (sizeHi v).toNat = v / 256 := by simp only [sizeHi, BitVec.toNat_ofNat]; omega
    have e0 : (0 : Byte).toNat = 0 := rfl
    have eV : (sizeLo v).toNat + 256 * (sizeHi v).toNat = v := by rw [eL, eH]; omega
    intro m1 ⟨i1, i2, i3, i4⟩ _
    obtain ⟨b, hb, hbc⟩ : ∃ b, m1[h]? = some b ∧ (b = sizeLo v ∨ b = 0 ∧ sizeHi v = 0) := by
      rcases hone with hone | hone
      · have : sizeHi v = 0 := by rw [sizeHi, show v / 256 = 0 by omega]; rfl
        rcases i4 with i4 | i4
        · exact ⟨_, i4, .inr ⟨rfl, this⟩⟩
        · exact ⟨_, i4, .inl rfl⟩
      · have : sizeLo v = 0 := by rw [sizeLo, hone]; rfl
        rcases i4 with i4 | i4
        · exact ⟨_, i4, .inl this.symm⟩
        · exact ⟨_, i4, .inl rfl⟩
    refine ⟨b, hb, ?_⟩
    intro m2 ⟨_, _, j3, _⟩ l2
    obtain ⟨c, hc, hcc⟩ : ∃ c, m2[h + 1]? = some c ∧ (b.toNat + 256 * c.toNat = 0 ∨ b = sizeLo v ∧ c = sizeHi v) := by
      rcases hbc with rfl | ⟨rfl, hh⟩
      · rcases j3 with j3 | j3
        · refine ⟨_, j3, ?_⟩
          rcases hone with hone | hone
          · exact .inr ⟨rfl, by rw [sizeHi, show v / 256 = 0 by omega]; rfl⟩
          · left; rw [eL, e0]; omega
        · exact ⟨_, j3, .inr ⟨rfl, rfl⟩⟩
      · rcases j3 with j3 | j3
        · exact ⟨_, j3, .inl rfl⟩
        · exact ⟨_, j3, .inl (by rw [hh]; rfl)⟩
    refine ⟨c, hc, ?_⟩
    simp only [Acc.bind]
    rcases hcc with hcc | ⟨rfl, rfl⟩
    · rw [if_pos hcc]
      exact .inl rfl
    · rw [eV, if_neg (by omega)]
      have hb2 := l2.1 hb
      intro m3 _ l3
      refine ⟨_, l3.1 hb2, ?_⟩
      intro m4 _ l4
      refine ⟨_, l4.2 (l3.2 hc), ?_⟩
      simp only [Acc.bind, eV]
      have e32 : add32 h v = h + v := add32_of_lt (by omega)
      rw [e32, if_pos hroom]
      intro m5 _ l5
      refine ⟨_, l5.1 (l4.1 (l3.1 hb2)), ?_⟩
      intro m6 _ l6
      refine ⟨_, l6.2 (l5.2 (l4.2 (l3.2 hc))), ?_⟩
      simp only [Acc.bind, eV, e32]
      rw [openLoopA]
      split
      · rename_i h6
        simp only [descSize] at h6
        intro m7 ⟨_, j7, _, _⟩ _
        refine ⟨0, by rw [j7 _ (by omega)]; exact hz _ (by omega) (by omega), ?_⟩
        intro m8 ⟨_, j8, _, _⟩ _
        refine ⟨0, by rw [j8 _ (by omega)]; exact hz _ (by omega) (by omega), ?_⟩
        simp only [Acc.bind, e0]
        exact .inr rfl
      · exact .inr rfl
  | cons a w b l h1 h2 h3 h4 hw ih =>
    intro fuel hf m
    obtain ⟨k, rfl⟩ : ∃ k, fuel = k + 1 := ⟨fuel - 1, by omega⟩
    have ht0 := ht (a, w) (by simp)
    simp only at ht0
    simp only [List.length_cons] at hf
    rw [openLoopA, if_pos (by simpa [descSize] using h1)]
    have hs : ∀ m, (nodeSizeA a).Rely (Adding m0 b v) (Stays b v) (fun r => r = w) m := by
      intro m
      unfold nodeSize at h2
      rw [Res.bind_eq_ok] at h2
      obtain ⟨lo, g1, h2⟩ := h2
      rw [Res.bind_eq_ok] at h2
      obtain ⟨hi, g2, h2⟩ := h2
      cases e1 : m0[a]? with
      | none => rw [e1] at g1; cases g1
      | some lo' =>
        cases e2 : m0[a + 1]? with
        | none => rw [e2] at g2; cases g2
        | some hi' =>
          rw [e1] at g1; rw [e2] at g2
          cases g1; cases g2; cases h2
          intro m1 ⟨_, j1, _, _⟩ _
          refine ⟨_, by rw [j1 _ (by omega)]; exact e1, ?_⟩
          intro m2 ⟨_, j2, _, _⟩ _
          exact ⟨_, by rw [j2 _ (by omega)]; exact e2, rfl⟩
    refine (hs m).bind ?_
    intro s1 m1 e1
    rw [e1, if_neg h3]
    refine (hs m1).bind ?_
    intro s2 m2 e2
    have e32 : add32 a w = a + w := add32_of_lt (by omega)
    rw [e2, e32, if_pos h4]
    refine (hs m2).bind ?_
    intro s3 m3 e3
    rw [e3, e32]
    exact ih hroom hz (fun e he => ht e (by simp [he])) k (by omega) m3

/-- **C145**: while one task adds an object to a storage which is empty behind its last record, and the size of the new record is
less than 256 or a multiple of 256, the constructor finds the free head of the storage without the new object or of the storage with it. -/
theorem open_while_added {β : Type} {s : Store} (hu : InUse s) (name obj : List Byte) (hsz : 6 + obj.length < 65536)
    (hone : 6 + obj.length < 256 ∨ (6 + obj.length) % 256 = 0)
    (hnew : get s name obj.length = .ok none) (hroom : s.freeHead + (6 + obj.length) ≤ s.mem.length)
    (hz : ∀ i, s.freeHead ≤ i → i < s.mem.length → s.mem[i]? = some 0) (fuel : Nat) (hfuel : s.freeHead < fuel)
    (f : Nat → β) (x : Bool → β) (sched : List (Option Unit)) :
    ∃ (ps : Option Unit → Acc β) (s' : Store),
      interleave sched (withOpener s.mem.length f fun _ => (setA fuel s.mem.length name obj).bind fun r => .ret (x r)) s =
        .ok (ps, s') ∧
      (∀ b, ps none = .ret b → b = f s.freeHead ∨ b = f (s.freeHead + (6 + obj.length))) ∧
      (6 * (s.mem.length + 1) ≤ sched.count none → ∃ b, ps none = .ret b) := by
  obtain ⟨l, ho⟩ := hu.opened'
  obtain ⟨m0, h⟩ := s
  simp only at hroom hz hfuel ⊢
  have hI : Adding m0 h (6 + obj.length) m0 :=
    ⟨rfl, fun _ _ => rfl, .inl (hz _ (by omega) (by omega)), .inl (hz _ (by omega) (by omega))⟩
  have hlen : l.length ≤ h := by simpa using ho.walk.length_le
  have hrel : (withOpener m0.length f (fun _ : Unit => (setA fuel m0.length name obj).bind fun r => .ret (x r)) none).Rely
      (Adding m0 h (6 + obj.length)) (Stays h (6 + obj.length)) (fun b => b = f h ∨ b = f (h + (6 + obj.length))) m0 := by
    refine (openLoopA_rely ho.cap (by omega) hsz hone hroom hz ho.walk ho.tail _ (by omega) m0).bind ?_
    rintro r m' (rfl | rfl)
    · exact .inl rfl
    · exact .inr rfl
  have hwr : (withOpener m0.length f (fun _ : Unit => (setA fuel m0.length name obj).bind fun r => .ret (x r)) (some ())).Writes
      (AddWrite h (6 + obj.length)) ⟨m0, h⟩ := by
    have hbind : ∀ {α β γ : Type} (p : Acc α) (g : α → Acc β) (k : β → Acc γ), (p.bind g).bind k = p.bind fun a => (g a).bind k := by
      intro α β γ p g k
      induction p with
      | ret a => rfl
      | hang => rfl
      | head q ih => simp only [Acc.bind, ih]
      | setHead n q ih => simp only [Acc.bind, ih]
      | read i q ih => simp only [Acc.bind, ih]
      | write i b q ih => simp only [Acc.bind, ih]
    change ((setA fuel m0.length name obj).bind fun r => .ret (x r)).Writes _ _
    unfold setA
    rw [hbind]
    refine Acc.Safe.writes (R := fun _ => True) ((getIdxLoopA_safe ho.cap ho.walk (fun _ _ _ _ _ => trivial) name obj.length fuel
      (by simpa using hfuel)).mono ?_)
    rintro q m1 ⟨rfl, rfl⟩
    rw [ho.get] at hnew
    have hnone : l.find? (hit m1 name obj.length) = none := by
      simp only [Res.ok.injEq, view, Option.map_eq_none_iff] at hnew
      exact hnew
    rw [hnone]
    simp only [Option.map_none, Acc.bind, Acc.Writes]
    rw [if_neg (by simp only [descSize]; omega)]
    simp only [Acc.bind, Acc.Writes, hbind]
    have okName : ∀ (k : Nat) b, (storedIdx name)[k]? = some b → AddWrite h (6 + obj.length) (h + 2 + k) b := by
      intro k b hk
      have := (List.getElem?_eq_some_iff.1 hk).1
      rw [storedIdx_length] at this
      exact .inl ⟨by omega, by omega⟩
    have okSize : ∀ (k : Nat) b, (le16 (descSize + obj.length))[k]? = some b → AddWrite h (6 + obj.length) (h + k) b := by
      intro k b hk
      simp only [le16, descSize] at hk
      match k, hk with
      | 0, hk =>
        refine .inr (.inl ⟨rfl, ?_⟩)
        simp only [List.getElem?_cons_zero, Option.some.injEq] at hk
        rw [← hk]
        congr 1
        omega
      | 1, hk =>
        refine .inr (.inr ⟨rfl, ?_⟩)
        simp only [List.getElem?_cons_succ, List.getElem?_cons_zero, Option.some.injEq] at hk
        rw [← hk]
        congr 1
        omega
      | k + 2, hk => simp at hk
    have okData : ∀ (k : Nat) b, obj[k]? = some b → AddWrite h (6 + obj.length) (h + descSize + k) b := by
      intro k b hk
      have := (List.getElem?_eq_some_iff.1 hk).1
      simp only [descSize]
      exact .inl ⟨by omega, by omega⟩
    refine writeNA_writes (L := m1.length) (by rw [storedIdx_length]; omega) okName ?_ m1 rfl
    refine writeNA_writes (L := m1.length) (by simp only [le16, List.length_cons, List.length_nil]; omega) okSize ?_
    refine writeNA_writes (L := m1.length) (by simp only [descSize]; omega) okData ?_
    exact fun _ _ => trivial
  obtain ⟨ps, s', j1, j2, -, j3⟩ := interleave_rely (fun _ => ⟨id, id⟩) (fun _ _ _ h1 h2 => ⟨h2.1 ∘ h1.1, h2.2 ∘ h1.2⟩)
    (fun m i b h1 h2 h3 => adding_set (by omega) h1 h2 h3) sched _ _ _ hrel hwr hI (openLoopA_within _ _ _).bind_ret
  refine ⟨ps, s', j1, fun b hb => ?_, fun hn => ?_⟩
  · rw [hb] at j2
    exact j2
  · rw [Nat.sub_eq_zero_of_le hn] at j3
    cases hp : ps none with
    | ret b => exact ⟨b, rfl⟩
    | read i k => rw [hp] at j3; exact j3.elim
    | hang => rw [hp] at j2; exact j2.elim
    | head k => rw [hp] at j2; exact j2.elim
    | setHead n k => rw [hp] at j2; exact j2.elim
    | write i b k => rw [hp] at j2; exact j2.elim

/-- Both answers occur: opening before and after an object is added. -/
example : ∀ b, (∃ sched ps s', interleave sched (withOpener 32 id fun _ : Unit => (setA 15 32 [0x43] [9]).bind fun _ => .ret 0)
      counters = .ok (ps, s') ∧ (ps none).result = some b) ↔ b = 14 ∨ b = 21 := by
  have hI := fun sched => open_while_added counters_inUse [0x43] [9] (by decide) (by decide) (by decide +kernel) (by decide +kernel)
    (by
      intro i h1 h2
      have h1 : 14 ≤ i := h1
      have h2 : i < 32 := h2
      have key : ∀ j : Fin 32, 14 ≤ j.val → counters.mem[j.val]? = some 0 := by decide +kernel
      exact key ⟨i, h2⟩ h1)
    15 (by decide) (id : Nat → Nat) (fun _ => 0) sched
  intro b
  constructor
  · rintro ⟨sched, ps, s', h1, h2⟩
    obtain ⟨ps', s'', k1, k2, -⟩ := hI sched
    have h3 := h1.symm.trans k1
    cases h3
    refine k2 b ?_
    cases hp : ps none with
    | ret a => rw [hp] at h2; simp only [Acc.result, Option.some.injEq] at h2; rw [h2]
    | _ => rw [hp] at h2; simp [Acc.result] at h2
  · have run : ∀ (sched : List (Option Unit)) (n : Nat), (match interleave sched
        (withOpener 32 id fun _ : Unit => (setA 15 32 [0x43] [9]).bind fun _ => .ret 0) counters with
      | .ok (ps, _) => decide ((ps none).result = some n)
      | _ => false) = true → ∃ sched ps s', interleave sched
        (withOpener 32 id fun _ : Unit => (setA 15 32 [0x43] [9]).bind fun _ => .ret 0) counters = .ok (ps, s') ∧
        (ps none).result = some n := by
      intro sched n h
      split at h
      · rename_i ps s' he
        exact ⟨_, ps, s', he, of_decide_eq_true h⟩
      · cases h
    rintro (rfl | rfl)
    · exact run (List.replicate 30 none) _ (by decide +kernel)
    · exact run (List.replicate 60 (some ()) ++ List.replicate 30 none) _ (by decide +kernel)

/-- Finding: the old free head is no harmless answer.  The constructor ends before the other task adds its object; an object
set through the new storage object afterwards takes the same place, both calls answer success, and the first object is lost. -/
theorem open_stale : ∃ (sched : List (Option Unit)) (ps : Option Unit → Acc Nat) (s' s'' : Store),
    interleave sched (withOpener 32 id fun _ => (setA 15 32 [0x43] [9]).bind fun r => .ret r.toNat) counters = .ok (ps, s') ∧
    (ps none).result = some counters.freeHead ∧ (ps (some ())).result = some 1 ∧ get s' [0x43] 1 = .ok (some [9]) ∧
    set ⟨s'.mem, counters.freeHead⟩ [0x44] [5] = .ok (s'', true) ∧ get ⟨s''.mem, s'.freeHead⟩ [0x43] 1 = .ok none := by
  have h : (match interleave (List.replicate 30 none ++ List.replicate 60 (some ()))
      (withOpener 32 id fun _ => (setA 15 32 [0x43] [9]).bind fun r => .ret r.toNat) counters with
    | .ok (ps, s') => match set ⟨s'.mem, counters.freeHead⟩ [0x44] [5] with
      | .ok (s'', b) => decide (((ps none).result = some counters.freeHead ∧ (ps (some ())).result = some 1 ∧
          get s' [0x43] 1 = .ok (some [9])) ∧ b = true ∧ get ⟨s''.mem, s'.freeHead⟩ [0x43] 1 = .ok none)
      | _ => false
    | _ => false) = true := by decide +kernel
  split at h
  · rename_i ps s' he
    split at h
    · rename_i s'' b hs
      simp only [decide_eq_true_eq] at h
      obtain ⟨⟨h1, h2, h3⟩, rfl, h4⟩ := h
      exact ⟨_, ps, s', s'', he, h1, h2, h3, hs, h4⟩
    · cases h
  · cases h

/-! ## All other sizes -/

theorem interleave_steps {ι β : Type} [DecidableEq ι] (t : ι) (ts : List ι) : ∀ (k : Nat) (ps : ι → Acc β) (s : Store)
    {p : Acc β} {s' : Store}, (ps t).steps k s = .ok (p, s') →
      interleave (List.replicate k t ++ ts) ps s = interleave ts (put ps t p) s'
  | 0, ps, s, p, s', h => by
    cases h
    have : put ps t (ps t) = ps := by funext u; simp only [put]; split <;> simp_all
    rw [this]; rfl
  | k + 1, ps, s, p, s', h => by
    rw [Acc.steps] at h
    rw [Res.bind_eq_ok] at h
    obtain ⟨⟨q, s1⟩, h1, h2⟩ := h
    simp only [List.replicate_succ, List.cons_append, interleave, h1, Res.bind_ok]
    rw [interleave_steps t ts k (put ps t q) s1 (p := p) (s' := s') (by simpa [put] using h2)]
    congr 1
    funext u
    simp only [put]
    split <;> rfl

/-- Finding, for every size: if the size of the new record has two bytes, and the low one is at least six, then in some
schedule the constructor finds a free head which is neither the old one nor the new one. -/
theorem open_torn_all (n fuel : Nat) (name obj : List Byte) (hfuel : 0 < fuel) (hn : CapOk n) (hroom : 6 + obj.length ≤ n)
    (hsz : 256 ≤ 6 + obj.length) (hsz' : 6 + obj.length < 65536) (hlo : 6 ≤ (6 + obj.length) % 256) :
    ∃ (sched : List (Option Unit)) (ps : Option Unit → Acc Nat) (s' : Store),
      interleave sched (withOpener n id fun _ => (setA fuel n name obj).bind fun _ => .ret 0) ⟨List.replicate n 0, 0⟩ =
        .ok (ps, s') ∧
      (ps none).result = some ((6 + obj.length) % 256) ∧ (6 + obj.length) % 256 ≠ 0 ∧
      (6 + obj.length) % 256 ≠ 6 + obj.length := by
  obtain ⟨a, b, c, d, hidx⟩ : ∃ a b c d, storedIdx name = [a, b, c, d] := by
    have := storedIdx_length name
    match storedIdx name, this with
    | [a, b, c, d], _ => exact ⟨a, b, c, d, rfl⟩
  obtain ⟨fuel, rfl⟩ : ∃ k, fuel = k + 1 := ⟨fuel - 1, by omega⟩
  obtain ⟨M, hM⟩ : ∃ M, M = (((((List.replicate n (0 : Byte)).set 2 a).set 3 b).set 4 c).set 5 d).set 0
      (sizeLo (6 + obj.length)) := ⟨_, rfl⟩
  simp only [CapOk] at hn
  have hadd : ∃ p, ((setA (fuel + 1) n name obj).bind fun _ => Acc.ret 0).steps 8 ⟨List.replicate n 0, 0⟩ =
      .ok (p, ⟨M, 0⟩) := by
    have e : (6 + obj.length) % 2 ^ 16 % 256 = (6 + obj.length) % 256 := by omega
    have l0 : 0 < n := by omega
    have l2 : 2 < n := by omega
    have l3 : 2 + 1 < n := by omega
    have l4 : 2 + 1 + 1 < n := by omega
    have l5 : 2 + 1 + 1 + 1 < n := by omega
    simp only [setA, getIdxLoopA, descSize, Acc.bind, Acc.steps, Acc.step, Res.bind_ok]
    rw [if_neg (by omega)]
    simp only [Acc.bind, Res.bind_ok]
    rw [if_neg (by omega)]
    simp only [Acc.bind, Res.bind_ok, Nat.zero_add, hidx, writeNA, le16, e, List.length_set, List.length_replicate, l0, l2, l3,
      l4, l5, if_true]
    exact ⟨_, by rw [hM]⟩
  have m0 : M[0]? = some (sizeLo (6 + obj.length)) := by
    rw [hM, List.getElem?_set_self (by simp; omega)]
  have mz : ∀ i, i < n → i = 1 ∨ 6 ≤ i → M[i]? = some 0 := by
    intro i h1 h2
    rw [hM]
    repeat rw [List.getElem?_set_ne (by omega)]
    rw [List.getElem?_replicate, if_pos h1]
  have eL : (sizeLo (6 + obj.length)).toNat = (6 + obj.length) % 256 := by simp only [sizeLo, BitVec.toNat_ofNat]; omega
  have hopen : ((openA n).bind fun h => Acc.ret (id h)).steps 8 ⟨M, 0⟩ = .ok (.ret ((6 + obj.length) % 256), ⟨M, 0⟩) := by
    obtain ⟨k, rfl⟩ : ∃ k, n = k + 1 := ⟨n - 1, by omega⟩
    generalize hL : (6 + obj.length) % 256 = L at *
    have e0 : (0 : Byte).toNat = 0 := rfl
    have e32 : add32 0 L = L := by rw [add32_of_lt (by omega)]; omega
    have z1 := mz 1 (by omega) (.inl rfl)
    have zL := mz L (by omega) (.inr (by omega))
    have zL' := mz (L + 1) (by omega) (.inr (by omega))
    rw [openA, openLoopA, if_pos (by simp only [descSize]; omega)]
    simp only [nodeSizeA, Acc.bind, Acc.steps, Acc.step, Res.bind_ok, m0, z1, eL, e0, Nat.zero_add, Nat.mul_zero, Nat.add_zero]
    rw [if_neg (by omega)]
    simp only [Acc.bind, Res.bind_ok, m0, z1, eL, e0, Nat.mul_zero, Nat.add_zero, e32]
    rw [if_pos (by omega)]
    simp only [Acc.bind, Res.bind_ok, m0, z1, eL, e0, Nat.mul_zero, Nat.add_zero, e32]
    rw [openLoopA, if_pos (by simp only [descSize]; omega)]
    simp only [nodeSizeA, Acc.bind, Res.bind_ok, zL, zL', e0, Nat.mul_zero, Nat.add_zero, if_true, id]
  obtain ⟨p, hp⟩ := hadd
  refine ⟨List.replicate 8 (some ()) ++ (List.replicate 8 none ++ []), put (put (withOpener n id fun _ =>
    (setA (fuel + 1) n name obj).bind fun _ => .ret 0) (some ()) p) none (.ret ((6 + obj.length) % 256)), ⟨M, 0⟩, ?_, ?_,
    by omega, by omega⟩
  · rw [interleave_steps (some ()) _ 8 _ _ (p := p) (s' := ⟨M, 0⟩) hp]
    rw [interleave_steps none [] 8 _ _ (p := .ret ((6 + obj.length) % 256)) (s' := ⟨M, 0⟩) (by simpa [put, withOpener] using hopen)]
    rfl
  · simp [put, Acc.result]

/-- An object of 1000 bytes: the record has 1006 bytes, the constructor finds 238. -/
example (obj : List Byte) (h : obj.length = 1000) : ∃ (sched : List (Option Unit)) (ps : Option Unit → Acc Nat) (s' : Store),
    interleave sched (withOpener 2000 id fun _ => (setA 1 2000 [0x41] obj).bind fun _ => .ret 0)
      ⟨List.replicate 2000 0, 0⟩ = .ok (ps, s') ∧ (ps none).result = some 238 := by
  obtain ⟨sched, ps, s', h1, h2, -, -⟩ := open_torn_all 2000 1 [0x41] obj (by omega) (by unfold CapOk; omega)
    (by omega) (by omega) (by omega) (by omega)
  exact ⟨sched, ps, s', h1, by rw [h2]; congr 1; omega⟩

end Verif.Storage
