import Verif.Storage.Durable
/-!
# Objects of one size (C132)

A power loss in the middle of the two bytes of a size field can leave a one-byte entry at the end of the storage, after
which acknowledged objects are lost (C07, C68, C81: `torn_size_one`, `one_byte_tail_breaks`).  This cannot happen if all
objects have one size, and descriptor and object together have at most 256 bytes: then one of the two bytes is zero.
-/
namespace Verif.Storage

/-- The object of the event has `n` bytes and a short name. -/
def Event.Fits (n : Nat) : Event → Prop
  | .set name obj => name.length ≤ 4 ∧ obj.length = n
  | .crash name obj => name.length ≤ 4 ∧ obj.length = n
  | .reopen => True

/-- Storages which were initialised and then used for objects of `n` bytes, with any number of power losses. -/
inductive Uniform (n : Nat) : Store → Prop where
  | init (m : List Byte) (s : Store) : CapOk m.length → create m true = .ok s → Uniform n s
  | event (s s' : Store) (e : Event) : Uniform n s → e.Fits n → Happens s e s' → Uniform n s'

/-! ## Slots -/

/-- The memory is divided into slots of `c` bytes; the size fields of the first `k` hold `c`, the others zero. -/
structure Slots (c k : Nat) (m : List Byte) : Prop where
  cap : CapOk m.length
  room : c * k ≤ m.length
  used : ∀ j, j < k → nodeSize m (c * j) = .ok c
  free : ∀ j, k ≤ j → c * j + 2 ≤ m.length → nodeSize m (c * j) = .ok 0

section
variable {c k : Nat} {m m' : List Byte}

theorem nodeSize_room {m : List Byte} {p v : Nat} (h : nodeSize m p = .ok v) : p + 2 ≤ m.length := by
  unfold nodeSize at h
  rw [Res.bind_eq_ok] at h
  obtain ⟨a, -, h⟩ := h
  rw [Res.bind_eq_ok] at h
  obtain ⟨b, hb, -⟩ := h
  cases hm : m[p + 1]? with
  | none => rw [hm] at hb; cases hb
  | some x => have := (List.getElem?_eq_some_iff.1 hm).1; omega

theorem Slots.size (h : Slots c k m) {j v : Nat} (hv : nodeSize m (c * j) = .ok v) : v = c ∨ v = 0 := by
  by_cases hj : j < k
  · rw [h.used j hj] at hv; exact .inl (Res.ok.inj hv).symm
  · rw [h.free j (by omega) (nodeSize_room hv)] at hv; exact .inr (Res.ok.inj hv).symm

theorem Slots.walk_slot (h : Slots c k m) {a b : Nat} (hw : Walk m a b) : ∀ j, a = c * j → ∃ i, b = c * i := by
  induction hw with
  | refl a => intro j hj; exact ⟨j, hj⟩
  | step a v b h1 h2 h3 h4 _ ih =>
    rintro j rfl
    rcases h.size h2 with rfl | rfl
    · exact ih (j + 1) (Nat.mul_succ _ _).symm
    · exact absurd rfl h3

theorem Slots.no_tail (h : Slots c k m) (hc : 6 ≤ c) (fh : Nat) : ¬ OneByteTail ⟨m, fh⟩ := by
  rintro ⟨-, h2, h3⟩
  simp only at h2 h3
  obtain ⟨i, hi⟩ := h.walk_slot h2 0 rfl
  rw [hi] at h3
  rcases h.size h3 with h | h <;> omega

theorem Slots.walkL (h : Slots c k m) (hc : 6 ≤ c) : ∀ d j, j + d = k → ∃ l, WalkL m (c * j) l (c * k) ∧ ∀ e ∈ l, e.2 = c := by
  intro d
  induction d with
  | zero => intro j hj; obtain rfl : j = k := by omega
            exact ⟨[], .nil _, by simp⟩
  | succ d ih =>
    intro j hj
    obtain ⟨l, hl, hs⟩ := ih (j + 1) (by omega)
    have h1 : c * (j + 1) ≤ c * k := Nat.mul_le_mul_left c (by omega)
    have h2 := h.room
    rw [Nat.mul_succ] at hl h1
    refine ⟨(c * j, c) :: l, .cons _ _ _ _ (by omega) (h.used j (by omega)) (by omega) (by omega) hl, ?_⟩
    intro e he
    rcases List.mem_cons.1 he with rfl | he
    · rfl
    · exact hs e he

theorem Slots.opened (h : Slots c k m) (hc : 6 ≤ c) : ∃ l, Opened ⟨m, c * k⟩ l ∧ ∀ e ∈ l, e.2 = c := by
  obtain ⟨l, hl, hs⟩ := h.walkL hc k 0 (by omega)
  refine ⟨l, ⟨h.cap, h.room, hl, fun e he => ?_⟩, hs⟩
  have := (hl.mem e he).2.1
  have := hs e he
  simp only
  omega

theorem Slots.reopen (h : Slots c k m) (hc : 6 ≤ c) : create m false = .ok ⟨m, c * k⟩ := by
  have key : ∀ fuel j, j ≤ k → m.length - c * j < fuel → openLoop m fuel (c * j) = .ok (c * k) := by
    intro fuel
    induction fuel with
    | zero => intro j _ h; omega
    | succ f ih =>
      intro j hj hf
      have hroom := h.room
      have hcap := h.cap
      simp only [CapOk] at hcap
      rw [openLoop]
      by_cases hjk : j < k
      · have h1 : c * (j + 1) ≤ c * k := Nat.mul_le_mul_left c (by omega)
        rw [Nat.mul_succ] at h1
        rw [if_pos (by simp only [descSize]; omega), h.used j hjk, Res.bind_ok, add32_of_lt (by omega),
          if_pos ⟨by omega, by omega⟩]
        exact ih (j + 1) (by omega) (by rw [Nat.mul_succ]; omega)
      · obtain rfl : j = k := by omega
        split
        · rename_i h6
          simp only [descSize] at h6
          rw [h.free j (Nat.le_refl _) (by omega), Res.bind_ok, if_neg (by simp)]
        · rfl
  have := key (m.length + 1) 0 (Nat.zero_le _) (by omega)
  rw [Nat.mul_zero] at this
  simp only [create, Bool.false_eq_true, if_false, this, Res.bind_ok]

/-- Only one slot has changed. -/
theorem Slots.touch (h : Slots c k m) (hc : 6 ≤ c) (hl : m'.length = m.length) {j0 : Nat} (hfit : c * j0 + c ≤ m.length)
    (hsame : ∀ i : Nat, i < c * j0 ∨ c * j0 + c ≤ i → m'[i]? = m[i]?) :
    (nodeSize m' (c * j0) = nodeSize m (c * j0) → Slots c k m') ∧
      (j0 = k → nodeSize m' (c * k) = .ok c → Slots c (k + 1) m') := by
  have hother : ∀ j, j ≠ j0 → nodeSize m' (c * j) = nodeSize m (c * j) := by
    intro j hj
    have : c * j + 6 ≤ c * j0 ∨ c * j0 + c ≤ c * j := by
      rcases Nat.lt_or_gt_of_ne hj with hlt | hlt
      · have := Nat.mul_le_mul_left c (show j + 1 ≤ j0 by omega)
        rw [Nat.mul_succ] at this
        exact .inl (by omega)
      · have := Nat.mul_le_mul_left c (show j0 + 1 ≤ j by omega)
        rw [Nat.mul_succ] at this
        exact .inr (by omega)
    exact nodeSize_congr (hsame _ (by omega)) (hsame _ (by omega))
  constructor
  · intro he
    have hall : ∀ j, nodeSize m' (c * j) = nodeSize m (c * j) := fun j => by
      by_cases hj : j = j0
      · rw [hj, he]
      · exact hother j hj
    exact ⟨by rw [hl]; exact h.cap, by rw [hl]; exact h.room, fun j hj => by rw [hall, h.used j hj],
      fun j hj h2 => by rw [hall, h.free j hj (by omega)]⟩
  · rintro rfl hk
    refine ⟨by rw [hl]; exact h.cap, by rw [hl, Nat.mul_succ]; exact hfit, fun j hj => ?_, fun j hj h2 => ?_⟩
    · by_cases hjk : j = j0
      · rw [hjk, hk]
      · rw [hother j hjk, h.used j (by omega)]
    · rw [hother j (by omega), h.free j (by omega) (by omega)]

/-- The size field in the middle of being written. -/
theorem torn_size (hc : c ≤ 256) {p : Nat}
    (ha : m'[p]? = some 0 ∨ m'[p]? = some (BitVec.ofNat 8 (c % 2 ^ 16 % 256)))
    (hb : m'[p + 1]? = some 0 ∨ m'[p + 1]? = some (BitVec.ofNat 8 (c % 2 ^ 16 / 256))) :
    nodeSize m' p = .ok 0 ∨ nodeSize m' p = .ok c := by
  unfold nodeSize
  have e1 : c % 2 ^ 16 % 256 = c % 256 := by omega
  have e2 : c % 2 ^ 16 / 256 = c / 256 := by omega
  rw [e1] at ha
  rw [e2] at hb
  have hlo : (BitVec.ofNat 8 (c % 256)).toNat = c % 256 := by rw [BitVec.toNat_ofNat]; omega
  have hhi : (BitVec.ofNat 8 (c / 256)).toNat = c / 256 := by rw [BitVec.toNat_ofNat]; omega
  rcases ha with ha | ha <;> rcases hb with hb | hb <;> rw [ha, hb] <;>
    simp only [Res.ofOption_some, Res.bind_ok, hlo, hhi, Res.ok.injEq, show (0 : Byte).toNat = 0 from rfl] <;> first | exact .inl trivial | omega

end

/-- What a call of `set` and a power loss during it leave. -/
theorem Slots.writes {n k : Nat} {m m' : List Byte} (h : Slots (6 + n) k m) (hn : 6 + n ≤ 256) {name obj : List Byte}
    (ho : obj.length = n) {plan : Plan} (hp : setPlan ⟨m, (6 + n) * k⟩ name obj = .ok plan) {ws : List (Nat × Byte)}
    (hws : ∀ w ∈ ws, w ∈ plan.writes) (hm : applyWrites m ws = .ok m') :
    Slots (6 + n) k m' ∨ Slots (6 + n) (k + 1) m' ∧ plan.freeHead = (6 + n) * (k + 1) := by
  obtain ⟨l, hop, hs⟩ := h.opened (by omega)
  obtain ⟨f1, f2, f3⟩ := applyWrites_frame hm
  unfold setPlan getIdx at hp
  rw [getIdxLoop_list hop.cap hop.walk _ _ _ (by simp)] at hp
  have hwrite : ∀ (q : Nat) (bs : List Byte) (w : Nat × Byte), w ∈ writesAt q bs → ∃ j, bs[j]? = some w.2 ∧ w.1 = q + j := by
    intro q bs w hw
    unfold writesAt at hw
    rw [List.mem_mapIdx] at hw
    obtain ⟨j, hj, rfl⟩ := hw
    exact ⟨j, List.getElem?_eq_getElem hj, rfl⟩
  cases hf : l.find? (hit m name obj.length) with
  | some e =>
    simp only [hf, Option.map_some, Res.bind_ok, descSize, Res.ok.injEq] at hp
    subst hp
    have hem := List.mem_of_find?_eq_some hf
    obtain ⟨g1, g2, g3, g4, g5, g6⟩ := hop.walk.mem e hem
    simp only at g2 g4 g6
    have h2 := hs e hem
    obtain ⟨l1, l2, hl⟩ := List.append_of_mem hem
    have hw := hop.walk
    rw [hl] at hw
    obtain ⟨j, hj⟩ := h.walk_slot (hw.split l1).walk 0 rfl
    have hrange : ∀ w ∈ ws, e.1 + 6 ≤ w.1 ∧ w.1 < e.1 + (6 + n) := by
      intro w hw
      obtain ⟨i, h5, h6⟩ := hwrite _ _ _ (hws w hw)
      have := (List.getElem?_eq_some_iff.1 h5).1
      omega
    have ht := Slots.touch (m' := m') h (by omega) f1 (j0 := j) (by omega) fun i hi => f2 i fun w hw hwi => by
      have := hrange w hw
      omega
    refine .inl (ht.1 (nodeSize_congr (f2 _ fun w hw hwi => ?_) (f2 _ fun w hw hwi => ?_))) <;>
    · have := hrange w hw
      omega
  | none =>
    rw [hf] at hp
    simp only [Option.map_none, Res.bind_ok, descSize, ho] at hp
    by_cases hroom : (6 + n) * k + (6 + n) > m.length
    · rw [if_pos hroom] at hp
      cases hp
      have : ws = [] := List.eq_nil_iff_forall_not_mem.2 fun w hw => by cases hws w hw
      subst this
      cases hm
      exact .inl h
    · rw [if_neg hroom] at hp
      cases hp
      generalize hp0 : (6 + n) * k = p at *
      have hsz := h.free k (Nat.le_refl _) (by omega)
      rw [hp0] at hsz
      have hbytes : m[p]? = some 0 ∧ m[p + 1]? = some 0 := by
        have q0 : p < m.length := by omega
        have q1 : p + 1 < m.length := by omega
        unfold nodeSize at hsz
        rw [List.getElem?_eq_getElem q0, List.getElem?_eq_getElem q1] at hsz ⊢
        simp only [Res.ofOption_some, Res.bind_ok, Res.ok.injEq] at hsz
        have z0 : (m[p]).toNat = 0 := by omega
        have z1 : (m[p + 1]).toNat = 0 := by omega
        exact ⟨by rw [BitVec.eq_of_toNat_eq (z0.trans rfl : (m[p]).toNat = (0 : Byte).toNat)],
          by rw [BitVec.eq_of_toNat_eq (z1.trans rfl : (m[p + 1]).toNat = (0 : Byte).toNat)]⟩
      have hin : ∀ w ∈ ws, (∃ j, (storedIdx name)[j]? = some w.2 ∧ w.1 = p + 2 + j) ∨
          (∃ j, (le16 (6 + n))[j]? = some w.2 ∧ w.1 = p + j) ∨ ∃ j, obj[j]? = some w.2 ∧ w.1 = p + 6 + j := by
        intro w hw
        rcases List.mem_append.1 (hws w hw) with h' | h'
        · rcases List.mem_append.1 h' with h' | h'
          · exact .inl (hwrite _ _ _ h')
          · exact .inr (.inl (hwrite _ _ _ h'))
        · exact .inr (.inr (hwrite _ _ _ h'))
      have hi4 := storedIdx_length name
      have hrange : ∀ w ∈ ws, p ≤ w.1 ∧ w.1 < p + (6 + n) := by
        intro w hw
        rcases hin w hw with ⟨j, h5, h6⟩ | ⟨j, h5, h6⟩ | ⟨j, h5, h6⟩
        all_goals
          have := (List.getElem?_eq_some_iff.1 h5).1
          try simp only [le16, List.length_cons, List.length_nil] at this
          omega
      have hsize : ∀ w ∈ ws, ∀ d, w.1 = p + d → d < 2 → (le16 (6 + n))[d]? = some w.2 := by
        intro w hw d hd h2
        rcases hin w hw with ⟨j, h5, h6⟩ | ⟨j, h5, h6⟩ | ⟨j, h5, h6⟩
        · omega
        · obtain rfl : j = d := by omega
          exact h5
        · omega
      have ht := Slots.touch (m' := m') h (by omega) f1 (j0 := k) (by omega) fun i hi => f2 i fun w hw hwi => by
        have := hrange w hw
        omega
      rw [hp0] at ht
      have htorn : nodeSize m' p = .ok 0 ∨ nodeSize m' p = .ok (6 + n) := by
        refine torn_size hn ?_ ?_
        · rcases f3 p with h5 | ⟨b, hb, h5⟩
          · exact .inl (h5.trans hbytes.1)
          · refine .inr (h5.trans ?_)
            have := hsize _ hb 0 rfl (by omega)
            exact this.symm
        · rcases f3 (p + 1) with h5 | ⟨b, hb, h5⟩
          · exact .inl (h5.trans hbytes.2)
          · refine .inr (h5.trans ?_)
            have := hsize _ hb 1 rfl (by omega)
            exact this.symm
      rcases htorn with h5 | h5
      · exact .inl (ht.1 (h5.trans hsz.symm))
      · have hcap := h.cap
        simp only [CapOk] at hcap
        refine .inr ⟨ht.2 rfl h5, ?_⟩
        rw [add32_of_lt (by omega), Nat.mul_succ, hp0]

/-! ## The theorems -/

/-- What the storage looks like at any time. -/
theorem Uniform.slots {n : Nat} (hn : 6 + n ≤ 256) {s : Store} (h : Uniform n s) :
    InUse s ∧ ∃ k, Slots (6 + n) k s.mem ∧ s.freeHead = (6 + n) * k := by
  induction h with
  | init m s hcap hs =>
    refine ⟨.fresh m s hcap hs, 0, ?_, ?_⟩ <;> cases hs
    · refine ⟨by simpa using hcap, by simp, fun j hj => absurd hj (Nat.not_lt_zero j), fun j _ h2 => ?_⟩
      simp only [List.length_replicate] at h2
      unfold nodeSize
      rw [List.getElem?_replicate, List.getElem?_replicate, if_pos (by omega), if_pos (by omega)]
      rfl
    · simp
  | event s s' e hs hf he ih =>
    obtain ⟨hu, k, hk, hfh⟩ := ih
    obtain ⟨m, fh⟩ := s
    simp only at hk hfh
    subst hfh
    cases he with
    | set _ name obj b hset =>
      refine ⟨.set _ _ name obj b hu hf.1 (by have := hf.2; omega) hset, ?_⟩
      obtain ⟨l, hop, -⟩ := hk.opened (by omega)
      have hplan := hset
      unfold Storage.set at hplan
      rw [Res.bind_eq_ok] at hplan
      obtain ⟨plan, hp, hplan⟩ := hplan
      rw [Res.bind_eq_ok] at hplan
      obtain ⟨m', hm, hplan⟩ := hplan
      simp only [Res.ok.injEq, Prod.mk.injEq] at hplan
      have hw := hk.writes hn hf.2 hp (fun w hw => hw) hm
      have hmem : s'.mem = m' := by rw [← hplan.1]
      have hhead : s'.freeHead = plan.freeHead := by rw [← hplan.1]
      have hfh : s'.freeHead = (6 + n) * k ∧ (Slots (6 + n) k m') ∨ s'.freeHead = (6 + n) * (k + 1) ∧ Slots (6 + n) (k + 1) m' := by
        have hold : s'.freeHead = (6 + n) * k → Slots (6 + n) k m' := by
          intro he
          rcases hw with hw | ⟨-, hw⟩
          · exact hw
          · rw [← hhead, he, Nat.mul_succ] at hw; omega
        cases hfd : l.find? (hit m name obj.length) with
        | some e =>
          obtain ⟨s1, h1, h2, -⟩ := hop.set_hit hfd
          rw [h1] at hset
          simp only [Res.ok.injEq, Prod.mk.injEq] at hset
          obtain ⟨rfl, -⟩ := hset
          exact .inl ⟨h2, hold h2⟩
        | none =>
          by_cases hroom : m.length < (6 + n) * k + 6 + obj.length
          · rw [hop.set_full hfd hroom] at hset
            simp only [Res.ok.injEq, Prod.mk.injEq] at hset
            obtain ⟨rfl, -⟩ := hset
            exact .inl ⟨rfl, hold rfl⟩
          · obtain ⟨s1, h1, h2, h3, h4, -⟩ := hop.set_new hfd (by simp only; omega) (by have := hf.2; omega)
            rw [h1] at hset
            simp only [Res.ok.injEq, Prod.mk.injEq] at hset
            obtain ⟨rfl, -⟩ := hset
            have := (h4.walk.mem _ (List.mem_append_right l (List.mem_singleton.2 rfl))).2.2.1
            simp only [hmem] at this
            rcases hw with hw | ⟨hw, hw'⟩
            · rw [hw.free k (Nat.le_refl _) (nodeSize_room this)] at this
              have := Res.ok.inj this
              omega
            · exact .inr ⟨by rw [hhead, hw'], hw⟩
      rcases hfh with ⟨h1, h2⟩ | ⟨h1, h2⟩
      · exact ⟨k, by rw [hmem]; exact h2, h1⟩
      · exact ⟨k + 1, by rw [hmem]; exact h2, h1⟩
    | reopen _ hs =>
      have h1 := hk.reopen (by omega)
      simp only at hs
      rw [h1] at hs
      cases hs
      exact ⟨hu, k, hk, rfl⟩
    | crash _ name obj plan m' hp hc hs =>
      have hev : Happens ⟨m, (6 + n) * k⟩ (.crash name obj) s' := .crash _ _ name obj plan m' hp hc hs
      obtain ⟨ws, hws, hm⟩ := hc
      have : ∃ k', Slots (6 + n) k' m' := by
        rcases hk.writes hn hf.2 hp hws hm with h | h
        · exact ⟨_, h⟩
        · exact ⟨_, h.1⟩
      obtain ⟨k', hk'⟩ := this
      have h1 := hk'.reopen (by omega)
      rw [h1] at hs
      cases hs
      exact ⟨.event _ _ _ hu (.inr ⟨name, obj, rfl⟩) hev (hk'.no_tail (by omega) _), k', hk', rfl⟩

/-- **C132**: if all objects have one size, and the descriptor and the object have at most 256 bytes together, then no
power loss, in whatever order the bytes reach memory, leaves a storage which is not in use (C81): the free head is always
a multiple of the record size, every call is defined, and reopening always succeeds. -/
theorem uniform_inUse {n : Nat} (hn : 6 + n ≤ 256) {s : Store} (h : Uniform n s) :
    InUse s ∧ (∃ k, s.freeHead = (6 + n) * k) ∧
      (∀ name k, ∃ v, get s name k = .ok v) ∧ (∀ name obj, name.length ≤ 4 → obj.length = n → ∃ s' b, set s name obj = .ok (s', b)) ∧
      create s.mem false = .ok s := by
  obtain ⟨hu, k, hk, hfh⟩ := h.slots hn
  obtain ⟨l, ho⟩ := hu.opened'
  refine ⟨hu, ⟨k, hfh⟩, fun name k => ⟨_, ho.get name k⟩, fun name obj h1 h2 => ?_, ?_⟩
  · exact (events_defined hu name obj h1 (by omega)).1
  · rw [hk.reopen (by omega), ← hfh]

theorem Uniform.later {n : Nat} {s s' : Store} (h : Uniform n s) {es : List Event} (he : Later s es s')
    (hf : ∀ e ∈ es, e.Fits n) : Uniform n s' := by
  induction he with
  | nil => exact h
  | cons s s1 s2 e es h1 _ ih =>
    exact ih (.event s s1 e h (hf e (by simp)) h1) fun e' h' => hf e' (by simp [h'])

/-- **C132**: every acknowledged object can be read for ever: after any number of power losses it has not changed unless
an event wrote that object, and then every byte of it is one of those which were written. -/
theorem uniform_kept {n : Nat} (hn : 6 + n ≤ 256) {s s1 s2 : Store} (h : Uniform n s) (name obj : List Byte)
    (hname : name.length ≤ 4) (hobj : obj.length = n) (hset : set s name obj = .ok (s1, true)) (es : List Event)
    (hf : ∀ e ∈ es, e.Fits n) (he : Later s1 es s2) :
    Uniform n s2 ∧ ∃ v, get s2 name n = .ok (some v) ∧ ((∀ e ∈ es, ∀ o, ¬ e.Writes name n o) → v = obj) ∧
      ∀ i : Nat, v[i]? = obj[i]? ∨ ∃ e ∈ es, ∃ o, e.Writes name n o ∧ v[i]? = o[i]? := by
  have h1 : Uniform n s1 := .event s s1 (.set name obj) h ⟨hname, hobj⟩ (.set _ _ _ _ _ hset)
  refine ⟨h1.later he hf, ?_⟩
  subst hobj
  exact acknowledged_durable (h.slots hn).1 name obj hname (by omega) hset es he

/-- A power loss costs at most one slot, and none if the object was there before. -/
theorem uniform_cost {n : Nat} (hn : 6 + n ≤ 256) {s s' : Store} (h : Uniform n s) (name obj : List Byte)
    (hobj : obj.length = n) (he : Happens s (.crash name obj) s') :
    (s'.freeHead = s.freeHead ∨ s'.freeHead = s.freeHead + (6 + n)) ∧
      (get s name n ≠ .ok none → s'.freeHead = s.freeHead) := by
  obtain ⟨hu, k, hk, hfh⟩ := h.slots hn
  obtain ⟨m, fh⟩ := s
  simp only at hk hfh
  subst hfh
  cases he with
  | crash _ _ _ plan m' hp hc hs =>
    obtain ⟨ws, hws, hm⟩ := hc
    have hw := hk.writes hn hobj hp hws hm
    constructor
    · rcases hw with hw | ⟨hw, -⟩
      · rw [hw.reopen (by omega)] at hs; cases hs; exact .inl rfl
      · rw [hw.reopen (by omega)] at hs; cases hs; exact .inr (Nat.mul_succ _ _)
    · intro hpres
      rcases hw with hw | ⟨-, hw⟩
      · rw [hw.reopen (by omega)] at hs; cases hs; rfl
      · exfalso
        obtain ⟨l, ho, -⟩ := hk.opened (by omega)
        rw [ho.get] at hpres
        unfold view at hpres
        unfold setPlan getIdx at hp
        rw [getIdxLoop_list ho.cap ho.walk _ _ _ (by simp), hobj] at hp
        cases hf : l.find? (hit m name n) with
        | none => simp only [hf] at hpres; exact hpres rfl
        | some e =>
          simp only [hf, Option.map_some, Res.bind_ok, Res.ok.injEq] at hp
          rw [← hp, Nat.mul_succ] at hw
          simp only at hw
          omega

/-- The bound is sharp: with objects of 251 bytes (257 with the descriptor) a power loss between the two bytes of the
size field leads to a storage in which an object is acknowledged and cannot be read. -/
theorem uniform_sharp : ∃ s s1 name obj, Uniform 251 s ∧ name.length ≤ 4 ∧ obj.length = 251 ∧
    set s name obj = .ok (s1, true) ∧ get s1 name 251 = .ok none := by
  let o : List Byte := List.replicate 251 7
  have hp : ∃ plan, setPlan ⟨List.replicate 520 0, 0⟩ [0x41] o = .ok plan ∧ (0, 1) ∈ plan.writes ∧ (2, 0x41) ∈ plan.writes := by
    unfold setPlan getIdx
    rw [show getIdxLoop (List.replicate 520 0) 0 [0x41] o.length (0 + 1) 0 = .ok none from by decide +kernel]
    simp only [Res.bind_ok]
    rw [if_neg (by decide +kernel)]
    exact ⟨_, rfl, by decide +kernel, by decide +kernel⟩
  obtain ⟨plan, hp, w1, w2⟩ := hp
  have h0 : Uniform 251 ⟨List.replicate 520 0, 0⟩ := .init (List.replicate 520 0) _ (by rw [List.length_replicate]; unfold CapOk; omega) (by decide +kernel)
  have h1 : Uniform 251 ⟨[1, 0, 0x41] ++ List.replicate 517 0, 1⟩ :=
    .event _ _ (.crash [0x41] o) h0 ⟨by decide, by decide +kernel⟩
      (.crash _ _ _ _ plan ([1, 0, 0x41] ++ List.replicate 517 0) hp
        ⟨[(0, 1), (2, 0x41)], by
          intro w hw
          simp only [List.mem_cons, List.not_mem_nil, or_false] at hw
          rcases hw with rfl | rfl
          · exact w1
          · exact w2, by decide +kernel⟩ (by decide +kernel))
  have h2 : (match set ⟨[1, 0, 0x41] ++ List.replicate 517 0, 1⟩ [0x42] o with
    | .ok (s1, b) => decide (b = true ∧ get s1 [0x42] 251 = .ok none)
    | _ => false) = true := by decide +kernel
  split at h2
  · rename_i s1 b hb
    obtain ⟨rfl, h3⟩ := of_decide_eq_true h2
    exact ⟨_, s1, [0x42], o, h1, by decide, by decide +kernel, hb, h3⟩
  · cases h2

/-! ## An example -/

/-- A region of three slots for objects of two bytes; power is lost while the second object is added: its size and half
of its data have reached memory.  The first object is there, and there is room for one more. -/
example : ∃ s s' s2 : Store, Uniform 2 s ∧ Happens s (.crash [0x42] [5, 6]) s' ∧ get s' [0x41] 2 = .ok (some [3, 4]) ∧
    s'.freeHead = 16 ∧ set s' [0x43] [8, 9] = .ok (s2, true) ∧ get s2 [0x41] 2 = .ok (some [3, 4]) ∧
    get s2 [0x43] 2 = .ok (some [8, 9]) := by
  let s : Store := ⟨[8, 0, 0x41, 0, 0, 0, 3, 4] ++ List.replicate 16 0, 8⟩
  let m' : List Byte := [8, 0, 0x41, 0, 0, 0, 3, 4, 8, 0, 0, 0, 0, 0, 0, 6] ++ List.replicate 8 0
  have h0 : Uniform 2 ⟨List.replicate 24 0, 0⟩ := .init (List.replicate 24 0) _ (by simp [CapOk]) (by decide +kernel)
  have h1 : Uniform 2 s := .event _ _ (.set [0x41] [3, 4]) h0 ⟨by decide, rfl⟩ (.set _ _ _ _ true (by decide +kernel))
  refine ⟨s, ⟨m', 16⟩, ⟨m'.take 16 ++ [8, 0, 0x43, 0, 0, 0, 8, 9], 24⟩, h1, ?_, by decide +kernel, rfl, by decide +kernel,
    by decide +kernel, by decide +kernel⟩
  exact .crash s ⟨m', 16⟩ _ _ ⟨[(10, 0x42), (11, 0), (12, 0), (13, 0), (8, 8), (9, 0), (14, 5), (15, 6)], 16, true⟩ m'
    (by decide +kernel) ⟨[(8, 8), (15, 6)], by decide, by decide +kernel⟩ (by decide +kernel)

end Verif.Storage
