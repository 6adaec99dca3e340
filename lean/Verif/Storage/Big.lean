import Verif.Storage.Props
/-!
# C09: what exactly happens to objects too large for the size field

The record size is stored modulo 65536.  A record whose size is `65536 * q + k` is, byte by byte, a record of size `k`
followed by the rest of the object, and that rest is read as further records.
-/
namespace Verif.Storage

theorem le16_mod (v : Nat) : le16 v = le16 (v % 65536) := by
  unfold le16
  rw [show v % 65536 % 2 ^ 16 = v % 2 ^ 16 by omega]

/-- A record whose size exceeds the size field looks like a small one followed by the rest of the object. -/
theorem enc_big (idx obj : List Byte) (h : 6 ≤ (6 + obj.length) % 65536) :
    Rec.enc ⟨idx, obj⟩ = Rec.enc ⟨idx, obj.take ((6 + obj.length) % 65536 - 6)⟩ ++
      obj.drop ((6 + obj.length) % 65536 - 6) := by
  unfold Rec.enc
  simp only
  rw [List.append_assoc (_ ++ idx), List.take_append_drop, le16_mod]
  congr 2
  rw [List.length_take]
  congr 1
  omega

theorem no_big_hit {r : Rec} (h : r.Good) (name : List Byte) (n : Nat) (hn : 65536 ≤ 6 + n) : r.hits name n = false := by
  unfold Rec.hits
  rw [decide_eq_false_iff_not]
  rintro ⟨_, _, h3⟩
  have := h.2
  omega

/-- `set` of a large object in a storage holding `recs`. -/
theorem Rep.set_big {s : Store} {recs : List Rec} {rest : List Byte} (h : Rep s recs rest) (name obj : List Byte)
    (hbig : 65536 ≤ 6 + obj.length) (hroom : s.freeHead + 6 + obj.length ≤ s.mem.length) :
    set s name obj = .ok (⟨encs recs ++ (Rec.enc ⟨storedIdx name, obj⟩ ++ rest.drop (6 + obj.length)),
      s.freeHead + 6 + obj.length⟩, true) := by
  have hm := congrArg List.length h.mem
  simp only [List.length_append] at hm
  have hh := h.head
  unfold set
  rw [h.setPlan_new (fun r hr => no_big_hit (h.good r hr) _ _ hbig) hroom]
  simp only [Res.bind_ok]
  rw [h.mem, h.head, applyWrites_new (encs recs) rest name obj (by omega)]
  rfl

/-- **C09**: in every storage an object whose record does not fit the size field is acknowledged if there is room. -/
theorem big_object_acknowledged {s : Store} (h : Reachable s) (name obj : List Byte) (hbig : 65536 ≤ 6 + obj.length)
    (hroom : s.freeHead + 6 + obj.length ≤ s.mem.length) :
    ∃ s', set s name obj = .ok (s', true) ∧ s'.freeHead = s.freeHead + 6 + obj.length ∧
      ∀ v, get s' name obj.length ≠ .ok (some v) := by
  obtain ⟨recs, k, hr⟩ := h.rep
  exact ⟨_, hr.set_big name obj hbig hroom, rfl, fun v => big_object_never_readable _ name _ hbig v⟩

/-- **C09**, what is kept: everything that could be read before can be read afterwards, unchanged. -/
theorem big_object_keeps {s s' : Store} {b : Bool} (h : Reachable s) (name obj : List Byte)
    (hbig : 65536 ≤ 6 + obj.length) (hset : set s name obj = .ok (s', b)) (name' : List Byte) (n : Nat) (v : List Byte)
    (hg : get s name' n = .ok (some v)) : get s' name' n = .ok (some v) := by
  obtain ⟨recs, k, hr⟩ := h.rep
  by_cases hroom : s.freeHead + 6 + obj.length ≤ s.mem.length
  · rw [hr.set_big name obj hbig hroom] at hset
    simp only [Res.ok.injEq, Prod.mk.injEq] at hset
    obtain ⟨hs', _⟩ := hset
    subst hs'
    rcases firstHit recs name' n with ⟨a, r, c, rfl, hno, hit⟩ | hno
    · rw [hr.get_hit hno hit] at hg
      rw [← hg]
      refine get_hit_ge (a := a) (r := r)
        (rest := encs c ++ (Rec.enc ⟨storedIdx name, obj⟩ ++ (List.replicate k 0).drop (6 + obj.length))) ?_ ?_ ?_
        (fun x hx => hr.good x (by simp [hx])) (hr.good r (by simp)) hno hit
      · simp only [encs_append, encs_cons, List.append_assoc]
      · have := hr.head
        simp only [encs_append, encs_cons, List.length_append] at this ⊢
        omega
      · have := hr.cap
        unfold CapOk at this
        omega
    · rw [hr.get_miss hno] at hg
      cases hg
  · rw [hr.set_full (fun r hr' => no_big_hit (hr.good r hr') _ _ hbig) (by omega)] at hset
    simp only [Res.ok.injEq, Prod.mk.injEq] at hset
    rw [← hset.1]; exact hg

/-- The memory after storing a large object, seen as records. -/
theorem big_mem {s : Store} {recs : List Rec} {rest : List Byte} (h : Rep s recs rest) (name obj : List Byte)
    (hbig : 65536 ≤ 6 + obj.length) (hroom : s.freeHead + 6 + obj.length ≤ s.mem.length)
    (hk : 6 ≤ (6 + obj.length) % 65536) :
    ∃ r : Rec, r = ⟨storedIdx name, obj.take ((6 + obj.length) % 65536 - 6)⟩ ∧ r.Good ∧
      r.enc.length = (6 + obj.length) % 65536 ∧
      set s name obj = .ok (⟨encs recs ++ (r.enc ++ (obj.drop ((6 + obj.length) % 65536 - 6) ++ rest.drop (6 + obj.length))),
        s.freeHead + 6 + obj.length⟩, true) := by
  have hg : Rec.Good ⟨storedIdx name, obj.take ((6 + obj.length) % 65536 - 6)⟩ := by
    refine ⟨storedIdx_length name, ?_⟩
    simp only [List.length_take]
    omega
  refine ⟨_, rfl, hg, ?_, ?_⟩
  · rw [Rec.enc_length hg]
    simp only [List.length_take]
    omega
  · rw [h.set_big name obj hbig hroom, enc_big _ _ hk, List.append_assoc]

/-- **C09 (finding)**: the beginning of a large object appears as an object of another size under the same name. -/
theorem big_object_truncated {s : Store} (h : Reachable s) (name obj : List Byte) (hn : name.length ≤ 4)
    (hbig : 65536 ≤ 6 + obj.length) (hroom : s.freeHead + 6 + obj.length ≤ s.mem.length)
    (hk : 6 ≤ (6 + obj.length) % 65536) (hnew : get s name ((6 + obj.length) % 65536 - 6) = .ok none) :
    ∃ s', set s name obj = .ok (s', true) ∧
      get s' name ((6 + obj.length) % 65536 - 6) = .ok (some (obj.take ((6 + obj.length) % 65536 - 6))) := by
  obtain ⟨recs, k, hr⟩ := h.rep
  obtain ⟨r, rfl, r2, r3, r4⟩ := big_mem hr name obj hbig hroom hk
  refine ⟨_, r4, ?_⟩
  have hno : ∀ x ∈ recs, x.hits name ((6 + obj.length) % 65536 - 6) = false := by
    rcases firstHit recs name ((6 + obj.length) % 65536 - 6) with ⟨a, x, c, rfl, q1, q2⟩ | q
    · rw [hr.get_hit q1 q2] at hnew; cases hnew
    · exact q
  have hh := hr.head
  have hc := hr.cap
  unfold CapOk at hc
  refine get_hit_ge rfl ?_ (by omega) hr.good r2 hno ?_
  · rw [List.length_append, r3]; omega
  · simp only [Rec.hits, List.length_take, decide_eq_true_eq]
    exact ⟨hn, trivial, by omega⟩

/-- **C09 (finding)**: the rest of a large object is read as records: for every name and value not stored there is an
object which, stored under another name, makes `get` return them. -/
theorem big_object_forges {s : Store} (h : Reachable s) (name name' v : List Byte) (hn : name'.length ≤ 4)
    (hv : 6 + v.length < 65536) (hv0 : v ≠ []) (hroom : s.freeHead + 65542 ≤ s.mem.length)
    (hnew : get s name' v.length = .ok none) :
    ∃ obj s', obj.length = 65536 ∧ set s name obj = .ok (s', true) ∧ get s' name' v.length = .ok (some v) := by
  obtain ⟨recs, k, hr⟩ := h.rep
  have hgood : Rec.Good ⟨storedIdx name', v⟩ := ⟨storedIdx_length name', hv⟩
  have henc := Rec.enc_length hgood
  simp only at henc
  let obj : List Byte := Rec.enc ⟨storedIdx name', v⟩ ++ List.replicate (65536 - (6 + v.length)) 0
  have hl : obj.length = 65536 := by
    simp only [obj, List.length_append, henc, List.length_replicate]; omega
  obtain ⟨r, r1, r2, r3, r4⟩ := big_mem hr name obj (by omega) (by omega) (by omega)
  have e0 : (6 + obj.length) % 65536 - 6 = 0 := by omega
  rw [e0] at r1 r4
  simp only [List.drop_zero, List.take_zero] at r1 r4
  refine ⟨obj, _, hl, r4, ?_⟩
  have hno : ∀ x ∈ recs, x.hits name' v.length = false := by
    rcases firstHit recs name' v.length with ⟨a, x, c, rfl, q1, q2⟩ | q
    · rw [hr.get_hit q1 q2] at hnew; cases hnew
    · exact q
  have hvl : 0 < v.length := List.length_pos_iff.2 hv0
  have hrv : r.hits name' v.length = false := by
    rw [r1]
    simp only [Rec.hits, List.length_nil, decide_eq_false_iff_not]
    omega
  have hh := hr.head
  have hc := hr.cap
  unfold CapOk at hc
  have hl2 : ((6 + obj.length) % 65536) = 6 := by omega
  rw [hl2] at r3
  refine get_hit_ge (a := recs ++ [r]) (r := ⟨storedIdx name', v⟩)
    (rest := List.replicate (65536 - (6 + v.length)) 0 ++ (List.replicate k 0).drop (6 + obj.length)) ?_ ?_ (by omega)
    ?_ hgood ?_ ?_
  · simp only [obj, encs_append, encs_cons, encs_nil, List.append_nil, List.append_assoc]
  · simp only [encs_append, encs_cons, encs_nil, List.append_nil, List.length_append, henc, r3]
    omega
  · intro x hx
    rcases List.mem_append.1 hx with hx | hx
    · exact hr.good x hx
    · rw [List.mem_singleton.1 hx]; exact r2
  · intro x hx
    rcases List.mem_append.1 hx with hx | hx
    · exact hno x hx
    · rw [List.mem_singleton.1 hx]; exact hrv
  · simp only [Rec.hits, decide_eq_true_eq]
    exact ⟨hn, trivial, trivial⟩

/-- A look-up which reaches a size field of zero never ends. -/
theorem zero_size_hangs (m : List Byte) (fh p : Nat) (name : List Byte) (n : Nat) (hp : p + 6 ≤ fh) (hm : fh ≤ m.length)
    (hp32 : p < 2 ^ 32) (hz : nodeSize m p = .ok 0) (fuel : Nat) : getIdxLoop m fh name n fuel p = .hang := by
  induction fuel with
  | zero => rfl
  | succ f ih =>
    obtain ⟨b, hb, hb2⟩ := nodeMatches_ok m p name n (by omega)
    have hbf : b = false := by
      cases b
      · rfl
      · have := Res.ok.inj ((hz.symm.trans (hb2 rfl))); omega
    subst hbf
    rw [getIdxLoop, if_pos hp, hb]
    simp only [Res.bind_ok, Bool.false_eq_true, if_false, hz]
    rw [show add32 p 0 = p from Nat.mod_eq_of_lt hp32]
    exact ih

/-- **C09 (finding)**: for every size above the limit (but for the five sizes whose remainder lies in the header) there are
objects - zeros, for instance - after which no look-up of anything not stored before ends, in every storage. -/
theorem big_zeros_hang {s : Store} (h : Reachable s) (name : List Byte) (len : Nat) (hbig : 65536 ≤ 6 + len)
    (hk : (6 + len) % 65536 = 0 ∨ 6 ≤ (6 + len) % 65536) (hroom : s.freeHead + 6 + len ≤ s.mem.length) :
    ∃ s', set s name (List.replicate len 0) = .ok (s', true) ∧
      ∀ name' n, get s name' n = .ok none →
        (storedIdx name ≠ storedIdx name' ∨ n + 6 ≠ (6 + len) % 65536 ∨ 4 < name'.length) → get s' name' n = .hang := by
  obtain ⟨recs, k, hr⟩ := h.rep
  have hh := hr.head
  have hc := hr.cap
  have hml := congrArg List.length hr.mem
  simp only [List.length_append, List.length_replicate] at hml
  unfold CapOk at hc
  have hcount := encs_length_ge recs hr.good
  have hlen : (List.replicate len (0 : Byte)).length = len := List.length_replicate
  have miss : ∀ name' n, get s name' n = .ok none → ∀ x ∈ recs, x.hits name' n = false := by
    intro name' n hg
    rcases firstHit recs name' n with ⟨a, x, c, rfl, q1, q2⟩ | q
    · rw [hr.get_hit q1 q2] at hg; cases hg
    · exact q
  rcases hk with hk | hk
  · have hset := hr.set_big name (List.replicate len 0) (by omega) (by omega)
    refine ⟨_, hset, ?_⟩
    intro name' n hg _
    have hskip := getIdxLoop_skip recs hr.good []
      (Rec.enc ⟨storedIdx name, List.replicate len 0⟩ ++ (List.replicate k 0).drop (6 + (List.replicate len (0:Byte)).length)) name' n
      (s.freeHead + 6 + (List.replicate len (0:Byte)).length)
      (s.freeHead + 6 + (List.replicate len (0:Byte)).length + 1 - recs.length)
      (by simp only [List.nil_append]; omega) (by omega) (miss name' n hg)
    simp only [List.nil_append, List.length_nil] at hskip
    rw [show recs.length + (s.freeHead + 6 + (List.replicate len (0:Byte)).length + 1 - recs.length) =
      s.freeHead + 6 + (List.replicate len (0:Byte)).length + 1 by omega] at hskip
    unfold get getIdx
    simp only
    rw [hskip, zero_size_hangs _ _ _ _ _ (by omega) ?_ (by omega) ?_]
    · rfl
    · simp only [List.length_append, List.length_drop, List.length_replicate, Rec.enc, le16_length, storedIdx_length]
      omega
    · have := nodeSize_append (encs recs) (Rec.enc ⟨storedIdx name, List.replicate len 0⟩ ++
        (List.replicate k 0).drop (6 + (List.replicate len (0:Byte)).length)) 0
      rw [Nat.add_zero] at this
      rw [this]
      unfold Rec.enc
      simp only [hlen]
      rw [le16_mod, hk, List.append_assoc, List.append_assoc]
      exact nodeSize_le16 0 (by omega) _
  · obtain ⟨r, r1, r2, r3, r4⟩ := big_mem hr name (List.replicate len 0) (by omega) (by omega) (by omega)
    rw [hlen] at r1 r3 r4
    refine ⟨_, r4, ?_⟩
    intro name' n hg hother
    have hrmiss : r.hits name' n = false := by
      rw [r1]
      simp only [Rec.hits, List.length_take, List.length_replicate, decide_eq_false_iff_not]
      rintro ⟨q1, q2, q3⟩
      rcases hother with q | q | q
      · exact q q2
      · omega
      · omega
    have hall : ∀ x ∈ recs ++ [r], x.Good ∧ x.hits name' n = false := by
      intro x hx
      rcases List.mem_append.1 hx with hx | hx
      · exact ⟨hr.good x hx, miss name' n hg x hx⟩
      · rw [List.mem_singleton.1 hx]; exact ⟨r2, hrmiss⟩
    have hencs : encs (recs ++ [r]) = encs recs ++ r.enc := by
      simp only [encs_append, encs_cons, encs_nil, List.append_nil]
    have hskip := getIdxLoop_skip (recs ++ [r]) (fun x hx => (hall x hx).1) []
      ((List.replicate len 0).drop ((6 + len) % 65536 - 6) ++ (List.replicate k 0).drop (6 + len)) name' n
      (s.freeHead + 6 + len) (s.freeHead + 6 + len + 1 - (recs.length + 1))
      (by simp only [List.nil_append, hencs, List.length_append, r3]; omega) (by omega) (fun x hx => (hall x hx).2)
    simp only [List.nil_append, List.length_nil, hencs, List.length_append, r3, List.length_cons] at hskip
    rw [show recs.length + (0 + 1) + (s.freeHead + 6 + len + 1 - (recs.length + 1)) = s.freeHead + 6 + len + 1 by omega] at hskip
    unfold get getIdx
    simp only
    rw [← List.append_assoc (encs recs), hskip, zero_size_hangs _ _ _ _ _ (by omega) ?_ (by omega) ?_]
    · rfl
    · simp only [List.length_append, List.length_drop, List.length_replicate, r3]
      omega
    · have := nodeSize_append (encs recs ++ r.enc) ((List.replicate len 0).drop ((6 + len) % 65536 - 6) ++
        (List.replicate k 0).drop (6 + len)) 0
      rw [Nat.add_zero, List.length_append, r3] at this
      rw [this, List.drop_replicate]
      obtain ⟨z, hz⟩ : ∃ z, len - ((6 + len) % 65536 - 6) = z + 2 := ⟨len - ((6 + len) % 65536 - 6) - 2, by omega⟩
      rw [hz, List.replicate_succ, List.replicate_succ]
      rfl

-- e.g. an empty storage of 70000 bytes: every hypothesis above can be met
example : ∃ s, Reachable s ∧ s.mem.length = 70000 ∧ s.freeHead = 0 ∧ ∀ name n, get s name n = .ok none := by
  obtain ⟨s, h1, h2⟩ := Rep.create_true (List.replicate 70000 0) (by simp only [CapOk, List.length_replicate]; omega)
  refine ⟨s, .init _ s (by simp only [CapOk, List.length_replicate]; omega) h1, ?_, ?_, fun name n => h2.get_miss (by simp)⟩
  · rw [h2.mem]; simp only [encs_nil, List.nil_append, List.length_replicate]
  · rw [h2.head]; rfl

end Verif.Storage
