import Verif.Storage.Props
/-!
# C05-C07: power loss during `set`

`Crashed m writes m'` (Spec.lean): an arbitrary subset of the byte writes reached memory, in any
order.  `setPlan` lists the byte writes of `set` in program order; `set` itself is defined by
performing them all.
-/
namespace Verif.Storage

/-- **C05**: losing power while a new record is added — whatever subset of the bytes reached
memory — loses no record that was readable before. -/
theorem crash_append_keeps_records {s : Store} (h : Reachable s) (name obj : List Byte)
    (hnew : get s name obj.length = .ok none)
    (plan : Plan) (hplan : setPlan s name obj = .ok plan) (m' : List Byte)
    (hcrash : Crashed s.mem plan.writes m') :
    ∃ s', create m' false = .ok s' ∧
      ∀ name' n' v, get s name' n' = .ok (some v) → get s' name' n' = .ok (some v) := by
  obtain ⟨recs, k, hr⟩ := h.rep
  have hno : ∀ r ∈ recs, r.hits name obj.length = false := by
    rw [hr.get_eq] at hnew
    have := Res.ok.inj hnew
    simpa [lookup] using this
  have hcap := hr.cap
  have hmem := congrArg List.length hr.mem
  rw [List.length_append] at hmem
  -- the region after the crash
  obtain ⟨rest, hm', hrest⟩ : ∃ rest, m' = encs recs ++ rest ∧ m'.length = s.mem.length := by
    obtain ⟨ws, hws, hap⟩ := hcrash
    have hw : ∀ w ∈ ws, s.freeHead ≤ w.1 ∧ w.1 < s.freeHead + (s.mem.length - s.freeHead) := by
      intro w hwm
      have hwp := hws w hwm
      by_cases hroom : s.freeHead + 6 + obj.length ≤ s.mem.length
      · rw [hr.setPlan_new hno hroom] at hplan
        cases hplan
        simp only [List.mem_append] at hwp
        rcases hwp with (hwp | hwp) | hwp
        · have := mem_writesAt hwp; rw [storedIdx_length] at this; omega
        · have := mem_writesAt hwp; rw [le16_length] at this; omega
        · have := mem_writesAt hwp; omega
      · have : plan.writes = [] := by
          unfold setPlan at hplan
          rw [hr.getIdx_miss hno] at hplan
          simp only [Res.bind_ok, descSize] at hplan
          rw [if_pos (by omega)] at hplan
          cases hplan; rfl
        rw [this] at hwp; cases hwp
    have hhead := hr.head
    obtain ⟨m2, h1, h2, h3, -⟩ := applyWrites_window s.mem ws s.freeHead (s.mem.length - s.freeHead)
      (by omega) hw
    rw [h1] at hap; cases hap
    obtain ⟨mid, e1, -, -⟩ := window_decomp (m := s.mem) (a := encs recs) (mid := List.replicate k 0)
      (c := []) (by rw [hr.mem]; simp) h2 (fun i hi => h3 i (by omega))
    exact ⟨mid, by simpa using e1, h2⟩
  have hl := encs_length_ge recs hr.good
  rw [← hrest] at hcap
  -- reopening
  have hs := openLoop_skip recs hr.good [] rest (m'.length - recs.length + 1) (by simpa [← hm'] using hcap)
  simp only [List.nil_append, List.length_nil, ← hm'] at hs
  have hml := congrArg List.length hm'
  rw [List.length_append] at hml
  -- the walk from behind the records ends inside the region
  have hge : ∀ fuel fh fh', fh ≤ m'.length → openLoop m' fuel fh = .ok fh' → fh ≤ fh' ∧ fh' ≤ m'.length := by
    intro fuel
    induction fuel with
    | zero => intro fh fh' _ h; cases h
    | succ f ih =>
      intro fh fh' hfh h
      rw [openLoop] at h
      split at h
      · rename_i h6
        simp only [descSize] at h6
        obtain ⟨v, hv, hlt⟩ := nodeSize_ok m' fh (by omega)
        simp only [hv, Res.bind_ok] at h
        simp only [CapOk] at hcap
        rw [add32_of_lt (by omega)] at h
        split at h
        · rename_i hc
          have := ih _ _ hc.2 h
          omega
        · cases h; omega
      · cases h; omega
  obtain ⟨fh, hfh, -, -⟩ := openLoop_ok m' hcap (m'.length + 1) 0 (by omega) (by omega)
  have hfh2 := hfh
  rw [show m'.length + 1 = recs.length + (m'.length - recs.length + 1) by omega, hs] at hfh2
  obtain ⟨hf1, hf2⟩ := hge _ _ _ (by omega) hfh2
  refine ⟨⟨m', fh⟩, by simp [create, hfh], ?_⟩
  intro name' n' v hv
  rcases firstHit recs name' n' with ⟨a, r, b, rfl, hno', hit'⟩ | hno'
  · rw [hr.get_hit hno' hit'] at hv
    cases hv
    refine get_hit_ge (rest := encs b ++ rest) (by rw [hm']; simp) ?_ ?_
      (fun x hx => hr.good x (by simp [hx])) (hr.good r (by simp)) hno' hit'
    · simp only [encs_append, encs_cons, List.length_append] at hf1 ⊢; omega
    · simp only [CapOk] at hcap; omega
  · rw [hr.get_miss hno'] at hv; cases hv

/-- **C06**: losing power while an existing record is overwritten damages no other record; the
record itself is still there, each of its bytes being the old or the new one. -/
theorem crash_overwrite_local {s : Store} (h : Reachable s) (name obj old : List Byte)
    (hold : get s name obj.length = .ok (some old))
    (plan : Plan) (hplan : setPlan s name obj = .ok plan) (m' : List Byte)
    (hcrash : Crashed s.mem plan.writes m') :
    ∃ s', create m' false = .ok s' ∧
      (∀ name' n', (stripNul name' ≠ stripNul name ∨ n' ≠ obj.length) →
        get s' name' n' = get s name' n') ∧
      ∃ mix, get s' name obj.length = .ok (some mix) ∧ mix.length = obj.length ∧
        ∀ i : Nat, mix[i]? = old[i]? ∨ mix[i]? = obj[i]? := by
  obtain ⟨recs, k, hr⟩ := h.rep
  rcases firstHit recs name obj.length with ⟨a, r, b, rfl, hno, hit⟩ | hno
  · rw [hr.get_hit hno hit] at hold
    cases hold
    rw [hr.setPlan_hit hno hit] at hplan
    cases hplan
    have hgr : r.Good := hr.good r (by simp)
    have hn := Rec.hits_replace hit
    obtain ⟨ws, hws, hap⟩ := hcrash
    have hmem : s.mem = (encs a ++ le16 (6 + r.data.length) ++ r.idx) ++ (r.data ++ (encs b ++ List.replicate k 0)) := by
      rw [hr.mem]; simp [Rec.enc]
    have hmlen := congrArg List.length hmem
    simp only [List.length_append, le16_length, hgr.1] at hmlen
    obtain ⟨m2, h1, h2, h3, h4⟩ := applyWrites_window s.mem ws ((encs a).length + 6) obj.length
      (by omega) (fun w hw => by have := mem_writesAt (hws w hw); omega)
    rw [h1] at hap; cases hap
    obtain ⟨mix, e1, e2, e3⟩ := window_decomp hmem h2
      (fun i hi => h3 i (by simp only [List.length_append, le16_length, hgr.1] at hi; omega))
    have hit2 : Rec.hits ⟨r.idx, mix⟩ name mix.length = true := by
      simp only [Rec.hits, decide_eq_true_eq] at hit ⊢
      exact ⟨hit.1, hit.2.1, trivial⟩
    have hmix : mix.length = obj.length := by omega
    -- the new region again is a sequence of records
    have hrep : Rep ⟨m', s.freeHead⟩ (a ++ ⟨r.idx, mix⟩ :: b) (List.replicate k 0) := by
      refine ⟨?_, ?_, ?_, ?_⟩
      · simp only [e1]; simp [Rec.enc, e2]
      · rw [hr.head]; simp [Rec.enc, e2, le16_length]
      · intro x hx
        simp only [List.mem_append, List.mem_cons] at hx
        rcases hx with hx | rfl | hx
        · exact hr.good x (by simp [hx])
        · exact ⟨hgr.1, by simpa [e2] using hgr.2⟩
        · exact hr.good x (by simp [hx])
      · simp only [h2]; exact hr.cap
    refine ⟨⟨m', s.freeHead⟩, hrep.reopen (stops_zeros k), ?_, mix, ?_, hmix, ?_⟩
    · intro name' n' hne
      rw [hrep.get_eq, hr.get_eq]
      rw [← hmix] at hno hit hne
      rw [lookup_replace hno hit, if_neg]
      rintro ⟨c1, c2, c3⟩
      simp only [Rec.hits, decide_eq_true_eq] at hit
      rcases hne with hne | hne
      · exact hne ((storedIdx_eq_iff c1 hit.1).1 c2)
      · exact hne c3
    · rw [← hmix] at hno ⊢
      exact hrep.get_hit hno hit2
    · intro i
      by_cases hi : i < r.data.length
      · rw [e3 i hi]
        rcases h4 ((encs a ++ le16 (6 + r.data.length) ++ r.idx).length + i) with h | ⟨b', hb, h⟩
        · left
          rw [h, hmem, List.getElem?_append_right (by omega), Nat.add_sub_cancel_left,
            List.getElem?_append_left hi]
        · right
          have := (mem_writesAt (hws _ hb)).2.2
          simp only [List.length_append, le16_length, hgr.1] at this h
          rw [List.length_append, List.length_append, le16_length, hgr.1, h, ← this]
          congr 1; omega
      · left
        rw [List.getElem?_eq_none (by omega), List.getElem?_eq_none (by omega)]
  · rw [hr.get_miss hno] at hold; cases hold

/-- The writes of an interrupted call in program order: only the first `j` were performed. -/
def CrashedAt (m : List Byte) (writes : List (Nat × Byte)) (j : Nat) (m' : List Byte) : Prop :=
  applyWrites m (writes.take j) = .ok m'

/-- **C07**, the part that holds for a new record: if the crash comes before the size field is
written (the first four byte writes) nothing is found, if it comes after the last write the new
value is found.  Missing: crashes in between, see `crash_phantom_value`. -/
theorem crash_append_atomic_partial {s : Store} (h : Reachable s) (name obj : List Byte)
    (hlen : name.length ≤ 4) (hsz : 6 + obj.length < 65536)
    (hnew : get s name obj.length = .ok none)
    (plan : Plan) (hplan : setPlan s name obj = .ok plan) (hres : plan.result = true)
    (j : Nat) (m' : List Byte) (hcrash : CrashedAt s.mem plan.writes j m') :
    plan.writes.length = 6 + obj.length ∧
    (j ≤ 4 → ∃ s', create m' false = .ok s' ∧ get s' name obj.length = .ok none) ∧
    (6 + obj.length ≤ j → ∃ s', create m' false = .ok s' ∧ get s' name obj.length = .ok (some obj)) := by
  obtain ⟨recs, k, hr⟩ := h.rep
  have hno : ∀ r ∈ recs, r.hits name obj.length = false := by
    rw [hr.get_eq] at hnew
    have := Res.ok.inj hnew
    simpa [lookup] using this
  have hroom : s.freeHead + 6 + obj.length ≤ s.mem.length := by
    by_cases hroom : s.freeHead + 6 + obj.length ≤ s.mem.length
    · exact hroom
    · unfold setPlan at hplan
      rw [hr.getIdx_miss hno] at hplan
      simp only [Res.bind_ok, descSize] at hplan
      rw [if_pos (by omega)] at hplan
      cases hplan; cases hres
  have hp := hplan
  rw [hr.setPlan_new hno hroom] at hplan
  cases hplan
  have hmem := hr.mem
  have hmlen := congrArg List.length hmem
  simp only [List.length_append, List.length_replicate] at hmlen
  have hhead := hr.head
  have hwl : ∀ p (bs : List Byte), (writesAt p bs).length = bs.length := by simp [writesAt]
  refine ⟨by simp [hwl, storedIdx_length, le16_length]; omega, ?_, ?_⟩
  · intro hj
    unfold CrashedAt at hcrash
    simp only at hcrash
    have hw : ∀ w ∈ (writesAt (s.freeHead + 2) (storedIdx name) ++ writesAt s.freeHead (le16 (6 + obj.length)) ++
        writesAt (s.freeHead + 6) obj).take j, s.freeHead + 2 ≤ w.1 ∧ w.1 < s.freeHead + 2 + (k - 2) := by
      intro w hw
      rw [List.append_assoc, List.take_append_of_le_length (by rw [hwl, storedIdx_length]; omega)] at hw
      have := mem_writesAt (List.mem_of_mem_take hw)
      rw [storedIdx_length] at this
      omega
    obtain ⟨m2, h1, h2, h3, -⟩ := applyWrites_window s.mem _ (s.freeHead + 2) (k - 2) (by omega) hw
    rw [h1] at hcrash; cases hcrash
    have hk2 : List.replicate k (0 : Byte) = [0, 0] ++ List.replicate (k - 2) 0 := by
      obtain ⟨q, rfl⟩ : ∃ q, k = q + 2 := ⟨k - 2, by omega⟩
      simp [List.replicate_succ]
    obtain ⟨mid, e1, e2, -⟩ := window_decomp (m := s.mem) (a := encs recs ++ [0, 0])
      (mid := List.replicate (k - 2) 0) (c := []) (by rw [hmem, hk2]; simp) h2
      (fun i hi => h3 i (by simp at hi; omega))
    have e1' : m' = encs recs ++ ([0, 0] ++ mid) := by rw [e1]; simp
    have hst : Stops ([0, 0] ++ mid) := .inr ⟨0, by simp [nodeSize], .inl rfl⟩
    have hc : CapOk (encs recs ++ ([0, 0] ++ mid)).length := by
      rw [← e1', h2]; exact hr.cap
    refine ⟨_, by rw [e1']; exact create_false_stops recs hr.good _ hc hst, ?_⟩
    exact Rep.get_miss (rest := [0, 0] ++ mid) ⟨rfl, rfl, hr.good, hc⟩ hno
  · intro hj
    unfold CrashedAt at hcrash
    rw [List.take_of_length_le (by simp [hwl, storedIdx_length, le16_length]; omega)] at hcrash
    obtain ⟨s', h1, h2, h3, h4⟩ := hr.set_new hno hsz hroom
    have hs' : s' = ⟨m', s.freeHead + 6 + obj.length⟩ := by
      unfold set at h1
      rw [hp] at h1
      simp only [Res.bind_ok, hcrash] at h1
      cases h1; rfl
    subst hs'
    have hst := h2.reopen (by rw [List.drop_replicate]; exact stops_zeros _)
    refine ⟨_, hst, ?_⟩
    rw [h2.get_eq, lookup_append, lookup_miss hno]
    simp [Rec.hits, hlen]

/-- **C07** is false: the size field is written before the data, so a crash in between leaves a
readable record with a value nobody stored (zeros).  Witness: one record of two bytes, crash after
the `idx` and `size` writes. -/
theorem crash_phantom_value :
    ∃ (s s' : Store) (name obj m' : List Byte) (plan : Plan) (j : Nat) (v : List Byte),
      Reachable s ∧ name.length ≤ 4 ∧ 6 + obj.length < 65536 ∧
      get s name obj.length = .ok none ∧ setPlan s name obj = .ok plan ∧
      CrashedAt s.mem plan.writes j m' ∧ create m' false = .ok s' ∧
      get s' name obj.length = .ok (some v) ∧ v ≠ obj := by
  refine ⟨⟨List.replicate 12 0, 0⟩, ⟨[8, 0, 0x61, 0, 0, 0, 0, 0, 0, 0, 0, 0], 8⟩, [0x61], [1, 2],
    [8, 0, 0x61, 0, 0, 0, 0, 0, 0, 0, 0, 0],
    ⟨[(2, 0x61), (3, 0), (4, 0), (5, 0), (0, 8), (1, 0), (6, 1), (7, 2)], 8, true⟩, 6, [0, 0],
    .init (List.replicate 12 0) _ (by simp [CapOk]) rfl, by decide, by decide, by decide, by decide,
    by unfold CrashedAt; decide, by decide, by decide, by decide⟩

/-- **C07**, overwriting an existing record of one byte is atomic: after a crash the old or the new
byte is read (for longer objects C06 is all that holds). -/
theorem crash_overwrite_one_byte_atomic {s : Store} (h : Reachable s) (name : List Byte) (x y : Byte)
    (hold : get s name 1 = .ok (some [x]))
    (plan : Plan) (hplan : setPlan s name [y] = .ok plan) (m' : List Byte)
    (hcrash : Crashed s.mem plan.writes m') :
    ∃ s', create m' false = .ok s' ∧
      (get s' name 1 = .ok (some [x]) ∨ get s' name 1 = .ok (some [y])) := by
  obtain ⟨s', h1, -, mix, h2, h3, h4⟩ := crash_overwrite_local h name [y] [x] hold plan hplan m' hcrash
  refine ⟨s', h1, ?_⟩
  obtain ⟨z, rfl⟩ := List.length_eq_one_iff.1 (by simpa using h3)
  rcases h4 0 with h5 | h5
  · left; simp at h5; subst h5; exact h2
  · right; simp at h5; subst h5; exact h2

/-- … and for longer objects a torn value is possible. -/
theorem crash_overwrite_torn :
    ∃ (s s' : Store) (name obj old m' : List Byte) (plan : Plan) (j : Nat) (v : List Byte),
      Reachable s ∧ get s name obj.length = .ok (some old) ∧ setPlan s name obj = .ok plan ∧
      CrashedAt s.mem plan.writes j m' ∧ create m' false = .ok s' ∧
      get s' name obj.length = .ok (some v) ∧ v ≠ obj ∧ v ≠ old := by
  refine ⟨⟨[8, 0, 0x61, 0, 0, 0, 1, 2, 0, 0], 8⟩, ⟨[8, 0, 0x61, 0, 0, 0, 3, 2, 0, 0], 8⟩, [0x61], [3, 4],
    [1, 2], [8, 0, 0x61, 0, 0, 0, 3, 2, 0, 0], ⟨[(6, 3), (7, 4)], 8, true⟩, 1, [3, 2],
    .set ⟨List.replicate 10 0, 0⟩ _ [0x61] [1, 2] true
      (.init (List.replicate 10 0) _ (by simp [CapOk]) rfl) (by decide) (by decide),
    by decide, by decide, by unfold CrashedAt; decide, by decide, by decide, by decide, by decide⟩

end Verif.Storage
