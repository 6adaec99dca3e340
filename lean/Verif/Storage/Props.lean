import Verif.Storage.Lemmas2
/-!
# C01-C03, C08-C11: the storage as a bounded map
-/
namespace Verif.Storage

/-- The concrete storage `s` implements the abstract map `a`. -/
def Implements (s : Store) (a : AMap) : Prop :=
  ∃ recs rest, Rep s recs rest ∧ Clean rest ∧ a.used = s.freeHead ∧
    ∀ name n, name.length ≤ 4 → a.get name n = lookup recs name n

theorem implements_step {s : Store} {a : AMap} {cap : Nat} (h : Implements s a)
    (hc : s.mem.length = cap) (op : Op) (hop : op.Normal) :
    ∃ s', step s op = .ok (s', (a.step cap op).2) ∧ Implements s' (a.step cap op).1 ∧
      s'.mem.length = cap := by
  obtain ⟨recs, rest, hr, hcl, hu, ha⟩ := h
  cases op with
  | get name n =>
    simp only [Op.Normal] at hop
    refine ⟨s, ?_, ⟨recs, rest, hr, hcl, hu, ha⟩, hc⟩
    simp [step, AMap.step, hr.get_eq, ha name n hop.1]
  | reopen =>
    refine ⟨s, ?_, ⟨recs, rest, hr, hcl, hu, ha⟩, hc⟩
    simp [step, AMap.step, hr.reopen hcl.stops]
  | set name obj =>
    simp only [Op.Normal] at hop
    have hg := ha name obj.length hop.1
    rcases firstHit recs name obj.length with ⟨l, r, t, rfl, hno, hit⟩ | hno
    · obtain ⟨s2, h1, h2, h3, h4⟩ := hr.set_hit hno hit
      have hs : a.set cap name obj = (⟨a.put name obj, a.used⟩, true) := by
        unfold AMap.set
        rw [if_pos (by rw [hg, lookup_hit hno hit]; rfl)]
      refine ⟨s2, by simp [step, AMap.step, h1, hs], ?_, by rw [h4, hc]⟩
      refine ⟨_, _, h2, hcl, by simp [AMap.step, hs, hu, h3], ?_⟩
      intro name' n' hn'
      rw [lookup_replace hno hit]
      simp only [AMap.step, hs, AMap.get, AMap.put, hn', true_and,
        storedIdx_eq_iff hn' hop.1]
      split
      · rfl
      · exact ha name' n' hn'
    · have hnone : a.get name obj.length = none := by rw [hg, lookup_miss hno]
      by_cases hroom : s.freeHead + 6 + obj.length ≤ s.mem.length
      · obtain ⟨s2, h1, h2, h3, h4⟩ := hr.set_new hno hop.2 hroom
        have hs : a.set cap name obj =
            (⟨a.put name obj, a.used + 6 + obj.length⟩, true) := by
          unfold AMap.set
          rw [if_neg (by rw [hnone]; simp), if_pos (by omega)]
        refine ⟨s2, by simp [step, AMap.step, h1, hs], ?_, by rw [h4, hc]⟩
        rw [hcl.drop _ (by omega)] at h2
        refine ⟨_, _, h2, clean_zeros _, by simp [AMap.step, hs, hu, h3], ?_⟩
        intro name' n' hn'
        rw [lookup_append]
        simp only [AMap.step, hs, AMap.get, AMap.put]
        have hh : Rec.hits ⟨storedIdx name, obj⟩ name' n' =
            decide (stripNul name' = stripNul name ∧ n' = obj.length) := by
          simp only [Rec.hits, hn', true_and, storedIdx_eq_iff hop.1 hn']
          rw [Bool.eq_iff_iff]; simp only [decide_eq_true_eq]
          exact ⟨fun h => ⟨h.1.symm, h.2.symm⟩, fun h => ⟨h.1.symm, h.2.symm⟩⟩
        rw [hh]
        have hold := ha name' n' hn'
        simp only [AMap.get] at hold
        by_cases hc' : stripNul name' = stripNul name ∧ n' = obj.length
        · have : lookup recs name' n' = none := by
            rw [← hold, hc'.1, hc'.2]; exact hnone
          rw [this]; simp [hc']
        · rw [if_neg hc', hold]
          cases lookup recs name' n' <;> simp [hc']
      · have hs : a.set cap name obj = (a, false) := by
          unfold AMap.set
          rw [if_neg (by rw [hnone]; simp), if_neg (by omega)]
        refine ⟨s, by simp [step, AMap.step, hr.set_full hno (by omega), hs], ?_, hc⟩
        exact ⟨recs, rest, hr, hcl, by simp [AMap.step, hs, hu], by simpa [AMap.step, hs] using ha⟩

theorem implements_run {s : Store} {a : AMap} {cap : Nat} (h : Implements s a)
    (hc : s.mem.length = cap) (ops : List Op) (hops : ∀ op ∈ ops, op.Normal) :
    ∃ s', run s ops = .ok (s', (a.run cap ops).2) ∧ Implements s' (a.run cap ops).1 ∧
      s'.mem.length = cap := by
  induction ops generalizing s a with
  | nil => exact ⟨s, rfl, h, hc⟩
  | cons op ops ih =>
    simp only [List.mem_cons, forall_eq_or_imp] at hops
    obtain ⟨s1, h1, h2, h3⟩ := implements_step h hc op hops.1
    obtain ⟨s2, h4, h5, h6⟩ := ih h2 h3 hops.2
    exact ⟨s2, by simp [run, h1, h4, AMap.run], h5, h6⟩

/-- **C01**: a freshly initialised storage over any memory answers every history of calls (reopens
included) exactly like the bounded map, without undefined behaviour. -/
theorem storage_refines_map (m : List Byte) (hcap : CapOk m.length) (ops : List Op)
    (hops : ∀ op ∈ ops, op.Normal) :
    ∃ s s', create m true = .ok s ∧
      run s ops = .ok (s', (AMap.empty.run m.length ops).2) := by
  obtain ⟨s, h1, h2⟩ := Rep.create_true m hcap
  have hi : Implements s AMap.empty :=
    ⟨[], _, h2, clean_zeros _, by rw [h2.head]; rfl, fun name n _ => rfl⟩
  have hl : s.mem.length = m.length := by rw [h2.mem]; simp
  obtain ⟨s', h3, -, -⟩ := implements_run hi hl ops hops
  exact ⟨s, s', h1, h3⟩

-- The hypotheses are met by, e.g., this history; its outputs are the expected ones.
example : CapOk (List.replicate 20 (0xff : Byte)).length ∧
    (∀ op ∈ [Op.set [1, 2] [7, 8, 9], .get [1, 2] 3, .set [1, 2, 0] [4, 5, 6], .get [1, 2] 3,
      .set [3] [0, 0], .get [3] 2, .get [1] 3], op.Normal) ∧
    (AMap.empty.run 16 [Op.set [1, 2] [7, 8, 9], .get [1, 2] 3, .set [1, 2, 0] [4, 5, 6], .reopen,
      .get [1, 2] 3, .set [3] [0, 0], .get [3] 2, .get [1] 3]).2 =
      [.flag true, .value (some [7, 8, 9]), .flag true, .opened, .value (some [4, 5, 6]), .flag false,
        .value none, .value none] := by
  refine ⟨by simp [CapOk], ?_, by decide⟩
  intro op h
  simp only [List.mem_cons, List.not_mem_nil, or_false] at h
  rcases h with h | h | h | h | h | h | h <;> subst h <;> simp [Op.Normal]

/-- **C01**, in terms of the history only: after any history, a successful `set` is what the next
`get` of the same (name, size) returns, whatever other (name, size) pairs are written or read, or
however often the storage is reopened in between. -/
theorem get_after_set (m : List Byte) (hcap : CapOk m.length) (before between : List Op)
    (name obj name' : List Byte)
    (hname : stripNul name' = stripNul name) (hlen : name'.length ≤ 4)
    (hb : ∀ op ∈ before, op.Normal) (hs : (Op.set name obj).Normal)
    (hw : ∀ op ∈ between, op.Normal ∧ ∀ x o, op = .set x o →
      stripNul x ≠ stripNul name ∨ o.length ≠ obj.length) :
    ∃ s s' outs outs', create m true = .ok s ∧
      run s (before ++ .set name obj :: between ++ [.get name' obj.length]) = .ok (s', outs) ∧
      (outs[before.length]? = some (.flag true) → outs.getLast? = some (.value (some obj))) ∧
      -- and if the `set` was refused, the `get` answers as if it had not been called
      run s (before ++ between ++ [.get name' obj.length]) = .ok outs' ∧
      (outs[before.length]? = some (.flag false) → outs.getLast? = outs'.2.getLast?) := by
  have hops : ∀ op ∈ before ++ .set name obj :: between ++ [.get name' obj.length], op.Normal := by
    intro op hop
    simp only [List.mem_append, List.mem_cons, List.not_mem_nil, or_false] at hop
    rcases hop with (h | h | h) | h
    · exact hb op h
    · exact h ▸ hs
    · exact (hw op h).1
    · subst h; exact ⟨hlen, hs.2⟩
  have hops' : ∀ op ∈ before ++ between ++ [.get name' obj.length], op.Normal := by
    intro op hop
    apply hops
    simp only [List.mem_append, List.mem_cons, List.not_mem_nil, or_false] at hop ⊢
    rcases hop with (h | h) | h <;> simp [h]
  obtain ⟨s, s', h1, h2⟩ := storage_refines_map m hcap _ hops
  obtain ⟨t, t', h3, h4⟩ := storage_refines_map m hcap _ hops'
  rw [h1] at h3; cases h3
  refine ⟨s, s', _, _, h1, h2, ?_, h4, ?_⟩
  -- facts about the abstract map
  all_goals
    have run_append : ∀ (a : AMap) (cap : Nat) (xs ys : List Op), a.run cap (xs ++ ys) =
        (((a.run cap xs).1.run cap ys).1, (a.run cap xs).2 ++ ((a.run cap xs).1.run cap ys).2) := by
      intro a cap xs ys
      induction xs generalizing a with
      | nil => rfl
      | cons x xs ih => simp [AMap.run, ih]
    have run_len : ∀ (a : AMap) (cap : Nat) (xs : List Op), (a.run cap xs).2.length = xs.length := by
      intro a cap xs
      induction xs generalizing a with
      | nil => rfl
      | cons x xs ih => simp [AMap.run, ih]
    have keep : ∀ (xs : List Op) (a : AMap) (cap : Nat), (∀ op ∈ xs, ∀ x o, op = .set x o →
        stripNul x ≠ stripNul name ∨ o.length ≠ obj.length) →
        (a.run cap xs).1.get name' obj.length = a.get name' obj.length := by
      intro xs
      induction xs with
      | nil => intros; rfl
      | cons x xs ih =>
        intro a cap hx
        simp only [List.mem_cons, forall_eq_or_imp] at hx
        simp only [AMap.run]
        rw [ih _ _ hx.2]
        cases x with
        | get _ _ => rfl
        | reopen => rfl
        | set x o =>
          have hne := hx.1 x o rfl
          have : ∀ u, AMap.get ⟨a.put x o, u⟩ name' obj.length = a.get name' obj.length := by
            intro u
            simp only [AMap.get, AMap.put]
            rw [if_neg]
            rintro ⟨e1, e2⟩
            rcases hne with h | h
            · exact h (by rw [← e1, hname])
            · exact h e2.symm
          simp only [AMap.step, AMap.set]
          split
          · exact this _
          · split
            · exact this _
            · rfl
  · intro hflag
    rw [run_append, run_append] at hflag ⊢
    simp only [AMap.run] at hflag ⊢
    rw [List.append_assoc, List.getElem?_append_right (by rw [run_len]; omega), run_len] at hflag
    simp only [Nat.sub_self, List.cons_append, List.getElem?_cons_zero, Option.some.injEq,
      AMap.step, Out.flag.injEq] at hflag
    rw [List.getLast?_append]
    simp only [List.getLast?_singleton, Option.some_or, AMap.step, Option.some.injEq, Out.value.injEq]
    rw [keep _ _ _ (fun op h => (hw op h).2)]
    simp only [AMap.set] at hflag ⊢
    split
    · simp [AMap.get, AMap.put, hname]
    · split
      · simp [AMap.get, AMap.put, hname]
      · rename_i h5 h6; rw [if_neg h5, if_neg h6] at hflag; cases hflag
  · intro hflag
    rw [run_append, run_append] at hflag ⊢
    rw [run_append, run_append]
    simp only [AMap.run] at hflag ⊢
    rw [List.append_assoc, List.getElem?_append_right (by rw [run_len]; omega), run_len] at hflag
    simp only [Nat.sub_self, List.cons_append, List.getElem?_cons_zero, Option.some.injEq,
      AMap.step, Out.flag.injEq] at hflag
    simp only [List.getLast?_append, List.getLast?_singleton, Option.some_or, AMap.step]
    rw [keep _ _ _ (fun op h => (hw op h).2), keep _ _ _ (fun op h => (hw op h).2)]
    simp only [AMap.set] at hflag ⊢
    split
    · rename_i h5; rw [if_pos h5] at hflag; cases hflag
    · split
      · rename_i h5 h6; rw [if_neg h5, if_pos h6] at hflag; cases hflag
      · rfl

/-! ## C02 -/

/-- **C02**: reopening a reachable storage gives the very same storage object. -/
theorem reopen_identity {s : Store} (h : Reachable s) : create s.mem false = .ok s := by
  obtain ⟨recs, k, hr⟩ := h.rep
  exact hr.reopen (stops_zeros k)

/-- **C02**: inserting or removing reopens anywhere in a history changes no other answer (names of
any length). -/
theorem reopen_unobservable {s : Store} (h : Reachable s) (ops : List Op)
    (hops : ∀ name obj, Op.set name obj ∈ ops → 6 + obj.length < 65536) :
    ∃ s' outs, run s ops = .ok (s', outs) ∧
      run s (ops.filter (· ≠ .reopen)) = .ok (s', outs.filter (· ≠ .opened)) := by
  induction ops generalizing s with
  | nil => exact ⟨s, [], rfl, rfl⟩
  | cons op ops ih =>
    have hops' : ∀ name obj, Op.set name obj ∈ ops → 6 + obj.length < 65536 :=
      fun n o ho => hops n o (List.mem_cons_of_mem _ ho)
    obtain ⟨recs, k, hr⟩ := h.rep
    cases op with
    | reopen =>
      obtain ⟨s', outs, h1, h2⟩ := ih h hops'
      refine ⟨s', .opened :: outs, by simp [run, step, reopen_identity h, h1], ?_⟩
      simpa using h2
    | get name n =>
      obtain ⟨s', outs, h1, h2⟩ := ih h hops'
      refine ⟨s', .value (lookup recs name n) :: outs, by simp [run, step, hr.get_eq, h1], ?_⟩
      simp at h2
      simp [run, step, hr.get_eq, h2]
    | set name obj =>
      have hset : ∃ s1 b, set s name obj = .ok (s1, b) := by
        rcases firstHit recs name obj.length with ⟨l, r, t, rfl, hno, hit⟩ | hno
        · obtain ⟨s2, h1, -⟩ := hr.set_hit hno hit; exact ⟨_, _, h1⟩
        · by_cases hroom : s.freeHead + 6 + obj.length ≤ s.mem.length
          · obtain ⟨s2, h1, -⟩ := hr.set_new hno (hops name obj (by simp)) hroom; exact ⟨_, _, h1⟩
          · exact ⟨_, _, hr.set_full hno (by omega)⟩
      obtain ⟨s1, b, hb⟩ := hset
      obtain ⟨s', outs, h1, h2⟩ := ih (.set s s1 name obj b h (hops name obj (by simp)) hb) hops'
      refine ⟨s', .flag b :: outs, by simp [run, step, hb, h1], ?_⟩
      simp at h2
      simp [run, step, hb, h2]

/-! ## C03 -/

/-- **C03**: on every reachable storage, `set` of a present (name, size) succeeds in place; of a new
one succeeds iff there is room for it; and a refused `set` leaves the storage as it was. -/
theorem set_capacity {s : Store} (h : Reachable s) (name obj : List Byte) :
    ∃ old s' b, get s name obj.length = .ok old ∧ set s name obj = .ok (s', b) ∧
      s'.mem.length = s.mem.length ∧
      (old.isSome → b = true ∧ s'.freeHead = s.freeHead) ∧
      (old = none → (b = true ↔ s.freeHead + 6 + obj.length ≤ s.mem.length) ∧
        (b = true → s'.freeHead = s.freeHead + 6 + obj.length)) ∧
      (b = false → s' = s) := by
  obtain ⟨recs, k, hr⟩ := h.rep
  rcases firstHit recs name obj.length with ⟨l, r, t, rfl, hno, hit⟩ | hno
  · obtain ⟨s2, h1, h2, h3, h4⟩ := hr.set_hit hno hit
    exact ⟨_, s2, true, hr.get_hit hno hit, h1, h4, fun _ => ⟨rfl, h3⟩, by simp, by simp⟩
  · by_cases hroom : s.freeHead + 6 + obj.length ≤ s.mem.length
    · have hl := congrArg List.length hr.mem
      have hh := hr.head
      rw [List.length_append] at hl
      have hset := applyWrites_new (encs recs) _ name obj (show 6 + obj.length ≤ (List.replicate k 0).length by omega)
      refine ⟨_, ⟨encs recs ++ (Rec.enc ⟨storedIdx name, obj⟩ ++ (List.replicate k 0).drop (6 + obj.length)), _⟩, true,
        hr.get_miss hno, ?_, ?_, by simp, fun _ => ⟨by simp [hroom], fun _ => rfl⟩, by simp⟩
      · unfold set
        rw [hr.setPlan_new hno hroom, Res.bind_ok]
        simp only
        rw [hr.mem, hh, hset, Res.bind_ok]
      · simp only [Rec.enc, List.length_append, le16_length, storedIdx_length, List.length_drop]
        omega
    · exact ⟨_, s, false, hr.get_miss hno, hr.set_full hno (by omega), rfl, by simp,
        fun _ => ⟨by simp [hroom], by simp⟩, fun _ => rfl⟩

/-! ## C08 -/

/-- **C08**, the part that holds (names of at most four characters): what was stored is read
back. -/
theorem set_get_roundtrip_partial {s s' : Store} (h : Reachable s) (name obj : List Byte)
    (hlen : name.length ≤ 4) (hsz : 6 + obj.length < 65536)
    (hset : set s name obj = .ok (s', true)) :
    get s' name obj.length = .ok (some obj) := by
  obtain ⟨recs, k, hr⟩ := h.rep
  rcases firstHit recs name obj.length with ⟨l, r, t, rfl, hno, hit⟩ | hno
  · obtain ⟨s2, h1, h2, -⟩ := hr.set_hit hno hit
    rw [h1] at hset; cases hset
    rw [h2.get_eq, lookup_replace hno hit, if_pos ⟨hlen, rfl, rfl⟩]
  · by_cases hroom : s.freeHead + 6 + obj.length ≤ s.mem.length
    · obtain ⟨s2, h1, h2, -⟩ := hr.set_new hno hsz hroom
      rw [h1] at hset; cases hset
      rw [h2.get_eq, lookup_append, lookup_miss hno]
      simp [Rec.hits, hlen]
    · rw [hr.set_full hno (by omega)] at hset; cases hset

/-- **C08** is false for longer names: after a successful `set` under a name of more than four
characters, `get` under that name returns nothing — for every such name, object and reachable
storage. -/
theorem long_name_never_readable {s : Store} (h : Reachable s) (name : List Byte)
    (hlen : 4 < name.length) (n : Nat) : get s name n = .ok none := by
  obtain ⟨recs, k, hr⟩ := h.rep
  apply hr.get_miss
  intro r _
  simp [Rec.hits]; omega

/-- Instead the value is readable under the first four characters, if nothing of this size was
stored there before; and every such `set` uses new space. -/
theorem long_name_stored_truncated {s s' : Store} (h : Reachable s) (name obj : List Byte)
    (hlen : 4 < name.length) (hsz : 6 + obj.length < 65536)
    (hset : set s name obj = .ok (s', true)) :
    s'.freeHead = s.freeHead + 6 + obj.length ∧
    (get s (name.take 4) obj.length = .ok none → get s' (name.take 4) obj.length = .ok (some obj)) := by
  obtain ⟨recs, k, hr⟩ := h.rep
  have hno : ∀ r ∈ recs, r.hits name obj.length = false := by
    intro r _; simp [Rec.hits]; omega
  by_cases hroom : s.freeHead + 6 + obj.length ≤ s.mem.length
  · obtain ⟨s2, h1, h2, h3, -⟩ := hr.set_new hno hsz hroom
    rw [h1] at hset; cases hset
    refine ⟨h3, fun hg => ?_⟩
    rw [hr.get_eq] at hg
    rw [h2.get_eq, lookup_append, Res.ok.inj hg]
    have : storedIdx name = storedIdx (name.take 4) := by
      simp [storedIdx, List.take_take]
      omega
    simp [Rec.hits, this]
    omega
  · rw [hr.set_full hno (by omega)] at hset; cases hset

/-- The negation of C08, with a concrete witness: "abcde" is stored and cannot be read. -/
theorem set_get_roundtrip_false :
    ∃ (s s' : Store) (name obj : List Byte), Reachable s ∧ 6 + obj.length < 65536 ∧
      set s name obj = .ok (s', true) ∧ get s' name obj.length ≠ .ok (some obj) := by
  refine ⟨⟨List.replicate 16 0, 0⟩, ⟨[8, 0, 0x61, 0x62, 0x63, 0x64, 1, 2, 0, 0, 0, 0, 0, 0, 0, 0], 8⟩,
    [0x61, 0x62, 0x63, 0x64, 0x65], [1, 2], ?_, by decide, by decide, by decide⟩
  exact .init (List.replicate 16 0) _ (by simp [CapOk]) rfl

/-! ## C09 -/

/-- **C09** is false for records of 65536 bytes and more: in no storage whatsoever does a `get` of
such an object return anything. -/
theorem big_object_never_readable (s : Store) (name : List Byte) (n : Nat) (hn : 65536 ≤ 6 + n)
    (v : List Byte) : get s name n ≠ .ok (some v) := by
  have hm : ∀ p b, nodeMatches s.mem p name n = .ok b → b = false := by
    intro p b hb
    unfold nodeMatches at hb
    rw [Res.bind_eq_ok] at hb
    obtain ⟨c, -, hb⟩ := hb
    split at hb
    · rw [Res.bind_eq_ok] at hb
      obtain ⟨sz, hsz, hb⟩ := hb
      unfold nodeSize at hsz
      rw [Res.bind_eq_ok] at hsz
      obtain ⟨lo, -, hsz⟩ := hsz
      rw [Res.bind_eq_ok] at hsz
      obtain ⟨hi, -, hsz⟩ := hsz
      cases hsz
      cases hb
      have := lo.isLt; have := hi.isLt
      simp [descSize]; omega
    · cases hb; rfl
  intro hg
  unfold get at hg
  rw [Res.bind_eq_ok] at hg
  obtain ⟨o, -, hg⟩ := hg
  cases o with
  | none => cases hg
  | some pos =>
    simp only at hg
    rw [Res.bind_eq_ok] at hg
    obtain ⟨b, hb, hg⟩ := hg
    rw [hm _ _ hb] at hg
    cases hg

/-- … although `set` claims success: every object with a record of 65536 bytes and more is accepted
by a fresh storage with enough room. -/
theorem big_object_accepted (m name obj : List Byte) (hcap : CapOk m.length)
    (hroom : 6 + obj.length ≤ m.length) :
    ∃ s s', create m true = .ok s ∧ set s name obj = .ok (s', true) := by
  obtain ⟨s, h1, h2⟩ := Rep.create_true m hcap
  have hl : s.mem.length = m.length := by rw [h2.mem]; simp
  have hf : s.freeHead = 0 := by rw [h2.head]; rfl
  refine ⟨s, ⟨Rec.enc ⟨storedIdx name, obj⟩ ++ s.mem.drop (6 + obj.length), 0 + 6 + obj.length⟩,
    h1, ?_⟩
  unfold set
  rw [h2.setPlan_new (by simp) (by omega)]
  simp only [Res.bind_ok]
  have := applyWrites_new [] s.mem name obj (by omega)
  simp only [List.nil_append, List.length_nil] at this
  rw [hf, this]
  rfl

/-- … and when the record size is a multiple of 65536 the next look-up never returns. -/
theorem big_object_hangs (m name obj name' : List Byte) (n : Nat) (hcap : CapOk m.length)
    (hroom : 6 + obj.length ≤ m.length) (hbig : (6 + obj.length) % 65536 = 0) :
    ∃ s s', create m true = .ok s ∧ set s name obj = .ok (s', true) ∧ get s' name' n = .hang := by
  obtain ⟨s, h1, h2⟩ := Rep.create_true m hcap
  have hl : s.mem.length = m.length := by rw [h2.mem]; simp
  have hf : s.freeHead = 0 := by rw [h2.head]; rfl
  have e := applyWrites_new [] s.mem name obj (by omega)
  simp only [List.nil_append, List.length_nil] at e
  refine ⟨s, ⟨Rec.enc ⟨storedIdx name, obj⟩ ++ s.mem.drop (6 + obj.length), 0 + 6 + obj.length⟩,
    h1, ?_, ?_⟩
  · unfold set
    rw [h2.setPlan_new (by simp) (by omega)]
    simp only [Res.bind_ok]
    rw [hf, e]
    rfl
  · -- the size field is zero
    let m' := Rec.enc ⟨storedIdx name, obj⟩ ++ s.mem.drop (6 + obj.length)
    show get ⟨m', 0 + 6 + obj.length⟩ name' n = .hang
    have hz : nodeSize m' 0 = .ok 0 := by
      show nodeSize ((le16 (6 + obj.length) ++ storedIdx name ++ obj) ++ _) 0 = _
      have : (6 + obj.length) % 2 ^ 16 = 0 := hbig
      simp [nodeSize, le16, this]
    have hlen' : 6 ≤ m'.length := by
      simp [m', Rec.enc, le16_length, storedIdx_length]; omega
    obtain ⟨b, hb, hb2⟩ := nodeMatches_ok m' 0 name' n (by omega)
    have hbf : b = false := by
      cases b
      · rfl
      · have := Res.ok.inj ((hz.symm.trans (hb2 rfl))); omega
    subst hbf
    have loop : ∀ fuel, getIdxLoop m' (0 + 6 + obj.length) name' n fuel 0 = .hang := by
      intro fuel
      induction fuel with
      | zero => rfl
      | succ f ih =>
        rw [getIdxLoop, if_pos (by simp only [descSize]; omega), hb]
        simp only [Res.bind_ok, Bool.false_eq_true, if_false, hz]
        exact ih
    unfold get getIdx
    rw [loop]
    rfl

-- e.g. a 65530-byte object in a 70000-byte region
example : CapOk (List.replicate 70000 (0 : Byte)).length ∧
    6 + (List.replicate 65530 (1 : Byte)).length ≤ (List.replicate 70000 (0 : Byte)).length ∧
    (6 + (List.replicate 65530 (1 : Byte)).length) % 65536 = 0 := by
  simp only [CapOk, List.length_replicate]; decide

/-- **C09**, the part that holds: records up to 65535 bytes are read back and all later calls
terminate (any names of at most four characters). -/
theorem set_get_size_bound_partial {s s' : Store} (h : Reachable s) (name obj : List Byte)
    (hlen : name.length ≤ 4) (hsz : 6 + obj.length ≤ 65535)
    (hset : set s name obj = .ok (s', true)) :
    get s' name obj.length = .ok (some obj) ∧
    ∀ ops : List Op, (∀ name obj, Op.set name obj ∈ ops → 6 + obj.length ≤ 65535) →
      ∃ r, run s' ops = .ok r := by
  refine ⟨set_get_roundtrip_partial h name obj hlen (by omega) hset, fun ops hops => ?_⟩
  have hr : Reachable s' := .set s s' name obj true h (by omega) hset
  obtain ⟨s2, outs, h1, -⟩ := reopen_unobservable hr ops (fun n o ho => by have := hops n o ho; omega)
  exact ⟨_, h1⟩

/-! ## C10 -/

/-- Of a longer name the first four characters are stored. -/
theorem storedIdx_take (name : List Byte) : storedIdx (name.take 4) = storedIdx name := by
  unfold storedIdx
  rw [List.take_take, List.length_take, Nat.min_self]
  congr 2
  omega

/-- **C10**: a `set` changes what is read under another name or another size in no reachable
storage (the name of a record being the first four characters of the one given). -/
theorem set_independent {s s' : Store} {b : Bool} (h : Reachable s) (name obj name' : List Byte)
    (n' : Nat) (hsz : 6 + obj.length < 65536)
    (hne : stripNul name' ≠ stripNul (name.take 4) ∨ n' ≠ obj.length)
    (hset : set s name obj = .ok (s', b)) : get s' name' n' = get s name' n' := by
  obtain ⟨recs, k, hr⟩ := h.rep
  have key : ¬(name'.length ≤ 4 ∧ storedIdx name' = storedIdx name ∧ n' = obj.length) := by
    rintro ⟨h1, h2, h3⟩
    rcases hne with hne | hne
    · exact hne ((storedIdx_eq_iff h1 (by rw [List.length_take]; omega)).1 (h2.trans (storedIdx_take name).symm))
    · exact hne h3
  rcases firstHit recs name obj.length with ⟨l, r, t, rfl, hno, hit⟩ | hno
  · obtain ⟨s2, h1, h2, -⟩ := hr.set_hit hno hit
    rw [h1] at hset; cases hset
    rw [h2.get_eq, hr.get_eq, lookup_replace hno hit, if_neg key]
  · by_cases hroom : s.freeHead + 6 + obj.length ≤ s.mem.length
    · obtain ⟨s2, h1, h2, -⟩ := hr.set_new hno hsz hroom
      rw [h1] at hset; cases hset
      rw [h2.get_eq, hr.get_eq, lookup_append]
      have : Rec.hits ⟨storedIdx name, obj⟩ name' n' = false := by
        simp only [Rec.hits, decide_eq_false_iff_not]
        rintro ⟨h3, h4, h5⟩
        exact key ⟨h3, h4.symm, h5.symm⟩
      rw [this]
      cases lookup recs name' n' <;> simp
    · rw [hr.set_full hno (by omega)] at hset; cases hset; rfl

/-- **C10**: names equal up to trailing NULs denote the same record, in every storage. -/
theorem get_trailing_nul (s : Store) (name name' : List Byte) (n : Nat) (hlen : name.length ≤ 4)
    (hlen' : name'.length ≤ 4) (heq : stripNul name = stripNul name') :
    get s name n = get s name' n := by
  have hs : storedIdx name = storedIdx name' := (storedIdx_eq_iff hlen hlen').2 heq
  have hm : ∀ m p, nodeMatches m p name n = nodeMatches m p name' n := by
    intro m p
    unfold nodeMatches
    have : idxEq m p name = idxEq m p name' := by
      unfold idxEq nodeIdx readN
      rw [if_neg (Nat.not_lt.2 hlen), if_neg (Nat.not_lt.2 hlen')]
      split
      · simp only [Res.bind_ok]
        have hl4 : (List.take 4 (List.drop (p + 2) m)).length = 4 := by
          rw [List.length_take, List.length_drop]; omega
        rw [idx_pad _ _ hl4 hlen, idx_pad _ _ hl4 hlen', hs]
      · rfl
    rw [this]
  have hl : ∀ m fh fuel p, getIdxLoop m fh name n fuel p = getIdxLoop m fh name' n fuel p := by
    intro m fh fuel
    induction fuel with
    | zero => intro p; rfl
    | succ f ih =>
      intro p
      rw [getIdxLoop, getIdxLoop]
      simp only [hm, ih]
  unfold get getIdx
  simp only [hl, hm]

/-- **C10**: a size that was never stored under a name reads as nothing: after any history from
initialisation, `get` of (name, n) returns nothing if no `set` of this name and size was made. -/
theorem get_never_stored (m : List Byte) (hcap : CapOk m.length) (ops : List Op)
    (hops : ∀ x o, Op.set x o ∈ ops → 6 + o.length < 65536) (name : List Byte) (n : Nat)
    (hnever : ∀ x o, Op.set x o ∈ ops → stripNul (x.take 4) ≠ stripNul name ∨ o.length ≠ n) :
    ∃ s r, create m true = .ok s ∧ run s ops = .ok r ∧ get r.1 name n = .ok none := by
  have : ∀ (ops : List Op) (s : Store), Reachable s → get s name n = .ok none →
      (∀ x o, Op.set x o ∈ ops → 6 + o.length < 65536) →
      (∀ x o, Op.set x o ∈ ops → stripNul (x.take 4) ≠ stripNul name ∨ o.length ≠ n) →
      ∃ r, run s ops = .ok r ∧ get r.1 name n = .ok none := by
    intro ops
    induction ops with
    | nil => intro s _ hg _ _; exact ⟨_, rfl, hg⟩
    | cons op ops ih =>
      intro s hr hg hops hnever
      have ho' : ∀ x o, Op.set x o ∈ ops → 6 + o.length < 65536 := fun x o ho => hops x o (List.mem_cons_of_mem _ ho)
      have hn' : ∀ x o, Op.set x o ∈ ops → stripNul (x.take 4) ≠ stripNul name ∨ o.length ≠ n :=
        fun x o ho => hnever x o (List.mem_cons_of_mem _ ho)
      cases op with
      | get nm k =>
        obtain ⟨recs, j, hrep⟩ := hr.rep
        obtain ⟨r, h1, h2⟩ := ih s hr hg ho' hn'
        exact ⟨(r.1, .value (lookup recs nm k) :: r.2), by simp [run, step, hrep.get_eq, h1], h2⟩
      | reopen =>
        obtain ⟨r, h1, h2⟩ := ih s hr hg ho' hn'
        exact ⟨(r.1, .opened :: r.2), by simp [run, step, reopen_identity hr, h1], h2⟩
      | set x o =>
        have hsz := hops x o (by simp)
        obtain ⟨old, s', b, -, hset, -⟩ := set_capacity hr x o
        have hg' : get s' name n = .ok none := by
          rw [set_independent hr x o name n hsz ?_ hset, hg]
          rcases hnever x o (by simp) with h | h
          · exact .inl fun e => h e.symm
          · exact .inr fun e => h e.symm
        obtain ⟨r, h1, h2⟩ := ih s' (.set s s' x o b hr hsz hset) hg' ho' hn'
        exact ⟨(r.1, .flag b :: r.2), by simp [run, step, hset, h1], h2⟩
  obtain ⟨s, h1, h2⟩ := Rep.create_true m hcap
  obtain ⟨r, h3, h4⟩ := this ops s (.init m s hcap h1) (h2.get_miss (by simp)) hops hnever
  exact ⟨s, r, h1, h3, h4⟩

/-! ## C11 -/

/-- **C11**: initialisation zeroes the region and forgets everything, whatever the memory held. -/
theorem init_wipes (m : List Byte) (hcap : CapOk m.length) :
    ∃ s, create m true = .ok s ∧ s.mem.length = m.length ∧ (∀ b ∈ s.mem, b = 0) ∧
      s.freeHead = 0 ∧ ∀ name n, get s name n = .ok none := by
  obtain ⟨s, h1, h2⟩ := Rep.create_true m hcap
  refine ⟨s, h1, by rw [h2.mem]; simp, ?_, by rw [h2.head]; rfl, fun name n => h2.get_miss (by simp)⟩
  rw [h2.mem]
  simp

end Verif.Storage
