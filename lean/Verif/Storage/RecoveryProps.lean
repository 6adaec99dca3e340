import Verif.Storage.Recovery
/-!
# C07, C68: the theorems about using the storage after a power loss
-/
namespace Verif.Storage

/-! ## Specification: a map with power losses -/

/-- Power is lost after `j` byte writes of `set name obj`.  An existing object keeps its tail.  Of a
new one `crashSeen obj j` remains, unless an object of that size is there already; its space is
used up in any case. -/
def AMap.crash (a : AMap) (cap : Nat) (name obj : List Byte) (j : Nat) : AMap :=
  match a.get name obj.length with
  | some old => ⟨a.put name (obj.take j ++ old.drop j), a.used⟩
  | none =>
    if a.used + 6 + obj.length ≤ cap then
      match crashSeen obj j with
      | none => a
      | some d => ⟨if (a.get name d.length).isSome then a.val else a.put name d, a.used + 6 + d.length⟩
    else a

/-- A call, or a `set` during which power is lost after `j` byte writes, followed by a reopen. -/
inductive COp where
  | call (op : Op)
  | crash (name obj : List Byte) (j : Nat)

/-- One step of the concrete storage; the crash performs the first `j` byte writes of `setPlan` in
program order. -/
def cstep (s : Store) : COp → Res (Store × Out)
  | .call op => step s op
  | .crash name obj j => do
    let plan ← setPlan s name obj
    let m ← applyWrites s.mem (plan.writes.take j)
    let s' ← create m false
    .ok (s', .opened)

def crun (s : Store) : List COp → Res (Store × List Out)
  | [] => .ok (s, [])
  | op :: ops => do
    let (s', o) ← cstep s op
    let (s'', os) ← crun s' ops
    .ok (s'', o :: os)

def AMap.cstep (cap : Nat) (a : AMap) : COp → AMap × Out
  | .call op => a.step cap op
  | .crash name obj j => (a.crash cap name obj j, .opened)

def AMap.crun (cap : Nat) (a : AMap) : List COp → AMap × List Out
  | [] => (a, [])
  | op :: ops =>
    let r := a.cstep cap op
    let q := AMap.crun cap r.1 ops
    (q.1, r.2 :: q.2)

/-- As `Op.Normal`; and no crash between the size bytes that leaves a size of 1 to 5. -/
def COp.Normal : COp → Prop
  | .call op => op.Normal
  | .crash name obj j => name.length ≤ 4 ∧ 6 + obj.length < 65536 ∧ (j = 5 → TearSafe (6 + obj.length))

/-! ## Proofs -/

theorem crash_step {s : Store} {a : AMap} {cap : Nat} (h : Implements s a)
    (hc : s.mem.length = cap) {name obj : List Byte} {j : Nat} (hop : (COp.crash name obj j).Normal) :
    ∃ s', cstep s (.crash name obj j) = .ok (s', .opened) ∧ Implements s' (a.crash cap name obj j) ∧
      s'.mem.length = cap := by
  obtain ⟨recs, rest, hr, hcl, hu, ha⟩ := h
  obtain ⟨hn, hsz, hsafe⟩ := hop
  have hg := ha name obj.length hn
  -- the writes never leave the region
  obtain ⟨plan, hplan, m', hm'⟩ : ∃ plan, setPlan s name obj = .ok plan ∧
      ∃ m', applyWrites s.mem (plan.writes.take j) = .ok m' := by
    obtain ⟨plan, m2, hp, hm2⟩ : ∃ plan m2, setPlan s name obj = .ok plan ∧
        applyWrites s.mem plan.writes = .ok m2 := by
      have hset : ∃ s2 b, set s name obj = .ok (s2, b) := by
        rcases firstHit recs name obj.length with ⟨l, r, t, rfl, hno, hit⟩ | hno
        · obtain ⟨s2, h1, -⟩ := hr.set_hit hno hit; exact ⟨_, _, h1⟩
        · by_cases hroom : s.freeHead + 6 + obj.length ≤ s.mem.length
          · obtain ⟨s2, h1, -⟩ := hr.set_new hno hsz hroom; exact ⟨_, _, h1⟩
          · exact ⟨_, _, hr.set_full hno (by omega)⟩
      obtain ⟨s2, b, hset⟩ := hset
      unfold set at hset
      cases hp : setPlan s name obj with
      | ub => rw [hp] at hset; cases hset
      | hang => rw [hp] at hset; cases hset
      | ok plan =>
        rw [hp] at hset
        simp only [Res.bind_ok] at hset
        cases hm : applyWrites s.mem plan.writes with
        | ub => rw [hm] at hset; cases hset
        | hang => rw [hm] at hset; cases hset
        | ok m2 => exact ⟨plan, m2, rfl, hm⟩
    refine ⟨plan, hp, ?_⟩
    rw [← List.take_append_drop j plan.writes, applyWrites_append] at hm2
    cases hm : applyWrites s.mem (plan.writes.take j) with
    | ub => rw [hm] at hm2; cases hm2
    | hang => rw [hm] at hm2; cases hm2
    | ok m' => exact ⟨m', rfl⟩
  have hcs : ∀ s', create m' false = .ok s' → cstep s (.crash name obj j) = .ok (s', .opened) := by
    intro s' h'
    simp only [cstep, hplan, Res.bind_ok, hm', h']
  rcases firstHit recs name obj.length with ⟨l, r, t, rfl, hno, hit⟩ | hno
  · obtain ⟨s', h1, h2, h3⟩ := hr.crash_hit hcl hno hit hplan hm'
    refine ⟨s', hcs s' h1, ?_, by rw [h3, hc]⟩
    rw [lookup_hit hno hit] at hg
    have hrl := Rec.hits_replace hit
    have hcr : a.crash cap name obj j = ⟨a.put name (obj.take j ++ r.data.drop j), a.used⟩ := by
      unfold AMap.crash; rw [hg]
    have hdl : (obj.take j ++ r.data.drop j).length = obj.length := by simp; omega
    rw [hcr]
    refine ⟨_, _, h2, hcl, ?_, ?_⟩
    · rw [hu, hr.head, h2.head]
      simp only [encs_append, encs_cons, Rec.enc, List.length_append, le16_length, List.length_take,
        List.length_drop]
      omega
    · intro name' n' hn'
      rw [← hdl] at hno hit
      rw [lookup_replace hno hit]
      simp only [AMap.get, AMap.put, hn', true_and, storedIdx_eq_iff hn' hn]
      split
      · rfl
      · exact ha name' n' hn'
  · have hnone : a.get name obj.length = none := by rw [hg, lookup_miss hno]
    by_cases hroom : s.freeHead + 6 + obj.length ≤ s.mem.length
    · obtain ⟨s', rest', h1, h2, h3, h4⟩ := hr.crash_new hcl hno hsz hroom hplan hm' hsafe
      refine ⟨s', hcs s' h1, ?_, by rw [h4, hc]⟩
      unfold crashRecs at h2
      unfold AMap.crash
      rw [hnone]
      simp only
      rw [if_pos (by omega)]
      cases hseen : crashSeen obj j with
      | none =>
        simp only [hseen] at h2
        exact ⟨recs, rest', h2, h3, by rw [hu, hr.head, h2.head], ha⟩
      | some d =>
        simp only [hseen] at h2
        refine ⟨_, rest', h2, h3, ?_, ?_⟩
        · simp only [hu, hr.head, h2.head, encs_append, encs_cons, encs_nil, Rec.enc, List.append_nil,
            List.length_append, le16_length, storedIdx_length]
          omega
        · intro name' n' hn'
          rw [lookup_append]
          have hh : Rec.hits ⟨storedIdx name, d⟩ name' n' =
              decide (stripNul name' = stripNul name ∧ n' = d.length) := by
            simp only [Rec.hits, hn', true_and, storedIdx_eq_iff hn hn']
            rw [Bool.eq_iff_iff]; simp only [decide_eq_true_eq]
            exact ⟨fun h => ⟨h.1.symm, h.2.symm⟩, fun h => ⟨h.1.symm, h.2.symm⟩⟩
          rw [hh, ← ha name' n' hn']
          by_cases hk : stripNul name' = stripNul name ∧ n' = d.length
          · cases hd : a.get name d.length with
            | some v =>
              simp only [AMap.get] at hd ⊢
              simp [hk.1, hk.2, hd]
            | none =>
              simp only [AMap.get] at hd ⊢
              simp [hk.1, hk.2, hd, AMap.put]
          · by_cases hd : (a.get name d.length).isSome = true
            · simp only
              rw [if_pos hd]
              simp only [AMap.get]
              cases a.val (stripNul name') n' <;> simp [hk]
            · simp only
              rw [if_neg hd]
              simp only [AMap.get, AMap.put]
              rw [if_neg hk]
              cases a.val (stripNul name') n' <;> simp [hk]
    · obtain ⟨rfl, -⟩ := hr.crash_full hno hroom hplan hm'
      refine ⟨s, hcs s (hr.reopen hcl.stops), ?_, hc⟩
      unfold AMap.crash
      rw [hnone]
      simp only
      rw [if_neg (by omega)]
      exact ⟨recs, rest, hr, hcl, hu, ha⟩

theorem implements_crun {s : Store} {a : AMap} {cap : Nat} (h : Implements s a)
    (hc : s.mem.length = cap) (ops : List COp) (hops : ∀ op ∈ ops, op.Normal) :
    ∃ s', crun s ops = .ok (s', (a.crun cap ops).2) ∧ Implements s' (a.crun cap ops).1 ∧
      s'.mem.length = cap := by
  induction ops generalizing s a with
  | nil => exact ⟨s, rfl, h, hc⟩
  | cons op ops ih =>
    simp only [List.mem_cons, forall_eq_or_imp] at hops
    obtain ⟨s1, h1, h2, h3⟩ : ∃ s1, cstep s op = .ok (s1, (a.cstep cap op).2) ∧
        Implements s1 (a.cstep cap op).1 ∧ s1.mem.length = cap := by
      cases op with
      | call op => exact implements_step h hc op hops.1
      | crash name obj j => exact crash_step h hc hops.1
    obtain ⟨s2, h4, h5, h6⟩ := ih h2 h3 hops.2
    exact ⟨s2, by simp [crun, h1, h4, AMap.crun], h5, h6⟩

/-- **C68**: a freshly initialised storage over any memory answers every history of calls, reopens
and power losses during `set` (any number of them, after any number of byte writes) exactly like the
bounded map with power losses, without undefined behaviour. -/
theorem storage_with_crashes_refines_map (m : List Byte) (hcap : CapOk m.length) (ops : List COp)
    (hops : ∀ op ∈ ops, op.Normal) :
    ∃ s s', create m true = .ok s ∧
      crun s ops = .ok (s', (AMap.empty.crun m.length ops).2) := by
  obtain ⟨s, h1, h2⟩ := Rep.create_true m hcap
  have hi : Implements s AMap.empty :=
    ⟨[], _, h2, clean_zeros _, by rw [h2.head]; rfl, fun name n _ => rfl⟩
  have hl : s.mem.length = m.length := by rw [h2.mem]; simp
  obtain ⟨s', h3, -, -⟩ := implements_crun hi hl ops hops
  exact ⟨s, s', h1, h3⟩

-- A history meeting the hypotheses: a crash after the first data byte, then a crash after two name
-- bytes, then a crash while the first record is overwritten; the expected outputs.
example :
    (∀ op ∈ [COp.crash [1] [7, 8, 9] 7, .call (.get [1] 3), .crash [2] [5] 2, .call (.get [2] 1),
      .call (.set [3] [4, 4]), .crash [1] [6, 6, 6] 2, .call (.get [1] 3), .call (.get [3] 2)],
      op.Normal) ∧
    (AMap.empty.crun 32 [COp.crash [1] [7, 8, 9] 7, .call (.get [1] 3), .crash [2] [5] 2,
      .call (.get [2] 1), .call (.set [3] [4, 4]), .crash [1] [6, 6, 6] 2, .call (.get [1] 3),
      .call (.get [3] 2)]).2 =
      [.opened, .value (some [7, 0, 0]), .opened, .value none, .flag true, .opened,
        .value (some [6, 6, 0]), .value (some [4, 4])] := by
  refine ⟨?_, by decide⟩
  intro op h
  simp only [List.mem_cons, List.not_mem_nil, or_false] at h
  rcases h with h | h | h | h | h | h | h | h <;> subst h <;>
    simp [COp.Normal, Op.Normal]

theorem stripNul_length_le (l : List Byte) : (stripNul l).length ≤ l.length := by
  obtain ⟨k, hk⟩ := eq_stripNul_append l
  have := congrArg List.length hk
  rw [List.length_append] at this; omega

theorem stripNul_stripNul (l : List Byte) : stripNul (stripNul l) = stripNul l := by
  obtain ⟨k, hk⟩ := eq_stripNul_append l
  conv => rhs; rw [hk, stripNul_append_replicate]

/-- **C68**, for states reached in any way by calls (names of any length), reopens and crashes: what
can be read there is a map, and every later history with crashes is answered like that map. -/
theorem recovered_refines_map {s : Store} (h : Recoverable s) :
    ∃ a : AMap, (∀ name n, name.length ≤ 4 → get s name n = .ok (a.get name n)) ∧
      a.used = s.freeHead ∧
      ∀ ops : List COp, (∀ op ∈ ops, op.Normal) →
        ∃ s', crun s ops = .ok (s', (a.crun s.mem.length ops).2) := by
  obtain ⟨recs, rest, hr, hcl⟩ := h.rep
  have hget : ∀ name n, name.length ≤ 4 → lookup recs (stripNul name) n = lookup recs name n := by
    intro name n hn
    have hl := stripNul_length_le name
    have hs : storedIdx (stripNul name) = storedIdx name :=
      (storedIdx_eq_iff (by omega) hn).2 (stripNul_stripNul name)
    unfold lookup
    congr 2
    funext r
    simp only [Rec.hits, hs, hn, show (stripNul name).length ≤ 4 by omega]
  refine ⟨⟨fun k n => lookup recs k n, s.freeHead⟩, ?_, rfl, ?_⟩
  · intro name n hn
    rw [hr.get_eq]
    simp only [AMap.get, hget name n hn]
  · intro ops hops
    obtain ⟨s', h1, -, -⟩ := implements_crun (s := s) (a := ⟨fun k n => lookup recs k n, s.freeHead⟩)
      ⟨recs, rest, hr, hcl, rfl, fun name n hn => hget name n hn⟩ rfl ops hops
    exact ⟨s', h1⟩

/-- **C07**, a new record: exactly what is read after a crash in program order.  Everything readable
before reads the same.  What could not be read before still cannot, except the new name, under which
`crashSeen obj j` is read: nothing up to the fourth byte write, a zero-padded prefix of the object
from the sixth on.  Missing for the full claim: `crashSeen` is not `none` or `obj`
(`crash_phantom_value`), and the torn size fields excluded by `TearSafe`. -/
theorem crash_append_exact_partial {s : Store} (h : Recoverable s) (name obj : List Byte)
    (hlen : name.length ≤ 4) (hsz : 6 + obj.length < 65536)
    (hnew : get s name obj.length = .ok none)
    (plan : Plan) (hplan : setPlan s name obj = .ok plan) (hres : plan.result = true)
    (j : Nat) (hsafe : j = 5 → TearSafe (6 + obj.length))
    (m' : List Byte) (hcrash : CrashedAt s.mem plan.writes j m') :
    ∃ s', create m' false = .ok s' ∧
      (∀ name' n' v, get s name' n' = .ok (some v) → get s' name' n' = .ok (some v)) ∧
      (∀ name' n', get s name' n' = .ok none →
        get s' name' n' = .ok (match crashSeen obj j with
          | none => none
          | some d => if name'.length ≤ 4 ∧ stripNul name' = stripNul name ∧ n' = d.length then some d
            else none)) := by
  obtain ⟨recs, rest, hr, hcl⟩ := h.rep
  have hno : ∀ r ∈ recs, r.hits name obj.length = false := by
    rw [hr.get_eq] at hnew
    have := Res.ok.inj hnew
    simpa [lookup] using this
  by_cases hroom : s.freeHead + 6 + obj.length ≤ s.mem.length
  · obtain ⟨s', rest', h1, h2, h3, h4⟩ := hr.crash_new hcl hno hsz hroom hplan hcrash hsafe
    refine ⟨s', h1, ?_, ?_⟩
    · intro name' n' v hv
      rw [hr.get_eq] at hv
      rw [h2.get_eq, ← hv]
      unfold crashRecs
      cases crashSeen obj j with
      | none => rfl
      | some d =>
        simp only
        rw [lookup_append, Res.ok.inj hv]
    · intro name' n' hv
      rw [hr.get_eq] at hv
      rw [h2.get_eq]
      unfold crashRecs
      cases crashSeen obj j with
      | none => simp only [Res.ok.inj hv]
      | some d =>
        simp only
        rw [lookup_append, Res.ok.inj hv]
        simp only [Rec.hits]
        congr 1
        by_cases hn' : name'.length ≤ 4
        · simp only [hn', true_and, storedIdx_eq_iff hlen hn', decide_eq_true_eq]
          congr 1
          exact propext ⟨fun h => ⟨h.1.symm, h.2.symm⟩, fun h => ⟨h.1.symm, h.2.symm⟩⟩
        · simp [hn']
  · have := (hr.crash_full hno hroom hplan hcrash).2
    rw [this] at hres; cases hres

-- A case meeting the hypotheses: the crash of `crash_phantom_value`, one byte later.
example : Recoverable ⟨List.replicate 12 0, 0⟩ ∧ crashSeen [1, 2] 7 = some [1, 0] ∧
    get ⟨List.replicate 12 0, 0⟩ [0x61] 2 = .ok none ∧
    setPlan ⟨List.replicate 12 0, 0⟩ [0x61] [1, 2] =
      .ok ⟨[(2, 0x61), (3, 0), (4, 0), (5, 0), (0, 8), (1, 0), (6, 1), (7, 2)], 8, true⟩ ∧
    CrashedAt (List.replicate 12 0)
      [(2, 0x61), (3, 0), (4, 0), (5, 0), (0, 8), (1, 0), (6, 1), (7, 2)] 7
      [8, 0, 0x61, 0, 0, 0, 1, 0, 0, 0, 0, 0] ∧
    (do get (← create [8, 0, 0x61, 0, 0, 0, 1, 0, 0, 0, 0, 0] false) [0x61] 2) = .ok (some [1, 0]) :=
  ⟨.init (List.replicate 12 0) _ (by simp [CapOk]) rfl, by decide, by decide, by decide,
    by unfold CrashedAt; decide, by decide⟩

/-- The exclusion is necessary: a 251-byte object, power lost between the two bytes of its size field
(257).  After reopening, a `set` of another name reports success, but the value cannot be read. -/
theorem torn_size_breaks_storage :
    ∃ (s s' : Store) (ops : List COp), create (List.replicate 263 0) true = .ok s ∧
      ops = [.crash [0x61] (List.replicate 251 1) 5, .call (.set [0x62] [7]), .call (.get [0x62] 1)] ∧
      crun s ops = .ok (s', [.opened, .flag true, .value none]) := by
  refine ⟨_, ⟨[1, 7, 0, 0x62, 0, 0, 0, 7] ++ List.replicate 255 0, 8⟩, _, rfl, rfl, ?_⟩
  decide +kernel

end Verif.Storage
