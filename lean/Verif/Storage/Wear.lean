import Verif.Storage.Image
/-!
# C103: how often each byte of the region is written

Flash and EEPROM cells stand a limited number of writes.  After any history on an initialised storage this file says, for
every byte of the region, how often it has been written since the initialisation.
-/
namespace Verif.Storage

/-! ## Specification: a log of entries which counts how often each was stored -/

/-- Overwrite the first entry for this name and size, if there is one, and count that. -/
def touch (name obj : List Byte) : List (Entry × Nat) → Option (List (Entry × Nat))
  | [] => none
  | (e, n) :: es =>
    if e.For name obj.length then some ((⟨e.key, obj⟩, n + 1) :: es) else (touch name obj es).map ((e, n) :: ·)

/-- What a call does to the counted log. -/
def wearStep (cap : Nat) (w : List (Entry × Nat)) : Op → List (Entry × Nat)
  | .set name obj =>
    match touch name obj w with
    | some w' => w'
    | none => if size (w.map Prod.fst) + (6 + obj.length) ≤ cap then w ++ [(⟨four name, obj⟩, 1)] else w
  | _ => w

/-- The counted log after a history. -/
def wearOf (cap : Nat) (ops : List Op) : List (Entry × Nat) := ops.foldl (wearStep cap) []

/-- How often the byte at `p` is written: length and name of an entry once, its object as often as it was stored, the rest
of the region never. -/
def wearAt : List (Entry × Nat) → Nat → Nat
  | [], _ => 0
  | (e, n) :: es, p => if p < 6 then 1 else if p < 6 + e.obj.length then n else wearAt es (p - (6 + e.obj.length))

/-! ## The code: the addresses written -/

/-- PersistentStorage.h:50-74: the addresses a call writes, in order.  `get` and the constructor without `init` write
nothing. -/
def opWrites (s : Store) : Op → Res (List Nat)
  | .set name obj => do
    let plan ← setPlan s name obj
    .ok (plan.writes.map Prod.fst)
  | _ => .ok []

/-- The addresses written during a history. -/
def trace (s : Store) : List Op → Res (List Nat)
  | [] => .ok []
  | op :: ops => do
    let ws ← opWrites s op
    let (s', _) ← step s op
    let rest ← trace s' ops
    .ok (ws ++ rest)

/-! ## Proof -/

theorem writesAt_fst (p : Nat) (bs : List Byte) : (writesAt p bs).map Prod.fst = List.range' p bs.length := by
  induction bs generalizing p with
  | nil => rfl
  | cons b bs ih => rw [writesAt_cons, List.map_cons, ih, List.length_cons, List.range'_succ]

theorem count_range' (p n a : Nat) : (List.range' p n).count a = if p ≤ a ∧ a < p + n then 1 else 0 := by
  induction n generalizing p with
  | zero => simp
  | succ n ih =>
    rw [List.range'_succ, List.count_cons, ih]
    by_cases h : p = a
    · subst h; simp; omega
    · simp only [beq_iff_eq, h, if_false, Nat.add_zero]
      congr 1
      simp only [eq_iff_iff]
      omega

theorem wearAt_append (a b : List (Entry × Nat)) (p : Nat) :
    wearAt (a ++ b) p = if p < size (a.map Prod.fst) then wearAt a p else wearAt b (p - size (a.map Prod.fst)) := by
  induction a generalizing p with
  | nil => simp [size]
  | cons x a ih =>
    obtain ⟨e, n⟩ := x
    have hs : size (((e, n) :: a).map Prod.fst) = 6 + e.obj.length + size (a.map Prod.fst) := by simp [size]
    simp only [List.cons_append, wearAt, hs, ih]
    by_cases h1 : p < 6
    · simp only [h1, if_true]; rw [if_pos (by omega)]
    · by_cases h2 : p < 6 + e.obj.length
      · simp only [h1, h2, if_false, if_true]; rw [if_pos (by omega)]
      · simp only [h1, h2, if_false]
        by_cases h3 : p < 6 + e.obj.length + size (a.map Prod.fst)
        · rw [if_pos (by omega), if_pos h3]
        · rw [if_neg (by omega), if_neg h3, Nat.sub_sub]

/-- The two specifications agree on the records. -/
theorem touch_fst (name obj : List Byte) (w : List (Entry × Nat)) :
    (touch name obj w).map (·.map Prod.fst) = overwrite name obj (w.map Prod.fst) := by
  induction w with
  | nil => rfl
  | cons x w ih =>
    obtain ⟨e, n⟩ := x
    simp only [touch, List.map_cons, overwrite]
    split
    · rfl
    · rw [← ih]
      cases touch name obj w <;> rfl

theorem wearStep_fst (cap : Nat) (w : List (Entry × Nat)) (op : Op) :
    (wearStep cap w op).map Prod.fst = logStep cap (w.map Prod.fst) op := by
  cases op with
  | get => rfl
  | reopen => rfl
  | set name obj =>
    have := touch_fst name obj w
    simp only [wearStep, logStep, ← this]
    cases touch name obj w with
    | some w' => rfl
    | none => simp only [Option.map_none]; split <;> simp

theorem wearOf_log (cap : Nat) (ops : List Op) : (wearOf cap ops).map Prod.fst = logOf cap ops := by
  unfold wearOf logOf
  have : ∀ w log, w.map Prod.fst = log →
      (ops.foldl (wearStep cap) w).map Prod.fst = ops.foldl (logStep cap) log := by
    induction ops with
    | nil => exact fun w log h => h
    | cons op ops ih => intro w log h; exact ih _ _ (by rw [wearStep_fst, h])
  exact this [] [] rfl

theorem touch_cases (name obj : List Byte) (w : List (Entry × Nat)) :
    (∃ a e n b, w = a ++ (e, n) :: b ∧ (∀ x ∈ a, ¬ x.1.For name obj.length) ∧ e.For name obj.length ∧
      touch name obj w = some (a ++ (⟨e.key, obj⟩, n + 1) :: b)) ∨
    ((∀ x ∈ w, ¬ x.1.For name obj.length) ∧ touch name obj w = none) := by
  induction w with
  | nil => exact .inr ⟨by simp, rfl⟩
  | cons x w ih =>
    obtain ⟨e, n⟩ := x
    by_cases hx : e.For name obj.length
    · exact .inl ⟨[], e, n, w, rfl, by simp, hx, by simp [touch, hx]⟩
    · rcases ih with ⟨a, e', n', b, rfl, ha, he, ho⟩ | ⟨hn, ho⟩
      · exact .inl ⟨(e, n) :: a, e', n', b, rfl, by simpa [hx] using ha, he, by simp [touch, hx, ho]⟩
      · exact .inr ⟨by simpa [hx] using hn, by simp [touch, hx, ho]⟩

/-- One call adds to each byte what the specification says. -/
theorem opWrites_wear {cap : Nat} {s : Store} {w : List (Entry × Nat)} (h : Holds cap s (w.map Prod.fst)) (op : Op) :
    ∃ ws, opWrites s op = .ok ws ∧ ∀ p, wearAt (wearStep cap w op) p = wearAt w p + ws.count p := by
  cases op with
  | get name n => exact ⟨[], rfl, fun p => rfl⟩
  | reopen => exact ⟨[], rfl, fun p => rfl⟩
  | set name obj =>
    have hhead := h.image.2
    rcases touch_cases name obj w with ⟨a, e, n, b, rfl, ha, he, ho⟩ | ⟨hn, ho⟩
    · have hr := h.rep
      rw [List.map_append, List.map_cons, List.map_append, List.map_cons] at hr
      have hp := hr.setPlan_hit (name := name) (obj := obj)
        (by
          intro r hr
          obtain ⟨x, hx, rfl⟩ := List.mem_map.1 hr
          obtain ⟨y, hy, rfl⟩ := List.mem_map.1 hx
          rw [for_hits]; simpa using ha y hy)
        (by rw [for_hits]; simpa using he)
      have hg : ∀ e ∈ a.map Prod.fst, e.record.Good := fun x hx => h.good x (by
        rw [List.map_append]; exact List.mem_append_left _ hx)
      refine ⟨_, by simp only [opWrites, hp, Res.bind_ok]; rfl, fun p => ?_⟩
      rw [size_encs hg]
      simp only [wearStep, ho, writesAt_fst, count_range', wearAt_append, wearAt]
      have hl : e.obj.length = obj.length := he.2.2
      rw [hl]
      by_cases h1 : p < size (a.map Prod.fst)
      · rw [if_pos h1, if_pos h1, if_neg (by omega), Nat.add_zero]
      · rw [if_neg h1, if_neg h1]
        by_cases h2 : p - size (a.map Prod.fst) < 6
        · rw [if_pos h2, if_pos h2, if_neg (by omega)]
        · rw [if_neg h2, if_neg h2]
          by_cases h3 : p - size (a.map Prod.fst) < 6 + obj.length
          · rw [if_pos h3, if_pos h3, if_pos (by omega)]
          · rw [if_neg h3, if_neg h3, if_neg (by omega), Nat.add_zero]
    · have hno : ∀ r ∈ (w.map Prod.fst).map Entry.record, r.hits name obj.length = false := by
        intro r hr
        obtain ⟨x, hx, rfl⟩ := List.mem_map.1 hr
        obtain ⟨y, hy, rfl⟩ := List.mem_map.1 hx
        rw [for_hits]; simpa using hn y hy
      by_cases hroom : size (w.map Prod.fst) + (6 + obj.length) ≤ cap
      · have hp := h.rep.setPlan_new (name := name) (obj := obj) hno (by rw [hhead, h.len]; omega)
        refine ⟨_, by simp only [opWrites, hp, Res.bind_ok]; rfl, fun p => ?_⟩
        have hw0 : ∀ q, size (w.map Prod.fst) ≤ q → wearAt w q = 0 := by
          intro q hq
          have := wearAt_append w [] q
          rw [List.append_nil, if_neg (by omega)] at this
          exact this
        simp only [wearStep, ho, if_pos hroom, List.map_append, writesAt_fst, List.count_append, count_range',
          storedIdx_length, le16_length, hhead, wearAt_append, wearAt]
        by_cases h1 : p < size (w.map Prod.fst)
        · rw [if_pos h1, if_neg (by omega), if_neg (by omega), if_neg (by omega)]; rfl
        · rw [if_neg h1, hw0 p (by omega)]
          by_cases h2 : p - size (w.map Prod.fst) < 6
          · rw [if_pos h2, if_neg (c := size (w.map Prod.fst) + 6 ≤ p ∧ _) (by omega)]
            by_cases h3 : size (w.map Prod.fst) + 2 ≤ p
            · rw [if_pos (by omega), if_neg (by omega)]
            · rw [if_neg (by omega), if_pos (by omega)]
          · rw [if_neg h2, if_neg (c := size (w.map Prod.fst) + 2 ≤ p ∧ _) (by omega),
              if_neg (c := size (w.map Prod.fst) ≤ p ∧ _) (by omega)]
            by_cases h3 : p - size (w.map Prod.fst) < 6 + obj.length
            · rw [if_pos h3, if_pos (by omega)]
            · rw [if_neg h3, if_neg (by omega)]
      · refine ⟨[], ?_, fun p => by simp only [wearStep, ho, if_neg hroom]; rfl⟩
        simp only [opWrites, setPlan, h.rep.getIdx_miss hno, Res.bind_ok, descSize]
        rw [if_pos (by rw [hhead, h.len]; omega)]
        rfl

theorem trace_wear {cap : Nat} {s : Store} {w : List (Entry × Nat)} (h : Holds cap s (w.map Prod.fst)) (ops : List Op)
    (hops : ∀ op ∈ ops, op.Small) :
    ∃ ws, trace s ops = .ok ws ∧ ∀ p, wearAt (ops.foldl (wearStep cap) w) p = wearAt w p + ws.count p := by
  induction ops generalizing s w with
  | nil => exact ⟨[], rfl, fun p => rfl⟩
  | cons op ops ih =>
    obtain ⟨ws, h1, h2⟩ := opWrites_wear h op
    obtain ⟨s', o, h3, h4⟩ := h.step op (hops op (by simp))
    rw [← wearStep_fst] at h4
    obtain ⟨rest, h5, h6⟩ := ih h4 fun x hx => hops x (by simp [hx])
    refine ⟨ws ++ rest, by simp only [trace, h1, h3, h5, Res.bind_ok], fun p => ?_⟩
    rw [List.foldl_cons, h6, h2, List.count_append, Nat.add_assoc]

/-- **C103**: after any history on an initialised storage, length and name of every entry have been written once since the
initialisation, its object as often as it was stored, and the rest of the region never. -/
theorem wear_exact (m : List Byte) (hcap : CapOk m.length) (ops : List Op) (hops : ∀ op ∈ ops, op.Small) :
    ∃ s0 ws, create m true = .ok s0 ∧ trace s0 ops = .ok ws ∧
      (∀ p, ws.count p = wearAt (wearOf m.length ops) p) ∧
      (wearOf m.length ops).map Prod.fst = logOf m.length ops := by
  obtain ⟨s0, h0, hr⟩ := Rep.create_true m hcap
  have hh : Holds m.length s0 (([] : List (Entry × Nat)).map Prod.fst) := by
    refine ⟨?_, by simpa [size] using hr, by simp [size]⟩
    rw [hr.mem]; simp
  obtain ⟨ws, h1, h2⟩ := trace_wear hh ops hops
  refine ⟨s0, ws, h0, h1, fun p => ?_, wearOf_log _ _⟩
  have := h2 p
  simp only [wearAt, Nat.zero_add] at this
  exact this.symm

/-- **C103**: calls which only read, refused calls and opening the storage again write nothing. -/
theorem quiet_ops (m : List Byte) (hcap : CapOk m.length) (ops : List Op) (hops : ∀ op ∈ ops, op.Small) (op : Op)
    (hq : ∀ name obj, op = .set name obj → overwrite name obj (logOf m.length ops) = none ∧
      m.length < size (logOf m.length ops) + (6 + obj.length)) :
    ∃ s0 s outs, create m true = .ok s0 ∧ run s0 ops = .ok (s, outs) ∧ opWrites s op = .ok [] := by
  obtain ⟨s0, h0, hr⟩ := Rep.create_true m hcap
  have hh : Holds m.length s0 [] := by
    refine ⟨?_, by simpa [size] using hr, by simp [size]⟩
    rw [hr.mem]; simp
  obtain ⟨s, outs, h1, h2⟩ := hh.run ops hops
  refine ⟨s0, s, outs, h0, h1, ?_⟩
  cases op with
  | get => rfl
  | reopen => rfl
  | set name obj =>
    obtain ⟨ho, hroom⟩ := hq name obj rfl
    rcases overwrite_cases name obj (logOf m.length ops) with ⟨a, e, b, -, -, -, h⟩ | ⟨hn, -⟩
    · rw [h] at ho; cases ho
    · have hno : ∀ r ∈ (logOf m.length ops).map Entry.record, r.hits name obj.length = false := by
        intro r hr
        obtain ⟨x, hx, rfl⟩ := List.mem_map.1 hr
        rw [for_hits]; simpa using hn x hx
      have hh2 : Holds m.length s (logOf m.length ops) := h2
      simp only [opWrites, setPlan, hh2.rep.getIdx_miss hno, Res.bind_ok, descSize]
      rw [if_pos (by rw [hh2.image.2, hh2.len]; omega)]
      rfl

/-- Two records, the first stored three times; a refused record. -/
example : (List.range 24).map (wearAt (wearOf 24 [.set [97] [1, 2], .set [98] [3], .set [97] [4, 5], .get [97] 2, .reopen,
      .set [97] [4, 5], .set [99] [0, 0, 0, 0]])) =
    [1, 1, 1, 1, 1, 1, 3, 3, 1, 1, 1, 1, 1, 1, 1, 0, 0, 0, 0, 0, 0, 0, 0, 0] := by decide

example : (create (List.replicate 24 7) true).bind (fun s => trace s [.set [97] [1, 2], .set [97] [4, 5]]) =
    .ok [2, 3, 4, 5, 0, 1, 6, 7, 6, 7] := by decide

end Verif.Storage
