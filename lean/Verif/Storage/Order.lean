import Verif.Storage.Props
import Mathlib.Data.List.Perm.Basic
/-!
# C106: what fits, and that the order does not matter
-/
namespace Verif.Storage

/-- Names up to trailing NULs and sizes are pairwise different. -/
def Different (objs : List (List Byte × List Byte)) : Prop :=
  objs.Pairwise fun a b => ¬ (stripNul a.1 = stripNul b.1 ∧ a.2.length = b.2.length)

/-- Room taken by objects: six bytes and their size each. -/
def room (objs : List (List Byte × List Byte)) : Nat := (objs.map fun o => 6 + o.2.length).sum

/-- Storing the objects one after the other. -/
def stores (objs : List (List Byte × List Byte)) : List Op := objs.map fun o => .set o.1 o.2

/-- Short names, objects of less than 65530 bytes. -/
def NormalObjs (objs : List (List Byte × List Byte)) : Prop := ∀ o ∈ objs, o.1.length ≤ 4 ∧ 6 + o.2.length < 65536

theorem run_append (cap : Nat) (a : AMap) (xs ys : List Op) :
    a.run cap (xs ++ ys) = (((a.run cap xs).1.run cap ys).1, (a.run cap xs).2 ++ ((a.run cap xs).1.run cap ys).2) := by
  induction xs generalizing a with
  | nil => rfl
  | cons x xs ih => simp only [List.cons_append, AMap.run, ih]

/-- The value stored after storing objects. -/
def stored (objs : List (List Byte × List Byte)) (k : List Byte) (n : Nat) : Option (List Byte) :=
  (objs.find? fun o => stripNul o.1 == k && o.2.length == n).map (·.2)

theorem stored_perm {objs objs' : List (List Byte × List Byte)} (hp : objs.Perm objs') (hd : Different objs) (k : List Byte) (n : Nat) :
    stored objs k n = stored objs' k n := by
  induction hp with
  | nil => rfl
  | cons x h ih =>
    unfold stored at ih ⊢
    rw [List.find?_cons, List.find?_cons]
    split
    · rfl
    · exact ih (List.pairwise_cons.1 hd).2
  | swap x y l =>
    unfold stored
    simp only [List.find?_cons]
    have := (List.pairwise_cons.1 hd).1 x (List.mem_cons_self ..)
    by_cases hx : (stripNul x.1 == k && x.2.length == n) = true
    · by_cases hy : (stripNul y.1 == k && y.2.length == n) = true
      · simp only [Bool.and_eq_true, beq_iff_eq] at hx hy
        exact absurd ⟨hy.1.trans hx.1.symm, hy.2.trans hx.2.symm⟩ this
      · rw [hx, Bool.eq_false_iff.2 hy]
    · rw [Bool.eq_false_iff.2 hx]
  | trans h1 h2 ih1 ih2 =>
    rw [ih1 hd]
    exact ih2 ((h1.pairwise_iff (fun h h' => h ⟨h'.1.symm, h'.2.symm⟩)).1 hd)

theorem room_perm {objs objs' : List (List Byte × List Byte)} (hp : objs.Perm objs') : room objs = room objs' :=
  (hp.map _).sum_nat

/-- The answers are all "stored" exactly if the sizes of the objects, with six bytes for each, fit; then they are stored. -/
theorem map_stores (cap : Nat) (objs : List (List Byte × List Byte)) (hd : Different objs) (a : AMap)
    (ha : ∀ o ∈ objs, a.get o.1 o.2.length = none) :
    ((∀ o ∈ (a.run cap (stores objs)).2, o = .flag true) ↔ objs = [] ∨ a.used + room objs ≤ cap) ∧
      (a.used + room objs ≤ cap → (a.run cap (stores objs)).1 =
        ⟨fun k n => (stored objs k n).or (a.val k n), a.used + room objs⟩) := by
  induction objs generalizing a with
  | nil => exact ⟨by simp [stores, AMap.run], fun _ => by simp [stores, AMap.run, room, stored]⟩
  | cons o objs ih =>
    obtain ⟨h1, h2⟩ := List.pairwise_cons.1 hd
    have hn := ha o (List.mem_cons_self ..)
    have hset : a.set cap o.1 o.2 = if a.used + 6 + o.2.length ≤ cap then (⟨a.put o.1 o.2, a.used + 6 + o.2.length⟩, true)
        else (a, false) := by
      unfold AMap.set
      rw [hn]
      rfl
    have e : room (o :: objs) = 6 + o.2.length + room objs := rfl
    have hstep : a.run cap (stores (o :: objs)) = (((a.set cap o.1 o.2).1.run cap (stores objs)).1,
        .flag (a.set cap o.1 o.2).2 :: ((a.set cap o.1 o.2).1.run cap (stores objs)).2) := rfl
    rw [hstep, e, hset]
    by_cases hf : a.used + 6 + o.2.length ≤ cap
    · rw [if_pos hf]
      obtain ⟨i1, i2⟩ := ih h2 ⟨a.put o.1 o.2, a.used + 6 + o.2.length⟩ (fun p hp => by
        have := ha p (List.mem_cons_of_mem _ hp)
        unfold AMap.get AMap.put at *
        simp only
        rw [if_neg (fun h => h1 p hp ⟨h.1.symm, h.2.symm⟩)]
        exact this)
      simp only at i1 i2 ⊢
      constructor
      · simp only [List.mem_cons, forall_eq_or_imp, true_and, i1, reduceCtorEq, false_or]
        constructor
        · rintro (rfl | h)
          · simp only [room, List.map_nil, List.sum_nil]; omega
          · omega
        · intro h; right; omega
      · intro h
        rw [i2 (by omega)]
        congr 1
        · funext k n
          unfold stored AMap.put
          rw [List.find?_cons]
          by_cases hk : k = stripNul o.1 ∧ n = o.2.length
          · obtain ⟨rfl, rfl⟩ := hk
            have : (objs.find? fun p => stripNul p.1 == stripNul o.1 && p.2.length == o.2.length) = none := by
              rw [List.find?_eq_none]
              intro p hp hc
              simp only [Bool.and_eq_true, beq_iff_eq] at hc
              exact h1 p hp ⟨hc.1.symm, hc.2.symm⟩
            rw [this]
            simp
          · have : (stripNul o.1 == k && o.2.length == n) = false := by
              rw [Bool.eq_false_iff]
              intro hc
              simp only [Bool.and_eq_true, beq_iff_eq] at hc
              exact hk ⟨hc.1.symm, hc.2.symm⟩
            rw [this, if_neg hk]
        · omega
    · rw [if_neg hf]
      constructor
      · simp only [List.mem_cons, forall_eq_or_imp, reduceCtorEq, false_or]
        constructor
        · rintro ⟨h, -⟩; cases h
        · intro h; omega
      · intro h; omega

theorem normal_stores {objs : List (List Byte × List Byte)} (h : NormalObjs objs) : ∀ op ∈ stores objs, op.Normal := by
  intro op hop
  obtain ⟨o, ho, rfl⟩ := List.mem_map.1 hop
  exact h o ho

/-- **C106**: different objects can all be stored exactly if their sizes and six bytes for each fit. -/
theorem all_stored_iff (m : List Byte) (hcap : CapOk m.length) (objs : List (List Byte × List Byte))
    (hn : NormalObjs objs) (hd : Different objs) :
    ∃ s s' answers, create m true = .ok s ∧ run s (stores objs) = .ok (s', answers) ∧
      ((∀ o ∈ answers, o = .flag true) ↔ room objs ≤ m.length) := by
  obtain ⟨s, s', h1, h2⟩ := storage_refines_map m hcap (stores objs) (normal_stores hn)
  refine ⟨s, s', _, h1, h2, ?_⟩
  obtain ⟨h, -⟩ := map_stores m.length objs hd AMap.empty (fun _ _ => rfl)
  rw [h]
  have e : AMap.empty.used = 0 := rfl
  rw [e, Nat.zero_add]
  constructor
  · rintro (rfl | h)
    · exact Nat.zero_le _
    · exact h
  · exact .inr

/-- **C106**: if they fit, it does not matter in which order they are stored: everything done later gives the same
answers. -/
theorem order_irrelevant (m m' : List Byte) (hcap : CapOk m.length) (hm : m'.length = m.length)
    (objs objs' : List (List Byte × List Byte)) (hn : NormalObjs objs) (hd : Different objs) (hp : objs.Perm objs')
    (hr : room objs ≤ m.length) (ops : List Op) (hops : ∀ op ∈ ops, op.Normal) :
    ∃ s s' t t' flags flags' answers, create m true = .ok s ∧ create m' true = .ok t ∧
      run s (stores objs ++ ops) = .ok (s', flags ++ answers) ∧ run t (stores objs' ++ ops) = .ok (t', flags' ++ answers) ∧
      flags.length = objs.length ∧ flags'.length = objs.length ∧ (∀ o ∈ flags ++ flags', o = .flag true) := by
  have hn' : NormalObjs objs' := fun o ho => hn o (hp.mem_iff.2 ho)
  have hd' : Different objs' := (hp.pairwise_iff (fun h h' => h ⟨h'.1.symm, h'.2.symm⟩)).1 hd
  have hall : ∀ {objs : List (List Byte × List Byte)}, NormalObjs objs → ∀ op ∈ stores objs ++ ops, op.Normal := by
    intro objs h op hop
    rcases List.mem_append.1 hop with h' | h'
    · exact normal_stores h op h'
    · exact hops op h'
  obtain ⟨s, s', h1, h2⟩ := storage_refines_map m hcap (stores objs ++ ops) (hall hn)
  obtain ⟨t, t', g1, g2⟩ := storage_refines_map m' (hm ▸ hcap) (stores objs' ++ ops) (hall hn')
  rw [run_append] at h2 g2
  rw [hm] at g2
  obtain ⟨a1, a2⟩ := map_stores m.length objs hd AMap.empty (fun _ _ => rfl)
  obtain ⟨b1, b2⟩ := map_stores m.length objs' hd' AMap.empty (fun _ _ => rfl)
  have e : AMap.empty.used = 0 := rfl
  rw [e, Nat.zero_add] at a1 a2 b1 b2
  rw [← room_perm hp] at b1 b2
  have heq : (AMap.empty.run m.length (stores objs')).1 = (AMap.empty.run m.length (stores objs)).1 := by
    rw [a2 hr, b2 hr]
    congr 1
    funext k n
    rw [stored_perm hp hd]
  rw [heq] at g2
  have hlen : ∀ (cap : Nat) (a : AMap) (xs : List Op), (a.run cap xs).2.length = xs.length := by
    intro cap a xs
    induction xs generalizing a with
    | nil => rfl
    | cons x xs ih => simp only [AMap.run, List.length_cons, ih]
  refine ⟨s, s', t, t', _, _, _, h1, g1, h2, g2, ?_, ?_, ?_⟩
  · rw [hlen]; simp [stores]
  · rw [hlen, stores, List.length_map, hp.length_eq]
  · intro o ho
    rcases List.mem_append.1 ho with h | h
    · exact a1.2 (.inr hr) o h
    · exact b1.2 (.inr hr) o h

/-- **C106**: storing what is stored already is acknowledged and changes nothing, not a single byte – in whatever state. -/
theorem store_again (s : Store) (name obj : List Byte) (h : get s name obj.length = .ok (some obj)) :
    set s name obj = .ok (s, true) := by
  unfold get at h
  rw [Res.bind_eq_ok] at h
  obtain ⟨i, h1, h⟩ := h
  cases i with
  | none => cases h
  | some pos =>
    simp only at h
    rw [Res.bind_eq_ok] at h
    obtain ⟨b, -, h⟩ := h
    cases b with
    | false => cases h
    | true =>
      rw [if_pos rfl, Res.bind_eq_ok] at h
      obtain ⟨d, h2, h⟩ := h
      injection h with h
      injection h with h
      subst h
      unfold readN at h2
      split at h2
      · rename_i hb
        injection h2 with h2
        unfold set setPlan
        rw [h1]
        simp only [Res.bind_ok]
        have hs : s.mem = s.mem.take (pos + descSize) ++ (d ++ (s.mem.drop (pos + descSize)).drop d.length) := by
          conv => lhs; rw [← List.take_append_drop (pos + descSize) s.mem]
          congr 1
          conv => lhs; rw [← List.take_append_drop d.length (s.mem.drop (pos + descSize)), h2]
        rw [applyWrites_at hs (by rw [List.length_take]; omega) rfl, ← hs]
        rfl
      · cases h2

theorem Rep.unique {s t : Store} {recs : List Rec} {rest : List Byte} (h : Rep s recs rest) (h' : Rep t recs rest) : s = t := by
  obtain ⟨m, f⟩ := s
  obtain ⟨m', f'⟩ := t
  have h1 := h.mem
  have h2 := h.head
  have h3 := h'.mem
  have h4 := h'.head
  simp only at h1 h2 h3 h4
  rw [h1, h2, h3, h4]

/-- **C106**: the last value is all that remains of several values stored under the same name: the region is byte for byte
what storing just the last one gives. -/
theorem last_store_wins {s : Store} (h : Reachable s) (name obj obj' : List Byte) (hn : name.length ≤ 4)
    (hs : 6 + obj.length < 65536) (hl : obj'.length = obj.length) :
    ∃ s1 s2 b, set s name obj = .ok (s1, b) ∧ set s1 name obj' = .ok (s2, b) ∧ set s name obj' = .ok (s2, b) := by
  obtain ⟨recs, k, hr⟩ := h.rep
  rcases firstHit recs name obj.length with ⟨a, r, b, rfl, hno, hit⟩ | hno
  · obtain ⟨s1, k1, k2, -⟩ := hr.set_hit hno hit
    have hit' : (⟨r.idx, obj⟩ : Rec).hits name obj'.length = true := by
      unfold Rec.hits at hit ⊢
      rw [decide_eq_true_eq] at hit ⊢
      exact ⟨hit.1, hit.2.1, hl.symm⟩
    obtain ⟨s2, k3, k4, -⟩ := k2.set_hit (by rw [hl]; exact hno) hit'
    obtain ⟨s3, k5, k6, -⟩ := hr.set_hit (obj := obj') (by rw [hl]; exact hno) (by rw [hl]; exact hit)
    exact ⟨s1, s2, true, k1, k3, by rw [k5, k4.unique k6]⟩
  · by_cases hf : s.freeHead + 6 + obj.length ≤ s.mem.length
    · obtain ⟨s1, k1, k2, -⟩ := hr.set_new hno hs hf
      have hit' : (⟨storedIdx name, obj⟩ : Rec).hits name obj'.length = true := by
        unfold Rec.hits
        simp [hl, hn]
      obtain ⟨s2, k3, k4, -⟩ := k2.set_hit (a := recs) (b := []) (by rw [hl]; exact hno) hit'
      obtain ⟨s3, k5, k6, -⟩ := hr.set_new (obj := obj') (by rw [hl]; exact hno) (by omega) (by omega)
      rw [hl] at k6
      exact ⟨s1, s2, true, k1, k3, by rw [k5, k4.unique k6]⟩
    · have k1 := hr.set_full hno (by omega)
      have k2 := hr.set_full (obj := obj') (by rw [hl]; exact hno) (by omega)
      exact ⟨s, s, false, k1, k2, k2⟩

/-- Three objects of which two share their name, 24 bytes: any order will do for a region of 24 bytes.  In a region of 16
bytes the order decides which of them are kept. -/
example : Different [([1], [7, 8]), ([1], [7, 8, 9]), ([2, 0], [5])] ∧ NormalObjs [([1], [7, 8]), ([1], [7, 8, 9]), ([2, 0], [5])] ∧
    room [([1], [7, 8]), ([1], [7, 8, 9]), ([2, 0], [5])] = 24 ∧
    (AMap.empty.run 16 (stores [([1], [7, 8]), ([1], [7, 8, 9]), ([2, 0], [5])])).2 = [.flag true, .flag false, .flag true] ∧
    (AMap.empty.run 16 (stores [([1], [7, 8, 9]), ([1], [7, 8]), ([2, 0], [5])])).2 = [.flag true, .flag false, .flag true] ∧
    (AMap.empty.run 16 (stores [([2, 0], [5]), ([1], [7, 8, 9]), ([1], [7, 8])])).2 = [.flag true, .flag true, .flag false] := by
  refine ⟨by unfold Different; decide, ?_, by decide, by decide, by decide, by decide⟩
  intro o ho
  simp only [List.mem_cons, List.not_mem_nil, or_false] at ho
  rcases ho with rfl | rfl | rfl <;> decide

/-- An object which is stored again, and another value stored over it. -/
example : get ⟨[8, 0, 1, 0, 0, 0, 7, 8, 0, 0], 8⟩ [1] 2 = .ok (some [7, 8]) ∧
    set ⟨[8, 0, 1, 0, 0, 0, 7, 8, 0, 0], 8⟩ [1] [7, 8] = .ok (⟨[8, 0, 1, 0, 0, 0, 7, 8, 0, 0], 8⟩, true) ∧
    set ⟨[8, 0, 1, 0, 0, 0, 7, 8, 0, 0], 8⟩ [1] [9, 9] = .ok (⟨[8, 0, 1, 0, 0, 0, 9, 9, 0, 0], 8⟩, true) := by
  decide

end Verif.Storage
