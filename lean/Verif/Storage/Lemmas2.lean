import Verif.Storage.Lemmas
/-!
# Names, abstraction, partial writes
-/
namespace Verif.Storage

/-! ## Names up to trailing NULs -/

theorem stripNul_append_replicate (l : List Byte) (k : Nat) :
    stripNul (l ++ List.replicate k 0) = stripNul l := by
  unfold stripNul
  rw [List.reverse_append, List.reverse_replicate]
  congr 1
  induction k with
  | zero => simp
  | succ k ih => simp [List.replicate_succ]

theorem eq_stripNul_append (l : List Byte) :
    ∃ k, l = stripNul l ++ List.replicate k 0 := by
  unfold stripNul
  refine ⟨(l.reverse.takeWhile (· == 0)).length, ?_⟩
  have h : l.reverse.takeWhile (· == 0) =
      List.replicate (l.reverse.takeWhile (· == 0)).length 0 := by
    rw [List.eq_replicate_iff]
    refine ⟨rfl, fun b hb => ?_⟩
    have := List.all_takeWhile (p := (· == (0 : Byte))) (l := l.reverse)
    rw [List.all_eq_true] at this
    simpa using this b hb
  have h2 : l = (l.reverse.dropWhile (· == 0)).reverse ++ (l.reverse.takeWhile (· == 0)).reverse := by
    rw [← List.reverse_append, List.takeWhile_append_dropWhile, List.reverse_reverse]
  conv => lhs; rw [h2, h, List.reverse_replicate]

theorem storedIdx_eq_strip (l : List Byte) (h : l.length ≤ 4) :
    storedIdx l = stripNul l ++ List.replicate (4 - (stripNul l).length) 0 := by
  unfold storedIdx
  rw [List.take_of_length_le h]
  obtain ⟨k, hk⟩ := eq_stripNul_append l
  have hl := congrArg List.length hk
  rw [List.length_append, List.length_replicate] at hl
  conv => lhs; rw [hk]
  rw [List.append_assoc, List.replicate_append_replicate]
  congr 2
  rw [List.length_append, List.length_replicate]
  omega

theorem stripNul_storedIdx (l : List Byte) (h : l.length ≤ 4) : stripNul (storedIdx l) = stripNul l := by
  unfold storedIdx
  rw [List.take_of_length_le h, stripNul_append_replicate]

theorem storedIdx_eq_iff {a b : List Byte} (ha : a.length ≤ 4) (hb : b.length ≤ 4) :
    storedIdx a = storedIdx b ↔ stripNul a = stripNul b := by
  constructor
  · intro h
    rw [← stripNul_storedIdx a ha, h, stripNul_storedIdx b hb]
  · intro h
    rw [storedIdx_eq_strip a ha, storedIdx_eq_strip b hb, h]

/-! ## First match as a function -/

/-- The data of the first matching record. -/
def lookup (recs : List Rec) (name : List Byte) (n : Nat) : Option (List Byte) :=
  (recs.find? (·.hits name n)).map (·.data)

theorem lookup_hit {a : List Rec} {r : Rec} {b : List Rec} {name : List Byte} {n : Nat}
    (hno : ∀ r ∈ a, r.hits name n = false) (hit : r.hits name n = true) :
    lookup (a ++ r :: b) name n = some r.data := by
  unfold lookup
  rw [List.find?_append, List.find?_eq_none.2 (by simpa using hno)]
  simp [hit]

theorem lookup_miss {recs : List Rec} {name : List Byte} {n : Nat}
    (hno : ∀ r ∈ recs, r.hits name n = false) : lookup recs name n = none := by
  unfold lookup
  rw [List.find?_eq_none.2 (by simpa using hno)]
  rfl

theorem Rep.get_eq {s : Store} {recs : List Rec} {rest : List Byte} (h : Rep s recs rest)
    (name : List Byte) (n : Nat) : get s name n = .ok (lookup recs name n) := by
  rcases firstHit recs name n with ⟨a, r, b, rfl, hno, hit⟩ | hno
  · rw [h.get_hit hno hit, lookup_hit hno hit]
  · rw [h.get_miss hno, lookup_miss hno]

/-- Replacing the data of the first match changes exactly this entry. -/
theorem lookup_replace {a : List Rec} {r : Rec} {b : List Rec} {name obj : List Byte}
    (hno : ∀ r ∈ a, r.hits name obj.length = false) (hit : r.hits name obj.length = true)
    (name' : List Byte) (n' : Nat) :
    lookup (a ++ ⟨r.idx, obj⟩ :: b) name' n' =
      if name'.length ≤ 4 ∧ storedIdx name' = storedIdx name ∧ n' = obj.length then some obj
      else lookup (a ++ r :: b) name' n' := by
  have hh := hit
  simp only [Rec.hits, decide_eq_true_eq] at hh
  split
  · rename_i hc
    have e : ∀ x : Rec, x.hits name' n' = x.hits name obj.length := by
      intro x; simp [Rec.hits, hc.1, hh.1, hc.2.1, hc.2.2]
    refine lookup_hit (r := ⟨r.idx, obj⟩) (by simpa [e] using hno) ?_
    rw [e]; simp [Rec.hits, hh.1, hh.2.1]
  · rename_i hc
    have e1 : Rec.hits ⟨r.idx, obj⟩ name' n' = false := by
      simp only [Rec.hits, decide_eq_false_iff_not, hh.2.1]
      rintro ⟨h1, h2, h3⟩
      exact hc ⟨h1, h2.symm, h3.symm⟩
    have e2 : Rec.hits r name' n' = false := by
      simp only [Rec.hits, decide_eq_false_iff_not, hh.2.1, hh.2.2]
      rintro ⟨h1, h2, h3⟩
      exact hc ⟨h1, h2.symm, h3.symm⟩
    unfold lookup
    simp [List.find?_append, e1, e2]

theorem lookup_append (recs : List Rec) (x : Rec) (name' : List Byte) (n' : Nat) :
    lookup (recs ++ [x]) name' n' =
      match lookup recs name' n' with
      | some v => some v
      | none => if x.hits name' n' then some x.data else none := by
  unfold lookup
  rw [List.find?_append]
  cases h : recs.find? (·.hits name' n') with
  | some v => simp
  | none => by_cases hx : x.hits name' n' <;> simp [hx]

/-- A match against a longer free head (used after a crash). -/
theorem get_hit_ge {m : List Byte} {fh : Nat} {a : List Rec} {r : Rec} {rest : List Byte}
    (hm : m = encs a ++ (r.enc ++ rest)) (hfh : (encs a ++ r.enc).length ≤ fh) (hlt : fh < 2 ^ 32)
    (hga : ∀ r ∈ a, r.Good) (hg : r.Good) {name : List Byte} {n : Nat}
    (hno : ∀ r ∈ a, r.hits name n = false) (hit : r.hits name n = true) :
    get ⟨m, fh⟩ name n = .ok (some r.data) := by
  subst hm
  have hl := encs_length_ge a hga
  have hl2 := Rec.enc_length hg
  rw [List.length_append] at hfh
  unfold get getIdx
  simp only
  rw [getIdxLoop_hit a r hga hg rest name n fh (fh + 1) (by simpa using hfh) hlt hno hit (by omega)]
  simp only [Res.bind_ok]
  rw [nodeMatches_enc hg, hit]
  simp only [Res.bind_ok, if_true]
  have hn : r.data.length = n := by simp [Rec.hits] at hit; exact hit.2.2
  have := readN_mid (encs a ++ le16 (6 + r.data.length) ++ r.idx) r.data rest
  simp only [List.length_append, le16_length, hg.1, hn, List.append_assoc] at this
  simp only [Rec.enc, List.append_assoc, descSize, hn]
  rw [this]; rfl

/-! ## Any subset of writes into a window -/

theorem applyWrites_window (m : List Byte) (ws : List (Nat × Byte)) (p k : Nat)
    (hk : p + k ≤ m.length) (hw : ∀ w ∈ ws, p ≤ w.1 ∧ w.1 < p + k) :
    ∃ m', applyWrites m ws = .ok m' ∧ m'.length = m.length ∧
      (∀ i, (i < p ∨ p + k ≤ i) → m'[i]? = m[i]?) ∧
      (∀ i, m'[i]? = m[i]? ∨ ∃ b, (i, b) ∈ ws ∧ m'[i]? = some b) := by
  induction ws generalizing m with
  | nil => exact ⟨m, rfl, rfl, fun _ _ => rfl, fun _ => .inl rfl⟩
  | cons w ws ih =>
    obtain ⟨q, b⟩ := w
    simp only [List.mem_cons, forall_eq_or_imp] at hw
    obtain ⟨m', h1, h2, h3, h4⟩ := ih (m.set q b) (by simpa using hk) hw.2
    refine ⟨m', ?_, by simpa using h2, ?_, ?_⟩
    · rw [applyWrites, if_pos (by omega), h1]
    · intro i hi
      rw [h3 i hi, List.getElem?_set_ne (by omega)]
    · intro i
      rcases h4 i with h | ⟨b', hb', h⟩
      · by_cases hq : q = i
        · right
          refine ⟨b, by simp [hq], ?_⟩
          rw [h, ← hq, List.getElem?_set_self (by omega)]
        · left; rw [h, List.getElem?_set_ne hq]
      · right; exact ⟨b', by simp [hb'], h⟩

theorem mem_writesAt {p : Nat} {bs : List Byte} {w : Nat × Byte} (h : w ∈ writesAt p bs) :
    p ≤ w.1 ∧ w.1 < p + bs.length ∧ bs[w.1 - p]? = some w.2 := by
  unfold writesAt at h
  rw [List.mem_mapIdx] at h
  obtain ⟨i, hi, rfl⟩ := h
  simp [hi]

/-- A region that agrees outside of the window `[p, p+k)` with `a ++ mid ++ c`. -/
theorem window_decomp {m m' a mid c : List Byte} (hm : m = a ++ (mid ++ c))
    (hl : m'.length = m.length)
    (h : ∀ i, (i < a.length ∨ a.length + mid.length ≤ i) → m'[i]? = m[i]?) :
    ∃ mid', m' = a ++ (mid' ++ c) ∧ mid'.length = mid.length ∧
      ∀ i, i < mid.length → mid'[i]? = m'[a.length + i]? := by
  subst hm
  simp only [List.length_append] at hl
  refine ⟨(m'.drop a.length).take mid.length, ?_, by simp; omega, ?_⟩
  · have e1 : m'.take a.length = a := by
      apply List.ext_getElem?
      intro i
      rw [List.getElem?_take]
      split
      · rename_i hi
        rw [h i (.inl hi), List.getElem?_append_left hi]
      · rw [List.getElem?_eq_none (by omega)]
    have e2 : m'.drop (a.length + mid.length) = c := by
      apply List.ext_getElem?
      intro i
      rw [List.getElem?_drop, h _ (.inr (by omega)), List.getElem?_append_right (by omega),
        List.getElem?_append_right (by omega)]
      congr 1; omega
    conv => lhs; rw [← List.take_append_drop a.length m', e1]
    congr 1
    conv => lhs; rw [← List.take_append_drop mid.length (m'.drop a.length)]
    rw [List.drop_drop, e2]
  · intro i hi
    rw [List.getElem?_take, if_pos hi, List.getElem?_drop]

/-- The writes of a new record, performed completely. -/
theorem applyWrites_new (a rest name obj : List Byte) (h : 6 + obj.length ≤ rest.length) :
    applyWrites (a ++ rest) (writesAt (a.length + 2) (storedIdx name) ++
      writesAt a.length (le16 (6 + obj.length)) ++ writesAt (a.length + 6) obj) =
      .ok (a ++ (Rec.enc ⟨storedIdx name, obj⟩ ++ rest.drop (6 + obj.length))) := by
  obtain ⟨r1, r2, r3, r4, hr, l1, l2, l3, h4⟩ : ∃ r1 r2 r3 r4 : List Byte, rest = r1 ++ (r2 ++ (r3 ++ r4)) ∧
      r1.length = 2 ∧ r2.length = 4 ∧ r3.length = obj.length ∧ r4 = rest.drop (6 + obj.length) := by
    refine ⟨rest.take 2, (rest.drop 2).take 4, (rest.drop 6).take obj.length,
      rest.drop (6 + obj.length), ?_, by simp; omega, by simp; omega, by simp; omega, rfl⟩
    rw [← List.drop_drop, List.take_append_drop]
    rw [show rest.drop 6 = (rest.drop 2).drop 4 by simp, List.take_append_drop,
      List.take_append_drop]
  simp only [applyWrites_append]
  rw [applyWrites_at (a := a ++ r1) (old := r2) (c := r3 ++ r4) (by rw [hr]; simp)
    (by simp [l1]) (by simp [storedIdx_length, l2])]
  simp only [Res.bind_ok]
  rw [applyWrites_at (a := a) (old := r1) (c := storedIdx name ++ (r3 ++ r4)) (by simp)
    rfl (by simp [le16_length, l1])]
  simp only [Res.bind_ok]
  rw [applyWrites_at (a := a ++ le16 (6 + obj.length) ++ storedIdx name) (old := r3) (c := r4)
    (by simp) (by simp [storedIdx_length, le16_length]) l3, h4]
  simp [Rec.enc]

/-! ## Free space after a crash -/

/-- All bytes but those of a descriptor's name are zero. -/
def Clean (rest : List Byte) : Prop := ∀ i, i < 2 ∨ 6 ≤ i → i < rest.length → rest[i]? = some 0

theorem clean_zeros (k : Nat) : Clean (List.replicate k 0) := by
  intro i _ hi
  rw [List.length_replicate] at hi
  exact List.getElem?_replicate_of_lt hi

theorem clean_intro (g : List Byte) (hg : g.length = 4) (k : Nat) :
    Clean ([0, 0] ++ (g ++ List.replicate k 0)) := by
  intro i hi hl
  simp only [List.length_append, List.length_replicate, List.length_cons, List.length_nil, hg] at hl
  rcases hi with hi | hi
  · obtain rfl | rfl : i = 0 ∨ i = 1 := by omega
    · rfl
    · rfl
  · rw [List.getElem?_append_right (by simp; omega), List.getElem?_append_right (by simp; omega),
      List.getElem?_replicate_of_lt (by simp; omega)]

theorem Clean.drop {rest : List Byte} (h : Clean rest) (n : Nat) (hn : 6 ≤ n) :
    rest.drop n = List.replicate (rest.length - n) 0 := by
  apply List.ext_getElem?
  intro i
  rw [List.getElem?_drop]
  by_cases hi : n + i < rest.length
  · rw [h _ (by omega) hi, List.getElem?_replicate_of_lt (by omega)]
  · rw [List.getElem?_eq_none (by omega), List.getElem?_eq_none (by simp; omega)]

theorem Clean.decomp {rest : List Byte} (h : Clean rest) (hl : 6 ≤ rest.length) :
    ∃ g : List Byte, g.length = 4 ∧ rest = [0, 0] ++ (g ++ List.replicate (rest.length - 6) 0) := by
  refine ⟨(rest.drop 2).take 4, by simp; omega, ?_⟩
  rw [← h.drop 6 (Nat.le_refl _)]
  have h2 : rest.take 2 = [0, 0] := by
    apply List.ext_getElem?
    intro i
    by_cases hi : i < 2
    · rw [List.getElem?_take_of_lt hi, h _ (by omega) (by omega)]
      obtain rfl | rfl : i = 0 ∨ i = 1 := by omega
      · rfl
      · rfl
    · rw [List.getElem?_eq_none (by simp; omega), List.getElem?_eq_none (by simp; omega)]
  rw [← h2, show rest.drop 6 = (rest.drop 2).drop 4 by simp, List.take_append_drop,
    List.take_append_drop]

theorem Clean.stops {rest : List Byte} (h : Clean rest) : Stops rest := by
  by_cases hl : rest.length < 6
  · exact .inl hl
  · right
    refine ⟨0, ?_, .inl rfl⟩
    unfold nodeSize
    rw [h 0 (by omega) (by omega), h 1 (by omega) (by omega)]
    rfl

end Verif.Storage
