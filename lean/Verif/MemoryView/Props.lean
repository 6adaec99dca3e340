import Verif.MemoryView.Model

/-!
# C15, C16: sub-views

`mem` is the allocation.  A view is *valid* when it denotes part of it; its contents are observed
by iterating over it (`elems`).
-/
namespace Verif.MemoryView

/-- The view denotes a part of the allocation (an empty view may be null); its size is a `size_t`
value other than `npos`. -/
def Valid {α} (sizeBits : Nat) (mem : List α) (v : View) : Prop :=
  (match v.begin_ with
   | none => v.size_ = 0
   | some b => b + v.size_ ≤ mem.length) ∧ v.size_ < npos sizeBits

/-- `w` lies inside `v` (an empty `w` may lie anywhere). -/
def Inside (w v : View) : Prop :=
  w.size_ = 0 ∨ ∃ b c, v.begin_ = some b ∧ w.begin_ = some c ∧ b ≤ c ∧ c + w.size_ ≤ b + v.size_

theorem iterate_some {α} (mem : List α) (b n : Nat) (h : b + n ≤ mem.length) :
    iterate mem (some b) n = .ok ((mem.drop b).take n) := by
  induction n generalizing b with
  | zero => simp [iterate]
  | succ n ih =>
    have hb : b < mem.length := by omega
    have := ih (b + 1) (by omega)
    simp only [iterate, deref, ptrAdd, Option.map_some, List.getElem?_eq_getElem hb,
      Res.ofOption_some, Res.bind_ok, this]
    rw [List.drop_eq_getElem_cons hb, List.take_succ_cons]

private theorem riterate_some {α} (mem : List α) (b n : Nat) (h : b + n ≤ mem.length) :
    riterate mem (some (b + n)) n = .ok (((mem.drop b).take n).reverse) := by
  induction n with
  | zero => simp [riterate]
  | succ n ih =>
    have hb : b + n < mem.length := by omega
    have := ih (by omega)
    have e : b + (n + 1) - 1 = b + n := by omega
    simp only [riterate, deref, Option.map_some, e, List.getElem?_eq_getElem hb,
      Res.ofOption_some, Res.bind_ok, this]
    rw [List.take_add_one, List.getElem?_drop, List.getElem?_eq_getElem hb]
    simp

private theorem elems_valid {α} {sb : Nat} {mem : List α} {v : View} (h : Valid sb mem v) :
    v.elems mem = .ok ((mem.drop (v.begin_.getD 0)).take v.size_) := by
  unfold Valid at h; unfold View.elems
  rcases v with ⟨_ | b, s⟩
  · simp at h; simp [h.1, iterate]
  · simp at h; simp [iterate_some _ _ _ h.1]

/-- Every valid view can be iterated over without undefined behaviour and yields `size()` elements. -/
theorem elems_ok {α} {sb : Nat} {mem : List α} {v : View} (h : Valid sb mem v) :
    ∃ l, v.elems mem = .ok l ∧ l.length = v.size_ := by
  refine ⟨_, elems_valid h, ?_⟩
  unfold Valid at h
  rcases v with ⟨_ | b, s⟩
  · simp at h; simp [h.1]
  · simp at h; simp; omega

/-- **C15** (`subspan`): the sub-view is valid, lies inside the view and its elements are the
elements of the view from `offset` on, at most `count` of them (`npos` meaning all). -/
theorem subspan_spec {α} (sb : Nat) (mem : List α) (v : View) (h : Valid sb mem v)
    (offset count : Nat) (l : List α) (hl : v.elems mem = .ok l) :
    Valid sb mem (v.subspan sb offset count) ∧ Inside (v.subspan sb offset count) v ∧
    (v.subspan sb offset count).elems mem =
      .ok (if count = npos sb then l.drop offset else (l.drop offset).take count) := by
  obtain ⟨l', hl', hlen⟩ := elems_ok h
  obtain rfl : l' = l := by rw [hl] at hl'; exact (Res.ok.inj hl').symm
  rw [elems_valid h] at hl
  obtain rfl := Res.ok.inj hl
  have hv := h
  unfold Valid at h
  unfold View.subspan
  split
  · rename_i ho
    refine ⟨by simp [View.empty, Valid, npos] at *; omega, .inl rfl, ?_⟩
    have : ((mem.drop (v.begin_.getD 0)).take v.size_).drop offset = [] := by
      rw [List.drop_eq_nil_iff]; omega
    simp [View.empty, View.elems, iterate, this]
  · rename_i ho
    rcases v with ⟨_ | b, s⟩
    · simp at h; simp at ho; omega
    · simp only at h ho hlen
      have key : ∀ n, n ≤ s - offset →
          Valid sb mem ⟨ptrAdd (some b) offset, n⟩ ∧ Inside ⟨ptrAdd (some b) offset, n⟩ ⟨some b, s⟩ ∧
          View.elems mem ⟨ptrAdd (some b) offset, n⟩ =
            .ok ((((mem.drop b).take s).drop offset).take n) := by
        intro n hn
        refine ⟨by simp [Valid, ptrAdd]; omega, .inr ⟨b, b + offset, rfl, rfl, by omega, by simp; omega⟩, ?_⟩
        simp only [View.elems, ptrAdd, Option.map_some]
        rw [iterate_some _ _ _ (by omega), List.drop_take, List.drop_drop, List.take_take,
          Nat.min_eq_left hn]
      split
      · obtain ⟨h1, h2, h3⟩ := key (s - offset) (Nat.le_refl _)
        refine ⟨h1, h2, ?_⟩
        rw [h3]
        congr 1
        simp only [Option.getD_some] at *
        rw [List.take_of_length_le]
        simp; omega
      · obtain ⟨h1, h2, h3⟩ := key (min (s - offset) count) (Nat.min_le_left _ _)
        refine ⟨h1, h2, ?_⟩
        rw [h3]
        congr 1
        simp only [Option.getD_some] at *
        apply List.ext_getElem?
        intro i
        simp only [List.getElem?_take, List.getElem?_drop]
        by_cases c1 : i < count
        · by_cases c2 : i < s - offset <;> simp [c1] <;> intros <;> omega
        · simp [c1]; intros; omega

/-- **C15** (`first`): the first `count` elements, all of them if there are fewer. -/
theorem first_spec {α} (sb : Nat) (mem : List α) (v : View) (h : Valid sb mem v)
    (count : Nat) (l : List α) (hl : v.elems mem = .ok l) :
    Valid sb mem (v.first count) ∧ Inside (v.first count) v ∧
    (v.first count).elems mem = .ok (l.take count) := by
  obtain ⟨l', hl', hlen⟩ := elems_ok h
  obtain rfl : l' = l := by rw [hl] at hl'; exact (Res.ok.inj hl').symm
  unfold View.first
  have hv := h
  unfold Valid at h
  split
  · refine ⟨hv, ?_, ?_⟩
    · rcases v with ⟨_ | b, s⟩
      · left; exact h.1
      · right; exact ⟨b, b, rfl, rfl, by omega, by omega⟩
    · rw [hl, List.take_of_length_le (by omega)]
  · rename_i hc
    rcases v with ⟨_ | b, s⟩
    · simp at h; simp at hc; omega
    · simp only at h hc hlen
      have h1 : Valid sb mem ⟨some b, count⟩ := by simp [Valid]; omega
      refine ⟨h1, .inr ⟨b, b, rfl, rfl, by omega, by simp; omega⟩, ?_⟩
      rw [elems_valid hv] at hl
      obtain rfl := Res.ok.inj hl
      rw [elems_valid h1]
      simp only [Option.getD_some, List.take_take]
      rw [Nat.min_eq_left (by omega)]

/-- **C15** (`last`): the last `count` elements, all of them if there are fewer. -/
theorem last_spec {α} (sb : Nat) (mem : List α) (v : View) (h : Valid sb mem v)
    (count : Nat) (l : List α) (hl : v.elems mem = .ok l) :
    Valid sb mem (v.last count) ∧ Inside (v.last count) v ∧
    (v.last count).elems mem = .ok (l.drop (l.length - count)) := by
  obtain ⟨l', hl', hlen⟩ := elems_ok h
  obtain rfl : l' = l := by rw [hl] at hl'; exact (Res.ok.inj hl').symm
  unfold View.last
  have hv := h
  unfold Valid at h
  split
  · refine ⟨hv, ?_, ?_⟩
    · rcases v with ⟨_ | b, s⟩
      · left; exact h.1
      · right; exact ⟨b, b, rfl, rfl, by omega, by omega⟩
    · have : l'.length - count = 0 := by omega
      rw [hl, this]; simp
  · rename_i hc
    rcases v with ⟨_ | b, s⟩
    · simp at h; simp at hc; omega
    · simp only at h hc hlen
      have h1 : Valid sb mem ⟨ptrAdd (some b) (s - count), count⟩ := by simp [Valid, ptrAdd]; omega
      refine ⟨h1, .inr ⟨b, b + (s - count), rfl, rfl, by omega, by simp; omega⟩, ?_⟩
      rw [elems_valid hv] at hl
      obtain rfl := Res.ok.inj hl
      rw [elems_valid h1, hlen]
      simp only [ptrAdd, Option.map_some, Option.getD_some, List.drop_take, List.drop_drop]
      congr 2; omega

/-- Element access is access to the iteration sequence; out-of-range access inside a valid view is
detected against the elements (`v[i]` for `i < size()`). -/
theorem at_spec {α} (sb : Nat) (mem : List α) (v : View) (h : Valid sb mem v) (l : List α)
    (hl : v.elems mem = .ok l) (i : Nat) (hi : i < v.size_) :
    v.at mem i = Res.ofOption l[i]? ∧ (v.at mem i).isOk := by
  rw [elems_valid h] at hl
  obtain rfl := Res.ok.inj hl
  unfold Valid at h
  rcases v with ⟨_ | b, s⟩
  · simp at h; simp at hi; omega
  · simp only at h hi
    have hb : b + i < mem.length := by omega
    simp [View.at, deref, ptrAdd, hb, hi, Res.isOk]

/-- A default constructed view has no elements, and asking it for one is undefined. -/
theorem null_view {α} (mem : List α) (i : Nat) :
    View.empty.elems mem = .ok [] ∧ View.empty.relems mem = .ok [] ∧ View.empty.at mem i = .ub ∧
      View.empty.front mem = .ub ∧ View.empty.back mem = .ub := ⟨rfl, rfl, rfl, rfl, rfl⟩

/-- **C15**: the elements of a sub-view are those of the view shifted by the offset. -/
theorem subspan_at {α} (sb : Nat) (mem : List α) (v : View) (h : Valid sb mem v)
    (offset count i : Nat) (hi : i < (v.subspan sb offset count).size_) :
    (v.subspan sb offset count).at mem i = v.at mem (offset + i) ∧ offset + i < v.size_ := by
  unfold View.subspan at *
  unfold Valid at h
  rcases v with ⟨_ | b, s⟩
  · simp at h; simp [h.1, View.empty] at hi
  · simp only at h hi ⊢
    split at hi
    · simp [View.empty] at hi
    · rename_i ho
      rw [if_neg ho]
      split at hi
      · rename_i hc; rw [if_pos hc]; simp at hi
        exact ⟨by simp [View.at, ptrAdd, Nat.add_assoc], by omega⟩
      · rename_i hc; rw [if_neg hc]; simp at hi
        exact ⟨by simp [View.at, ptrAdd, Nat.add_assoc], by omega⟩

/-- Reverse iteration visits the elements in reverse order. -/
theorem relems_spec {α} (sb : Nat) (mem : List α) (v : View) (h : Valid sb mem v) (l : List α)
    (hl : v.elems mem = .ok l) : v.relems mem = .ok l.reverse := by
  rw [elems_valid h] at hl
  obtain rfl := Res.ok.inj hl
  unfold Valid at h
  rcases v with ⟨_ | b, s⟩
  · simp at h; simp [View.relems, h.1, riterate]
  · simp only at h
    simp [View.relems, ptrAdd, riterate_some _ _ _ h.1]

/-- `front()`/`back()` are the first and last element of a non-empty view. -/
theorem front_back_spec {α} (sb : Nat) (mem : List α) (v : View) (h : Valid sb mem v) (l : List α)
    (hl : v.elems mem = .ok l) (hne : v.isEmpty = false) :
    v.front mem = Res.ofOption l.head? ∧ v.back mem = Res.ofOption l.getLast? ∧ l ≠ [] := by
  obtain ⟨l', hl', hlen⟩ := elems_ok h
  obtain rfl : l' = l := by rw [hl] at hl'; exact (Res.ok.inj hl').symm
  have hs : 0 < v.size_ := by simp [View.isEmpty] at hne; omega
  have h0 := (at_spec sb mem v h l' hl 0 hs).1
  have h1 := (at_spec sb mem v h l' hl (v.size_ - 1) (by omega)).1
  refine ⟨?_, ?_, ?_⟩
  · rw [List.head?_eq_getElem?, ← h0]
    rcases v with ⟨_ | b, s⟩ <;> simp [View.front, View.at, ptrAdd]
  · rw [List.getLast?_eq_getElem?, hlen, ← h1]
    unfold View.back View.at
    rw [if_neg (by omega)]
  · intro hnil; simp [hnil] at hlen; omega

/-- **C16**: `first(n)` and `subspan(n)` partition the view. -/
theorem first_subspan_partition {α} (sb : Nat) (mem : List α) (v : View) (h : Valid sb mem v)
    (n : Nat) (l : List α) (hl : v.elems mem = .ok l) :
    ∃ a b, (v.first n).elems mem = .ok a ∧ (v.subspan sb n (npos sb)).elems mem = .ok b ∧
      a ++ b = l := by
  refine ⟨_, _, (first_spec sb mem v h n l hl).2.2, (subspan_spec sb mem v h n _ l hl).2.2, ?_⟩
  simp

/-- **C16**: `last(n)` shows the same elements as `subspan(size() - n)`. -/
theorem last_eq_subspan {α} (sb : Nat) (mem : List α) (v : View) (h : Valid sb mem v)
    (n : Nat) (l : List α) (hl : v.elems mem = .ok l) :
    (v.last n).elems mem = (v.subspan sb (v.size_ - n) (npos sb)).elems mem := by
  obtain ⟨l', hl', hlen⟩ := elems_ok h
  obtain rfl : l' = l := by rw [hl] at hl'; exact (Res.ok.inj hl').symm
  rw [(last_spec sb mem v h n l' hl).2.2, (subspan_spec sb mem v h _ _ l' hl).2.2, hlen]
  simp

/-- A view made from an array shows the array. -/
theorem ofArray_elems {α} (sb : Nat) (ar : List α) (h : ar.length < npos sb) :
    Valid sb ar (View.ofArray ar) ∧ (View.ofArray ar).elems ar = .ok ar ∧
    (View.ofArray ar).size_ = ar.length := by
  have hv : Valid sb ar (View.ofArray ar) := by simp [Valid, View.ofArray, h]
  refine ⟨hv, ?_, rfl⟩
  rw [elems_valid hv]; simp [View.ofArray]

/-- A view made from two pointers of an allocation shows the elements between them. -/
theorem ofPtrs_elems {α} (sb : Nat) (mem : List α) (b e : Nat) (hbe : b ≤ e) (he : e ≤ mem.length)
    (h : mem.length < npos sb) :
    Valid sb mem (View.ofPtrs b e) ∧
    (View.ofPtrs b e).elems mem = .ok ((mem.drop b).take (e - b)) := by
  have hv : Valid sb mem (View.ofPtrs b e) := by simp [Valid, View.ofPtrs]; omega
  refine ⟨hv, ?_⟩
  rw [elems_valid hv]; simp [View.ofPtrs]

/-- The default argument is not a special case for the caller: for every count the elements are those from `offset` on,
at most `count` of them; the largest `size_t` therefore means all of them. -/
theorem subspan_take {α} (sb : Nat) (mem : List α) (v : View) (h : Valid sb mem v) (offset count : Nat) (l : List α)
    (hl : v.elems mem = .ok l) :
    (v.subspan sb offset count).elems mem = .ok ((l.drop offset).take count) ∧
    (count + 1 = 2 ^ sb → (v.subspan sb offset count).elems mem = .ok (l.drop offset)) := by
  obtain ⟨-, -, h3⟩ := subspan_spec sb mem v h offset count l hl
  obtain ⟨l', hl', hlen⟩ := elems_ok h
  obtain rfl : l' = l := by rw [hl] at hl'; exact (Res.ok.inj hl').symm
  have hs : v.size_ ≤ npos sb := by
    unfold Valid at h
    rcases v with ⟨_ | b, s⟩ <;> simp at h ⊢ <;> omega
  rw [h3]
  refine ⟨?_, fun hmax => ?_⟩
  · split
    · rename_i hn
      rw [List.take_of_length_le]
      rw [List.length_drop, hlen]; omega
    · rfl
  · rw [if_pos (by unfold npos; omega)]

/-- **C16**: a sub-view of a sub-view is one sub-view (offsets add, counts are cut), whatever the counts, the default
argument included. -/
theorem subspan_subspan {α} (sb : Nat) (mem : List α) (v : View) (h : Valid sb mem v)
    (o c o' c' : Nat) (l : List α) (hl : v.elems mem = .ok l) :
    ((v.subspan sb o c).subspan sb o' c').elems mem =
      (v.subspan sb (o + o') (min (c - o') c')).elems mem := by
  obtain ⟨h1, -, -⟩ := subspan_spec sb mem v h o c l hl
  rw [(subspan_take sb mem _ h1 o' c' _ (subspan_take sb mem v h o c l hl).1).1,
    (subspan_take sb mem v h (o + o') _ l hl).1]
  congr 1
  apply List.ext_getElem?
  intro i
  simp only [List.getElem?_take, List.getElem?_drop]
  by_cases c1 : i < c' <;> by_cases c2 : o' + i < c <;> simp [c1, c2, Nat.add_assoc] <;> intros <;> omega

/-- `size_bytes` is the number of bytes of the elements, when that is a `size_t`. -/
theorem sizeBytes_exact (sb sizeofT : Nat) (v : View) (h : v.size_ * sizeofT < 2 ^ sb) :
    v.sizeBytes sb sizeofT = v.size_ * sizeofT := Nat.mod_eq_of_lt h

-- concrete instances (the cases of MemoryViewTest.cpp, and a wrapped count)
example : Valid 32 [1, 2, 3, 4, 5] ⟨some 1, 3⟩ := by simp [Valid, npos]
example : (View.subspan 32 ⟨some 1, 3⟩ 1 7).elems [1, 2, 3, 4, 5] = .ok [3, 4] := by decide
example : (View.subspan 32 ⟨some 0, 5⟩ 6 1) = View.empty := by decide
example : View.sizeBytes 32 4 ⟨some 0, 5⟩ = 20 := by decide
example : (View.last ⟨some 0, 5⟩ 3).elems [1, 2, 3, 4, 5] = .ok [3, 4, 5] := by decide
example : (View.first ⟨some 0, 5⟩ 6).relems [1, 2, 3, 4, 5] = .ok [5, 4, 3, 2, 1] := by decide

end Verif.MemoryView
