import Verif.MemoryView.Props
import Mathlib.Tactic.Ring
/-!
# C71: byte views alias the elements (MemoryView.h:85-94)

An element of type `T` is represented by `sizeof(T)` bytes, its object representation `enc`; the allocation of
elements `mem` is the byte allocation `mem.flatMap enc`.
-/
namespace Verif.MemoryView

/-- MemoryView.h:85-88 `as_bytes()` and 90-94 `as_writable_bytes()`: the pointer to element `b` is, as a byte pointer,
`b * sizeof(T)`. -/
def View.asBytes (sizeBits sizeofT : Nat) (v : View) : View :=
  ⟨v.begin_.map (· * sizeofT), v.sizeBytes sizeBits sizeofT⟩

/-- Write through a view, `view[i] = x`. -/
def View.write {α} (mem : List α) (v : View) (i : Nat) (x : α) : Res (List α) :=
  match ptrAdd v.begin_ i with
  | none => .ub
  | some p => if p < mem.length then .ok (mem.set p x) else .ub

private theorem flatMap_length {α} {n : Nat} (enc : α → List Byte) (he : ∀ a, (enc a).length = n) (l : List α) :
    (l.flatMap enc).length = l.length * n := by
  induction l with
  | nil => simp
  | cons a l ih => rw [List.flatMap_cons, List.length_append, ih, he, List.length_cons]; ring

private theorem flatMap_drop {α} {n : Nat} (enc : α → List Byte) (he : ∀ a, (enc a).length = n) (l : List α) (b : Nat) :
    (l.flatMap enc).drop (b * n) = (l.drop b).flatMap enc := by
  induction b generalizing l with
  | zero => simp
  | succ b ih =>
    cases l with
    | nil => simp
    | cons a l =>
      rw [List.flatMap_cons, List.drop_succ_cons, ← ih l, show (b + 1) * n = (enc a).length + b * n by rw [he]; ring,
        List.drop_append, List.drop_eq_nil_of_le (by omega), Nat.add_sub_cancel_left, List.nil_append]

private theorem flatMap_take {α} {n : Nat} (enc : α → List Byte) (he : ∀ a, (enc a).length = n) (l : List α) (b : Nat) :
    (l.flatMap enc).take (b * n) = (l.take b).flatMap enc := by
  induction b generalizing l with
  | zero => simp
  | succ b ih =>
    cases l with
    | nil => simp
    | cons a l =>
      rw [List.flatMap_cons, List.take_succ_cons, List.flatMap_cons, ← ih l,
        show (b + 1) * n = (enc a).length + b * n by rw [he]; ring, List.take_length_add_append]

/-- **C71**: the bytes of a view are the object representations of its elements, in order; nothing else is reachable
through them.  The byte size must be representable. -/
theorem asBytes_elems {α} (sb n : Nat) (enc : α → List Byte) (he : ∀ a, (enc a).length = n) (mem : List α) (v : View)
    (h : Valid sb mem v) (hb : v.size_ * n < npos sb) (l : List α) (hl : v.elems mem = .ok l) :
    Valid sb (mem.flatMap enc) (v.asBytes sb n) ∧ (v.asBytes sb n).elems (mem.flatMap enc) = .ok (l.flatMap enc) ∧
      (v.asBytes sb n).size_ = l.length * n := by
  have hsz : v.sizeBytes sb n = v.size_ * n := sizeBytes_exact sb n v (by unfold npos at hb; omega)
  rcases v with ⟨_ | b, s⟩
  · have hs : s = 0 := h.1
    subst hs
    simp only [View.elems, iterate] at hl
    cases hl
    refine ⟨⟨by simp [View.asBytes, View.sizeBytes], by rw [View.asBytes, hsz]; exact hb⟩, ?_, ?_⟩
    · simp [View.elems, View.asBytes, View.sizeBytes, iterate]
    · simp [View.asBytes, View.sizeBytes]
  · have hs : b + s ≤ mem.length := h.1
    have hlen := flatMap_length enc he mem
    have hmul : b * n + s * n ≤ mem.length * n := by
      rw [← Nat.add_mul]; exact Nat.mul_le_mul_right _ hs
    have e1 : l = (mem.drop b).take s := by
      have h2 : (View.mk (some b) s).elems mem = .ok ((mem.drop b).take s) := by
        exact iterate_some mem b s hs
      rw [h2] at hl
      exact (Res.ok.inj hl).symm
    have hval : Valid sb (mem.flatMap enc) (View.asBytes sb n ⟨some b, s⟩) := by
      refine ⟨?_, ?_⟩
      · simp only [View.asBytes, Option.map_some, hsz, hlen]; exact hmul
      · simp only [View.asBytes, hsz]; exact hb
    refine ⟨hval, ?_, ?_⟩
    · simp only [View.elems, View.asBytes, Option.map_some, hsz]
      rw [iterate_some _ _ _ (by rw [hlen]; exact hmul), flatMap_drop enc he, flatMap_take enc he, e1]
    · simp only [View.asBytes, hsz, e1, List.length_take, List.length_drop]
      rw [Nat.min_eq_left (by omega)]

/-- **C71**: writing byte `k` of the byte view changes byte `k % sizeof(T)` of element `k / sizeof(T)` of the view and
nothing else. -/
theorem asBytes_write {α} (sb n : Nat) (enc : α → List Byte) (he : ∀ a, (enc a).length = n) (mem : List α)
    (b s : Nat) (h : Valid sb mem ⟨some b, s⟩) (hb : s * n < npos sb) (k : Nat) (hk : k < s * n) (x : Byte)
    (a a' : α) (ha : View.at mem ⟨some b, s⟩ (k / n) = .ok a) (ha' : enc a' = (enc a).set (k % n) x) :
    k / n < s ∧
    ((View.mk (some b) s).asBytes sb n).write (mem.flatMap enc) k x = .ok ((mem.set (b + k / n) a').flatMap enc) := by
  have hn : 0 < n := by
    rcases Nat.eq_zero_or_pos n with h0 | h0
    · subst h0; simp at hk
    · exact h0
  have hq : k / n < s := by rw [Nat.div_lt_iff_lt_mul hn]; exact hk
  have hs : b + s ≤ mem.length := h.1
  have hlen := flatMap_length enc he mem
  have hmul : b * n + s * n ≤ mem.length * n := by
    rw [← Nat.add_mul]; exact Nat.mul_le_mul_right _ hs
  have hlt : b + k / n < mem.length := by omega
  have hma : mem[b + k / n] = a := by
    simp only [View.at, ptrAdd, Option.map_some, deref, List.getElem?_eq_getElem hlt, Res.ofOption_some] at ha
    exact Res.ok.inj ha
  refine ⟨hq, ?_⟩
  simp only [View.write, View.asBytes, ptrAdd, Option.map_some]
  rw [if_pos (by omega)]
  congr 1
  have hpos : b * n + k = (b + k / n) * n + k % n := by
    have := Nat.div_add_mod k n
    rw [Nat.add_mul, Nat.mul_comm (k / n) n]; omega
  have hmod : k % n < n := Nat.mod_lt _ hn
  rw [hpos]
  generalize b + k / n = q at *
  have hsplit : mem = mem.take q ++ mem[q] :: mem.drop (q + 1) := by
    rw [← List.drop_eq_getElem_cons hlt, List.take_append_drop]
  have hset : mem.set q a' = mem.take q ++ a' :: mem.drop (q + 1) := List.set_eq_take_append_cons_drop .. ▸ by simp [hlt]
  have htl : ((mem.take q).flatMap enc).length = q * n := by
    rw [flatMap_length enc he, List.length_take, Nat.min_eq_left (by omega)]
  rw [hset]
  conv => lhs; arg 1; rw [hsplit]
  rw [List.flatMap_append, List.flatMap_cons, List.flatMap_append, List.flatMap_cons, hma, ha',
    List.set_append_right _ _ (by omega), htl, show q * n + k % n - q * n = k % n by omega,
    List.set_append_left _ _ (by rw [he]; exact hmod)]

/-- **C71**: writing through a view, whatever its element type, succeeds exactly if the place is in the allocation; it
changes that place only, and is undefined otherwise. -/
theorem write_ok_iff {α} (mem : List α) (v : View) (i : Nat) (x : α) :
    (∀ m, v.write mem i x = .ok m ↔ ∃ b, v.begin_ = some b ∧ b + i < mem.length ∧ m.length = mem.length ∧
      ∀ k, m[k]? = if k = b + i then some x else mem[k]?) ∧
    (v.write mem i x = .ub ↔ ∀ b, v.begin_ = some b → mem.length ≤ b + i) := by
  rcases v with ⟨_ | b, s⟩
  · simp [View.write, ptrAdd]
  · simp only [View.write, ptrAdd, Option.map_some, Option.some.injEq, exists_eq_left', forall_eq']
    by_cases h : b + i < mem.length
    · rw [if_pos h]
      refine ⟨fun m => ?_, by simp; omega⟩
      rw [Res.ok.injEq]
      constructor
      · rintro rfl
        refine ⟨h, by simp, fun k => ?_⟩
        rw [List.getElem?_set]
        by_cases hk : k = b + i
        · subst hk; simp [h]
        · rw [if_neg (Ne.symm hk), if_neg hk]
      · rintro ⟨-, -, h2⟩
        apply List.ext_getElem?
        intro k
        rw [h2, List.getElem?_set]
        by_cases hk : k = b + i
        · subst hk; simp [h]
        · rw [if_neg (Ne.symm hk), if_neg hk]
    · rw [if_neg h]
      simp [h]
      omega

/-- 32-bit little-endian integers. -/
def enc32 (v : BitVec 32) : List Byte := [v.truncate 8, (v >>> 8).truncate 8, (v >>> 16).truncate 8, (v >>> 24).truncate 8]

/-- The bytes are those of the number, the lowest first. -/
theorem enc32_value (v : BitVec 32) : (enc32 v).foldr (fun b n => b.toNat + 256 * n) 0 = v.toNat := by
  have := v.isLt
  simp [enc32, Nat.shiftRight_eq_div_pow]
  omega

-- MemoryViewTest.cpp:132-148
example : (∀ v, (enc32 v).length = 4) ∧ Valid 64 [1#32, 2, 3, 4, 5] ⟨some 0, 5⟩ ∧
    ((View.ofArray [1#32, 2, 3, 4, 5]).asBytes 64 4).size_ = 20 ∧
    View.at ([1#32, 2, 3, 4, 5].flatMap enc32) ((View.ofArray [1#32, 2, 3, 4, 5]).asBytes 64 4) 0 = .ok 1 ∧
    View.at ([1#32, 2, 3, 4, 5].flatMap enc32) ((View.ofArray [1#32, 2, 3, 4, 5]).asBytes 64 4) 4 = .ok 2 ∧
    ((View.ofArray [1#32, 2, 3, 4, 5]).asBytes 64 4).write ([1#32, 2, 3, 4, 5].flatMap enc32) 4 10 =
      .ok ([1#32, 10, 3, 4, 5].flatMap enc32) :=
  ⟨fun _ => rfl, by simp [Valid, npos], by decide, by decide, by decide, by decide⟩

/-- **C71** needs the byte size to be representable: with a 32-bit `size_t`, 2^30 four-byte elements have
`size_bytes() = 0`. -/
theorem sizeBytes_wraps : (View.mk (some 0) (2 ^ 30)).asBytes 32 4 = ⟨some 0, 0⟩ := by decide

end Verif.MemoryView
