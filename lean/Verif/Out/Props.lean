import Verif.Out.Lemmas
/-!
# C17-C20, C22, C23: text output
-/
namespace Verif.Out

/-! ## Single operations -/

theorem addChar_spec {o : BOut} (h : o.WF) (c : Byte) :
    ∃ o', o.addChar c = .ok o' ∧ Appended o o' ([c].take (o.capacity - o.size)) := by
  unfold BOut.addChar BOut.WF at *
  split
  · rename_i hp
    obtain ⟨m, h1, h2⟩ := appended_write (o := o) (c := c) (by omega)
    rw [h1]
    refine ⟨_, rfl, ?_⟩
    rw [List.take_of_length_le (by simp [BOut.capacity, BOut.size]; omega)]
    exact h2
  · rename_i hp
    refine ⟨o, rfl, ?_⟩
    have : o.capacity - o.size = 0 := by simp [BOut.capacity, BOut.size]; omega
    rw [this]
    exact .refl h

theorem putStr_spec {o : BOut} (h : o.WF) (s : List Byte) :
    ∃ o', o.putStr s = .ok o' ∧ Appended o o' (s.take (o.capacity - o.size)) := by
  unfold BOut.putStr BOut.WF at *
  have hl : (s.take (min s.length (o.mem.length - o.pos))).length = min s.length (o.mem.length - o.pos) := by
    rw [List.length_take]; omega
  have he : s.take (min s.length (o.mem.length - o.pos)) = s.take (o.capacity - o.size) := by
    by_cases hc : s.length ≤ o.mem.length - o.pos
    · rw [Nat.min_eq_left hc, List.take_of_length_le (Nat.le_refl _), List.take_of_length_le hc]
    · rw [Nat.min_eq_right (by omega)]
  unfold writeAll
  simp only
  rw [if_pos (by omega)]
  refine ⟨_, rfl, ?_⟩
  have := appended_splice (o := o) (s := s.take (min s.length (o.mem.length - o.pos))) (by omega)
  rw [hl] at this
  rw [← he, hl]
  exact this

theorem putCstr_spec {o : BOut} (h : o.WF) (s rest : List Byte) (hs : ∀ c ∈ s, c ≠ 0) :
    ∃ o', o.putCstr (s ++ 0 :: rest) = .ok o' ∧ Appended o o' (s.take (o.capacity - o.size)) := by
  unfold BOut.putCstr BOut.WF at *
  induction s generalizing o with
  | nil =>
    simp only [List.nil_append, append]
    exact ⟨o, by simp, by simpa using Appended.refl h⟩
  | cons c s ih =>
    simp only [List.mem_cons, forall_eq_or_imp] at hs
    simp only [List.cons_append, append]
    by_cases hp : o.pos = o.mem.length
    · rw [if_neg (by simp [hp])]
      refine ⟨o, rfl, ?_⟩
      have : o.capacity - o.size = 0 := by simp [BOut.capacity, BOut.size]; omega
      rw [this]
      exact .refl h
    · rw [if_pos ⟨hs.1, hp⟩]
      obtain ⟨m, h1, h2⟩ := appended_write (o := o) (c := c) (by omega)
      rw [h1]
      simp only [Res.bind_ok]
      obtain ⟨o', h3, h4⟩ := ih (o := { o with mem := m, pos := o.pos + 1 }) h2.wf hs.2
      refine ⟨o', h3, ?_⟩
      have h5 := h2.trans h4
      have hk : o.capacity - o.size = (m.length - (o.pos + 1)) + 1 := by
        have := h2.len
        simp only at this
        simp only [BOut.capacity, BOut.size]; omega
      rw [hk, List.take_succ_cons]
      exact h5

/-! ## C17 -/

/-- Pieces of text. -/
inductive Piece where
  | str (s : List Byte)
  /-- a C string; the memory holds `s`, a NUL and whatever follows -/
  | cstr (s rest : List Byte)
  | char (c : Byte)
deriving Repr

/-- The characters of a piece. -/
def Piece.chars : Piece → List Byte
  | .str s => s
  | .cstr s _ => s
  | .char c => [c]

/-- C strings contain no NUL before their terminator. -/
def Piece.Valid : Piece → Prop
  | .cstr s _ => ∀ c ∈ s, c ≠ 0
  | _ => True

/-- Insert a piece. -/
def BOut.put (o : BOut) : Piece → Res BOut
  | .str s => o.putStr s
  | .cstr s rest => o.putCstr (s ++ 0 :: rest)
  | .char c => o.addChar c

def BOut.putList (o : BOut) : List Piece → Res BOut
  | [] => .ok o
  | p :: ps => do
    let o' ← o.put p
    o'.putList ps

private theorem put_spec {o : BOut} (h : o.WF) (p : Piece) (hp : p.Valid) :
    ∃ o', o.put p = .ok o' ∧ Appended o o' (p.chars.take (o.capacity - o.size)) := by
  cases p with
  | str s => exact putStr_spec h s
  | cstr s rest => exact putCstr_spec h s rest hp
  | char c => exact addChar_spec h c

/-- **C17**: any sequence of string and character insertions yields the concatenation of the pieces
cut at the capacity, without undefined behaviour; `size()` is its length. -/
theorem text_is_truncated_concatenation (o : BOut) (h : o.WF) (ps : List Piece)
    (hps : ∀ p ∈ ps, p.Valid) :
    ∃ o', o.putList ps = .ok o' ∧
      o'.text = (o.text ++ ps.flatMap Piece.chars).take o.capacity ∧
      o'.size = o'.text.length ∧ o'.size ≤ o'.capacity ∧ o'.capacity = o.capacity := by
  induction ps generalizing o with
  | nil =>
    refine ⟨o, rfl, ?_, (text_length h).symm, h, rfl⟩
    rw [List.flatMap_nil, List.append_nil, List.take_of_length_le]
    rw [text_length h]; exact h
  | cons p ps ih =>
    simp only [List.mem_cons, forall_eq_or_imp] at hps
    obtain ⟨o1, h1, h2⟩ := put_spec h p hps.1
    obtain ⟨o2, h3, h4, h5, h6, h7⟩ := ih o1 h2.wf hps.2
    have hcap : o1.capacity = o.capacity := h2.len
    refine ⟨o2, by simp [BOut.putList, h1, h3], ?_, h5, h6, h7.trans hcap⟩
    have htl := text_length h
    have hwf : o.pos ≤ o.mem.length := h
    rw [h4, h2.text, hcap, List.flatMap_cons]
    simp only [BOut.capacity, BOut.size]
    rw [List.append_assoc, List.take_append, List.take_append (i := o.mem.length), htl]
    congr 1
    by_cases hc : p.chars.length ≤ o.mem.length - o.pos
    · rw [List.take_of_length_le hc]
    · rw [List.take_append_of_le_length (by rw [List.length_take]; omega),
        List.take_append_of_le_length (by omega), List.take_take]
      simp

example : (BOut.new (List.replicate 6 0)).WF ∧
    (BOut.new (List.replicate 6 0)).putList [.str [65, 66], .cstr [67, 68, 69] [1], .char 70, .char 71] =
      .ok ⟨[65, 66, 67, 68, 69, 70], 6, 0, 0, 32⟩ := by decide

/-! ## C18 -/

/-- Exact effect of inserting an integer when no width is pending. -/
theorem putInt_spec (junk : Nat → Byte) {o : BOut} (h : o.WF) (hw : o.integerWidth ≤ 0) (n : Int) :
    ∃ o', o.putInt junk n = .ok o' ∧
      Appended o o' (if o.size + (intDec n).length ≤ o.capacity then intDec n else []) := by
  unfold BOut.putInt toCharsInt BOut.size BOut.capacity
  split
  · rename_i hfit
    unfold writeAll
    rw [if_pos hfit]
    simp only [Res.bind_ok, if_true]
    unfold BOut.adjustPos
    rw [if_neg (by simp only; omega)]
    exact ⟨_, rfl, appended_splice hfit⟩
  · rename_i hfit
    simp only [Res.bind_ok, Bool.false_eq_true, if_false]
    refine ⟨_, rfl, ?_⟩
    refine ⟨by simp [scramble], by simp, by simpa [scramble] using h, ?_, rfl, rfl, rfl⟩
    simp only [BOut.text, List.append_nil]
    apply List.ext_getElem?
    intro i
    simp only [List.getElem?_take, scramble, List.getElem?_mapIdx]
    split
    · rename_i hi
      cases o.mem[i]? with
      | none => rfl
      | some b => simp; omega
    · rfl

/-- **C18**: without a pending width an integer is printed completely — as the one canonical decimal
text that parses back to it — or, if this does not fit, the text stays as it was. -/
theorem int_printed_exactly (junk : Nat → Byte) (o : BOut) (h : o.WF) (hw : o.integerWidth ≤ 0) (n : Int) :
    ∃ o' s, o.putInt junk n = .ok o' ∧ parseInt s = some n ∧ Canonical s ∧
      o'.text = (if o.size + s.length ≤ o.capacity then o.text ++ s else o.text) ∧
      o'.size = o'.text.length ∧ o'.size ≤ o'.capacity ∧ o'.capacity = o.capacity := by
  obtain ⟨o', h1, h2⟩ := putInt_spec junk h hw n
  refine ⟨o', intDec n, h1, intDec_parse n, intDec_canonical n, ?_, (text_length h2.wf).symm, h2.wf, h2.len⟩
  rw [h2.text]
  split <;> simp

/-- The canonical decimal text of an integer is unique, so the previous theorem determines the
output. -/
theorem canonical_text_unique (s t : List Byte) (n : Int) (hs : Canonical s) (ht : Canonical t)
    (ps : parseInt s = some n) (pt : parseInt t = some n) : s = t := by
  rw [canonical_unique s n hs ps, canonical_unique t n ht pt]

example : (BOut.new (List.replicate 4 0)).putInt (fun _ => 7) (-120) =
    .ok ⟨[45, 49, 50, 48], 4, 0, 0, 32⟩ ∧
    (BOut.new (List.replicate 3 0)).putInt (fun _ => 7) (-120) = .ok ⟨[7, 7, 7], 0, 0, 0, 32⟩ := by
  decide

/-! ## C19 -/

private theorem padLoop_spec (o : BOut) (c : Byte) (k : Nat) (h : o.pos + k ≤ o.mem.length) :
    ∃ m, padLoop o.mem o.pos c k = .ok m ∧
      m = o.mem.take o.pos ++ List.replicate k c ++ o.mem.drop (o.pos + k) := by
  induction k generalizing o with
  | zero => exact ⟨_, rfl, by simp⟩
  | succ k ih =>
    obtain ⟨m1, h1, h2⟩ := appended_write (o := o) (c := c) (by omega)
    have hl := h2.len
    simp only at hl
    obtain ⟨m2, h3, h4⟩ := ih { o with mem := m1, pos := o.pos + 1 } (by simp only; omega)
    refine ⟨m2, by simp only [padLoop, h1, Res.bind_ok]; exact h3, ?_⟩
    simp only at h4
    rw [h4]
    rw [write_eq _ _ _ (by omega)] at h1
    cases h1
    have ht : (o.mem.take o.pos ++ [c]).length = o.pos + 1 := by simp; omega
    rw [← ht, List.take_left]
    rw [List.drop_append, List.drop_eq_nil_of_le (by omega)]
    simp only [List.nil_append, List.drop_drop, ht]
    simp only [List.replicate_succ, List.append_assoc, List.cons_append, List.nil_append]
    congr 3
    congr 1
    omega

/-- **C19**, the part that holds: when the digits fit the width and the width fits the remaining
space, the integer is right-justified in exactly `w` columns with the fill character on the left,
and the width is used up.  Missing: more digits than columns (`width_drops_digits`) and more columns
than space (`width_out_of_bounds`), where the property is false. -/
theorem width_pads_left_partial (junk : Nat → Byte) (o : BOut) (h : o.WF) (n : Int) (w : Nat)
    (hw : o.integerWidth = w) (hfit : (intDec n).length ≤ w) (hroom : o.size + w ≤ o.capacity) :
    ∃ o' s, o.putInt junk n = .ok o' ∧ parseInt s = some n ∧ Canonical s ∧ s.length ≤ w ∧
      o'.text = o.text ++ List.replicate (w - s.length) o.fillChar ++ s ∧
      o'.integerWidth = 0 ∧ o'.fillChar = o.fillChar ∧ o'.capacity = o.capacity ∧
      o'.size ≤ o'.capacity := by
  have hd := intDec_length_pos n
  simp only [BOut.size, BOut.capacity] at hroom
  unfold BOut.putInt toCharsInt writeAll
  rw [if_pos (by omega), if_pos (by omega)]
  simp only [Res.bind_ok, if_true]
  have hA := appended_splice (o := o) (s := intDec n) (by omega)
  unfold BOut.adjustPos
  rw [if_pos (by simp only; omega)]
  unfold BOut.addPadding
  simp only [hw, Int.toNat_natCast]
  generalize hm1 : o.mem.take o.pos ++ intDec n ++ o.mem.drop (o.pos + (intDec n).length) = m1 at hA ⊢
  have hl1 : m1.length = o.mem.length := by rw [← hm1]; exact splice_length _ _ _ (by omega)
  have htl := text_length h
  have hsrc : (m1.drop o.pos).take (intDec n).length = intDec n := by
    have : (o.mem.take o.pos).length = o.pos := by rw [List.length_take]; omega
    rw [← hm1, List.append_assoc]
    conv => lhs; arg 2; arg 1; rw [← this]
    rw [List.drop_left, List.take_left]
  have hpre : m1.take o.pos = o.mem.take o.pos := by
    have : (o.mem.take o.pos).length = o.pos := by rw [List.length_take]; omega
    rw [← hm1, List.append_assoc]
    conv => lhs; arg 1; rw [← this]
    rw [List.take_left]
  rw [show o.pos + (intDec n).length - o.pos = (intDec n).length by omega]
  by_cases heq : (intDec n).length = w
  · rw [if_neg (by omega)]
    simp only [Res.bind_ok]
    refine ⟨_, intDec n, rfl, intDec_parse n, intDec_canonical n, hfit, ?_, rfl, rfl, ?_, ?_⟩
    · have := hA.text
      simp only [BOut.text] at this ⊢
      rw [← heq, this]; simp
    · exact hl1
    · simp only [BOut.size, BOut.capacity, hl1]; omega
  · rw [if_pos (by omega)]
    unfold memmove writeAll
    rw [if_pos (by omega), hsrc, if_pos (by omega)]
    simp only [Res.bind_ok]
    generalize hm2 : m1.take (o.pos + w - (intDec n).length) ++ intDec n ++
      m1.drop (o.pos + w - (intDec n).length + (intDec n).length) = m2
    have hl2 : m2.length = o.mem.length := by
      rw [← hm2, splice_length _ _ _ (by omega), hl1]
    obtain ⟨m3, h3, h4⟩ := padLoop_spec { o with mem := m2 } o.fillChar (w - (intDec n).length)
      (by simp only; omega)
    simp only at h3 h4
    rw [h3]
    simp only [Res.bind_ok]
    have hl3 : m3.length = o.mem.length := by
      rw [h4]
      have := splice_length m2 (List.replicate (w - (intDec n).length) o.fillChar) o.pos (by simp; omega)
      simp only [List.length_replicate] at this
      rw [this, hl2]
    refine ⟨_, intDec n, rfl, intDec_parse n, intDec_canonical n, hfit, ?_, rfl, rfl, hl3, ?_⟩
    · simp only [BOut.text]
      rw [h4]
      -- the pieces of m2
      have hm2pre : m2.take o.pos = o.mem.take o.pos := by
        rw [← hm2, List.append_assoc, List.take_append_of_le_length (by rw [List.length_take]; omega),
          List.take_take, Nat.min_eq_left (by omega), hpre]
      have hm2post : m2.drop (o.pos + (w - (intDec n).length)) =
          intDec n ++ m1.drop (o.pos + w - (intDec n).length + (intDec n).length) := by
        have hlt : (m1.take (o.pos + w - (intDec n).length)).length = o.pos + (w - (intDec n).length) := by
          rw [List.length_take]; omega
        rw [← hm2, List.append_assoc, ← hlt, List.drop_left]
      rw [hm2pre, hm2post]
      have : (o.mem.take o.pos ++ List.replicate (w - (intDec n).length) o.fillChar ++ intDec n).length =
          o.pos + w := by
        simp; omega
      rw [← List.append_assoc, ← this, List.take_left]
    · simp only [BOut.size, BOut.capacity, hl3]; exact hroom

/-- **C19** for a caller who streams `fill(c)` and `width(w)` before the integer, in either order. -/
theorem fill_width_int_partial (junk : Nat → Byte) (o : BOut) (h : o.WF) (n : Int) (w : Nat) (c : Byte)
    (hfit : (intDec n).length ≤ w) (hroom : o.size + w ≤ o.capacity) :
    ∃ o' s, ((o.setFill c).setWidth w).putInt junk n = .ok o' ∧ ((o.setWidth w).setFill c).putInt junk n = .ok o' ∧
      parseInt s = some n ∧ Canonical s ∧ s.length ≤ w ∧
      o'.text = o.text ++ List.replicate (w - s.length) c ++ s ∧ o'.integerWidth = 0 ∧ o'.fillChar = c := by
  obtain ⟨o', s, h1, h2, h3, h4, h5, h6, h7, -, -⟩ :=
    width_pads_left_partial junk ((o.setFill c).setWidth w) h n w rfl hfit hroom
  exact ⟨o', s, h1, h1, h2, h3, h4, h5, h6, h7⟩

example : (((BOut.new (List.replicate 8 0)).setFill 48).setWidth 6).putInt (fun _ => 0) (-42) =
      .ok ⟨[48, 48, 48, 45, 52, 50, 0, 0], 6, 0, 0, 48⟩ := by decide

/-- The manipulators change nothing but their setting. -/
theorem manipulators_only_set (o : BOut) (w p : Int) (c : Byte) :
    (o.setWidth w).text = o.text ∧ (o.setFill c).text = o.text ∧ (o.setPrecision p).text = o.text ∧
    (o.setWidth w).capacity = o.capacity ∧ (o.setFill c).capacity = o.capacity ∧
    (o.setPrecision p).capacity = o.capacity ∧
    (o.setWidth w).fillChar = o.fillChar ∧ (o.setWidth w).floatPrecision = o.floatPrecision ∧
    (o.setFill c).integerWidth = o.integerWidth ∧ (o.setFill c).floatPrecision = o.floatPrecision ∧
    (o.setPrecision p).integerWidth = o.integerWidth ∧ (o.setPrecision p).fillChar = o.fillChar :=
  ⟨rfl, rfl, rfl, rfl, rfl, rfl, rfl, rfl, rfl, rfl, rfl, rfl⟩

example : (BOut.new (List.replicate 8 0)).WF ∧
    ((BOut.new (List.replicate 8 0)).setWidth 6).putInt (fun _ => 0) 42 =
      .ok ⟨[32, 32, 32, 32, 52, 50, 0, 0], 6, 0, 0, 32⟩ := by decide

/-- **C19** is false when the integer has more digits than columns: only the first `w` characters
are kept — for every such integer, width and buffer with room for the digits. -/
theorem width_drops_digits (junk : Nat → Byte) (o : BOut) (n : Int) (w : Nat)
    (hw : o.integerWidth = w) (hw0 : 0 < w) (hlong : w < (intDec n).length)
    (hroom : o.size + (intDec n).length ≤ o.capacity) :
    ∃ o', o.putInt junk n = .ok o' ∧ o'.text = o.text ++ (intDec n).take w ∧
      o'.text ≠ o.text ++ intDec n := by
  simp only [BOut.size, BOut.capacity] at hroom
  have hA := (appended_splice (o := o) (s := intDec n) hroom).text
  unfold BOut.putInt toCharsInt writeAll
  rw [if_pos hroom, if_pos hroom]
  simp only [Res.bind_ok, if_true]
  unfold BOut.adjustPos
  rw [if_pos (by simp only; omega)]
  unfold BOut.addPadding
  simp only [hw, Int.toNat_natCast]
  rw [if_neg (by omega)]
  simp only [Res.bind_ok]
  have ht : (o.mem.take o.pos ++ intDec n ++ o.mem.drop (o.pos + (intDec n).length)).take (o.pos + w) =
      o.mem.take o.pos ++ (intDec n).take w := by
    have : (o.mem.take o.pos).length = o.pos := by rw [List.length_take]; omega
    rw [List.append_assoc, List.take_append, this, List.take_of_length_le (by omega),
      show o.pos + w - o.pos = w by omega, List.take_append_of_le_length (by omega)]
  refine ⟨_, rfl, ?_, ?_⟩
  · simp only [BOut.text, ht]
  · simp only [BOut.text, ht]
    intro hc
    have := congrArg List.length (List.append_cancel_left hc)
    rw [List.length_take] at this
    omega

/-- … the concrete instance: width 2 and 123 prints "12". -/
theorem width_drops_digits_witness :
    ((BOut.new (List.replicate 8 0)).setWidth 2).putInt (fun _ => 0) 123 =
      .ok ⟨[49, 50, 51, 0, 0, 0, 0, 0], 2, 0, 0, 32⟩ := by decide

/-- **C19** is false when the columns exceed the remaining space although the digits fit: the
padding writes behind the buffer. -/
theorem width_out_of_bounds (junk : Nat → Byte) (o : BOut) (n : Int) (w : Nat)
    (hw : o.integerWidth = w) (hlong : (intDec n).length < w)
    (hroom : o.size + (intDec n).length ≤ o.capacity) (hover : o.capacity < o.size + w) :
    o.putInt junk n = .ub := by
  simp only [BOut.size, BOut.capacity] at hroom hover
  have hl := splice_length o.mem (intDec n) o.pos hroom
  unfold BOut.putInt toCharsInt writeAll
  rw [if_pos hroom, if_pos hroom]
  simp only [Res.bind_ok, if_true]
  unfold BOut.adjustPos
  rw [if_pos (by simp only; omega)]
  unfold BOut.addPadding memmove writeAll
  simp only [hw, Int.toNat_natCast]
  rw [show o.pos + (intDec n).length - o.pos = (intDec n).length by omega, if_pos hlong,
    if_pos (by omega), if_neg (by rw [List.length_take, List.length_drop, hl]; omega)]
  rfl

example : ((BOut.new (List.replicate 8 0)).setWidth 9).putInt (fun _ => 0) 42 = .ub := by decide

/-- An integer that does not fit leaves the text alone and the width pending. -/
theorem width_kept_when_no_room (junk : Nat → Byte) (o : BOut) (h : o.WF) (n : Int)
    (hroom : o.capacity < o.size + (intDec n).length) :
    ∃ o', o.putInt junk n = .ok o' ∧ o'.text = o.text ∧ o'.integerWidth = o.integerWidth := by
  have h0 : BOut.WF { o with integerWidth := 0 } := h
  obtain ⟨o1, h1, h2⟩ := putInt_spec junk h0 (by simp) n
  simp only [BOut.size, BOut.capacity] at hroom
  unfold BOut.putInt toCharsInt at h1 ⊢
  simp only at h1
  rw [if_neg (by omega)] at h1 ⊢
  simp only [Res.bind_ok, Bool.false_eq_true, if_false] at h1 ⊢
  refine ⟨_, rfl, ?_, rfl⟩
  cases h1
  have := h2.text
  simp only [BOut.size, BOut.capacity] at this
  rw [if_neg (by omega), List.append_nil] at this
  exact this

/-! ## C20 -/

theorem putByte_spec {o : BOut} (b : Byte) (h : o.pos + 2 ≤ o.mem.length) :
    ∃ o', o.putByte b = .ok o' ∧ Appended o o' (hexPair b) := by
  obtain ⟨t1, t2, -⟩ := hexPair_table b
  unfold BOut.putByte
  rw [t1, t2]
  simp only [hexPair, List.getElem?_cons_zero, List.getElem?_cons_succ, Res.ofOption_some, Res.bind_ok]
  obtain ⟨m1, h1, h2⟩ := appended_write (o := o) (c := hexDigits.getD (b.toNat / 16) 0) (by omega)
  have hl := h2.len
  simp only at hl
  obtain ⟨m2, h3, h4⟩ := appended_write (o := { o with mem := m1, pos := o.pos + 1 })
    (c := hexDigits.getD (b.toNat % 16) 0) (by simp only; omega)
  rw [h1]
  simp only [Res.bind_ok]
  simp only at h3
  rw [h3]
  simp only [Res.bind_ok]
  exact ⟨_, rfl, h2.trans h4⟩

private theorem putBytesLoop_spec {o : BOut} (h : o.WF) (bs : List Byte)
    (hl : o.pos + 2 * bs.length ≤ o.mem.length) :
    ∃ o', o.putBytesLoop bs = .ok o' ∧ Appended o o' (bs.flatMap hexPair) := by
  induction bs generalizing o with
  | nil => exact ⟨o, rfl, .refl h⟩
  | cons b bs ih =>
    simp only [List.length_cons] at hl
    obtain ⟨o1, h1, h2⟩ := putByte_spec (o := o) b (by omega)
    have hp := h2.pos
    simp only [hexPair, List.length_cons, List.length_nil] at hp
    have hm := h2.len
    obtain ⟨o2, h3, h4⟩ := ih (o := o1) h2.wf (by omega)
    exact ⟨o2, by simp [BOut.putBytesLoop, h1, h3], by simpa using h2.trans h4⟩

theorem unhex_hexPair (bs : List Byte) : unhex (bs.flatMap hexPair) = some bs := by
  induction bs with
  | nil => rfl
  | cons b bs ih =>
    have h := (hexPair_table b).2.2
    rw [List.flatMap_cons]
    simp only [hexPair, List.cons_append, List.nil_append, unhex] at h ⊢
    cases hx : hexVal (hexDigits.getD (b.toNat / 16) 0) with
    | none => rw [hx] at h; cases h
    | some x =>
      cases hy : hexVal (hexDigits.getD (b.toNat % 16) 0) with
      | none => rw [hx, hy] at h; cases h
      | some y =>
        rw [hx, hy] at h
        have h' : [BitVec.ofNat 8 (16 * x + y)] = [b] := Option.some.inj h
        rw [ih]
        simp only [List.cons.injEq, and_true] at h'
        simp [h']

theorem putBytes_spec {o : BOut} (h : o.WF) (span : List Byte) :
    ∃ o', o.putBytes span = .ok o' ∧
      Appended o o' ((span.take ((o.capacity - o.size) / 2)).flatMap hexPair) := by
  unfold BOut.WF at h
  have he : span.take (if span.length < (o.mem.length - o.pos) / 2 then span.length
      else (o.mem.length - o.pos) / 2) = span.take ((o.mem.length - o.pos) / 2) := by
    split
    · rw [List.take_of_length_le (Nat.le_refl _), List.take_of_length_le (by omega)]
    · rfl
  unfold BOut.putBytes
  simp only
  rw [he]
  exact putBytesLoop_spec (o := o) h (span.take ((o.mem.length - o.pos) / 2))
    (by rw [List.length_take]; omega)

/-- **C20** (byte views): as many bytes as fit are appended as two upper-case hex digits each, in
bounds, and the appended text decodes back to exactly these bytes. -/
theorem bytes_printed_as_hex (o : BOut) (h : o.WF) (span : List Byte) :
    ∃ o' s, o.putBytes span = .ok o' ∧ o'.text = o.text ++ s ∧
      unhex s = some (span.take ((o.capacity - o.size) / 2)) ∧
      s.length = 2 * min span.length ((o.capacity - o.size) / 2) ∧
      o'.capacity = o.capacity ∧ o'.size ≤ o'.capacity := by
  obtain ⟨o', h1, h2⟩ := putBytes_spec h span
  refine ⟨o', _, h1, h2.text, unhex_hexPair _, ?_, h2.len, h2.wf⟩
  have : ∀ l : List Byte, (l.flatMap hexPair).length = 2 * l.length := by
    intro l
    induction l with
    | nil => rfl
    | cons b l ih => rw [List.flatMap_cons, List.length_append, ih]; simp [hexPair]; omega
  rw [this, List.length_take]
  omega

example : (BOut.new (List.replicate 5 0)).putBytes [0x01, 0xF3, 0xAA] =
    .ok ⟨[0x30, 0x31, 0x46, 0x33, 0], 4, 0, 0, 32⟩ := by decide

/-- **C20** (single bytes), the part that holds: with room for two characters the byte is printed as
two hex digits. -/
theorem byte_printed_as_hex_partial (o : BOut) (b : Byte) (hroom : o.size + 2 ≤ o.capacity) :
    ∃ o' s, o.putByte b = .ok o' ∧ o'.text = o.text ++ s ∧ unhex s = some [b] ∧ s.length = 2 ∧
      o'.capacity = o.capacity := by
  obtain ⟨o', h1, h2⟩ := putByte_spec (o := o) b hroom
  exact ⟨o', hexPair b, h1, h2.text, (hexPair_table b).2.2, rfl, h2.len⟩

/-- **C20** (single bytes) is false when fewer than two characters remain: out-of-bounds write, for
every such buffer and byte. -/
theorem byte_out_of_bounds (o : BOut) (h : o.WF) (b : Byte) (hroom : o.capacity < o.size + 2) :
    o.putByte b = .ub := by
  obtain ⟨t1, t2, -⟩ := hexPair_table b
  simp only [BOut.capacity, BOut.size, BOut.WF] at *
  unfold BOut.putByte
  rw [t1, t2]
  simp only [hexPair, List.getElem?_cons_zero, List.getElem?_cons_succ, Res.ofOption_some, Res.bind_ok]
  unfold write
  split
  · simp only [Res.bind_ok, List.length_set]
    rw [if_neg (by omega)]; rfl
  · rfl

/-! ## C23 -/

/-- **C23**, with its exact bound: `data()` is the text iff the text is shorter than 65536. -/
theorem data_is_text_iff (o : BOut) (h : o.WF) : o.data = o.text ↔ o.size < 65536 := by
  unfold BOut.data BOut.text BOut.size BOut.WF at *
  constructor
  · intro he
    have := congrArg List.length he
    simp only [List.length_take] at this
    have := Nat.mod_lt o.pos (show 0 < 2 ^ 16 by decide)
    omega
  · intro hlt
    rw [Nat.mod_eq_of_lt (by omega)]

/-- **C23**, the part that holds: below 65536 characters `data()` has `size()` bytes, namely the text.  Missing: longer texts,
where the property is false. -/
theorem data_shows_text_partial (o : BOut) (h : o.WF) (hs : o.size < 65536) : o.data = o.text ∧ o.data.length = o.size := by
  have e := (data_is_text_iff o h).2 hs
  refine ⟨e, ?_⟩
  rw [e, BOut.text, BOut.size, List.length_take]
  exact Nat.min_eq_left h

/-- **C23** is false for longer texts: a text of exactly 65536 characters reads as empty. -/
theorem data_truncated (o : BOut) (hm : o.mem.length = 65536) (hp : o.pos = 65536) :
    o.WF ∧ o.data = [] ∧ o.text ≠ [] := by
  have hwf : o.WF := by unfold BOut.WF; omega
  refine ⟨hwf, by simp [BOut.data, hp], ?_⟩
  intro hc
  have := text_length hwf
  rw [hc, hp] at this
  simp at this

example : ∃ o : BOut, o.mem.length = 65536 ∧ o.pos = 65536 :=
  ⟨⟨List.replicate 65536 0, 65536, 0, 0, 32⟩, List.length_replicate, rfl⟩

end Verif.Out
