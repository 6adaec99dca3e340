import Verif.Converter.HeaderSpec
import Verif.Converter.Props
import Verif.Out.Props
/-!
# C51, and C49 for the header format: what the generated header says
-/
namespace Verif.Converter
open Verif.Font Verif.Out

/-! ## Output to the line buffer -/

/-- The characters an operand appends. -/
def Item.chars : Item → List Byte
  | .lit s => s
  | .str s => s
  | .chr c => [c]
  | .hex b => hexPair b
  | .int n => intDec n
  | .wint w n => List.replicate (w - (intDec n).length) 32 ++ intDec n

/-- Operands which can be written: literals without NUL, numbers not wider than their column. -/
def Item.Valid : Item → Prop
  | .lit s => ∀ c ∈ s, c ≠ 0
  | .wint w n => (intDec n).length ≤ w
  | _ => True

/-- A buffer of 1024 characters with default formatting. -/
structure Clean (o : BOut) : Prop where
  wf : o.pos ≤ o.mem.length
  cap : o.mem.length = 1024
  width : o.integerWidth = 0
  fillc : o.fillChar = 32

theorem clean_of_appended {o o' : BOut} {s : List Byte} (h : Clean o) (a : Appended o o' s) : Clean o' :=
  ⟨a.wf, a.len.trans h.cap, a.width.trans h.width, a.fillc.trans h.fillc⟩

theorem text_len {o : BOut} (h : Clean o) : o.text.length = o.pos := text_length h.wf

theorem putItem_ok (junk : Nat → Byte) {o : BOut} (h : Clean o) (i : Item) (hv : i.Valid)
    (hr : o.text.length + i.chars.length ≤ 1024) :
    ∃ o', putItem junk o i = .ok o' ∧ Clean o' ∧ o'.text = o.text ++ i.chars := by
  have hc := h.cap
  rw [text_len h] at hr
  have key : ∀ s : List Byte, o.pos + s.length ≤ 1024 → s.take (o.capacity - o.size) = s := by
    intro s hs
    apply List.take_of_length_le
    simp only [BOut.capacity, BOut.size]
    omega
  cases i with
  | lit s =>
    obtain ⟨o', k1, k2⟩ := putCstr_spec h.wf s [] hv
    rw [key s hr] at k2
    exact ⟨o', k1, clean_of_appended h k2, k2.text⟩
  | str s =>
    obtain ⟨o', k1, k2⟩ := putStr_spec h.wf s
    rw [key s hr] at k2
    exact ⟨o', k1, clean_of_appended h k2, k2.text⟩
  | chr c =>
    obtain ⟨o', k1, k2⟩ := addChar_spec h.wf c
    rw [key [c] hr] at k2
    exact ⟨o', k1, clean_of_appended h k2, k2.text⟩
  | hex b =>
    obtain ⟨o', k1, k2⟩ := putByte_spec (o := o) b (by
      have : (hexPair b).length = 2 := rfl
      simp only [Item.chars, this] at hr; omega)
    exact ⟨o', k1, clean_of_appended h k2, k2.text⟩
  | int n =>
    obtain ⟨o', k1, k2⟩ := putInt_spec junk h.wf (by rw [h.width]) n
    rw [if_pos (by simp only [BOut.capacity, BOut.size, Item.chars] at *; omega)] at k2
    exact ⟨o', k1, clean_of_appended h k2, k2.text⟩
  | wint w n =>
    simp only [Item.chars, List.length_append, List.length_replicate] at hr
    have hv' : (intDec n).length ≤ w := hv
    obtain ⟨o', s, k1, k2, k3, k4, k5, k6, k7, k8, k9⟩ := width_pads_left_partial junk (o.setWidth w) h.wf n w rfl hv'
      (by simp only [BOut.capacity, BOut.size, BOut.setWidth]; omega)
    have hs := canonical_unique s n k3 k2
    subst hs
    refine ⟨o', k1, ⟨k9, ?_, k6, ?_⟩, ?_⟩
    · simp only [BOut.capacity, BOut.setWidth] at k8; omega
    · rw [k7]; exact h.fillc
    · rw [k5]
      simp only [Item.chars]
      have : (o.setWidth w).fillChar = 32 := h.fillc
      rw [this]
      have : (o.setWidth w).text = o.text := rfl
      rw [this, List.append_assoc]

theorem putItems_ok (junk : Nat → Byte) {o : BOut} (h : Clean o) (is : List Item) (hv : ∀ i ∈ is, i.Valid)
    (hr : o.text.length + (is.flatMap Item.chars).length ≤ 1024) :
    ∃ o', putItems junk o is = .ok o' ∧ Clean o' ∧ o'.text = o.text ++ is.flatMap Item.chars := by
  induction is generalizing o with
  | nil => exact ⟨o, rfl, h, by simp⟩
  | cons i is ih =>
    rw [List.flatMap_cons, List.length_append] at hr
    obtain ⟨o1, k1, k2, k3⟩ := putItem_ok junk h i (hv i (List.mem_cons_self ..)) (by omega)
    obtain ⟨o2, m1, m2, m3⟩ := ih k2 (fun i hi => hv i (List.mem_cons_of_mem _ hi))
      (by rw [k3, List.length_append]; omega)
    refine ⟨o2, by simp only [putItems, k1, Res.bind_ok, m1], m2, ?_⟩
    rw [m3, k3, List.flatMap_cons, List.append_assoc]

theorem clean_clear {o : BOut} (h : Clean o) : Clean o.clear ∧ o.clear.text = [] :=
  ⟨⟨Nat.zero_le _, h.cap, rfl, rfl⟩, rfl⟩

theorem clean_new : Clean (BOut.new (List.replicate 1024 0)) ∧ (BOut.new (List.replicate 1024 0)).text = [] :=
  ⟨⟨Nat.zero_le _, List.length_replicate, rfl, rfl⟩, rfl⟩

/-- All characters written so far, whether still buffered or not. -/
def Buffered.content (s : Buffered) : List Byte := s.file ++ s.out.text

theorem buffered_put_ok (junk : Nat → Byte) {s : Buffered} (h : Clean s.out) (is : List Item)
    (hv : ∀ i ∈ is, i.Valid) (hr : s.out.text.length + (is.flatMap Item.chars).length ≤ 1024) :
    ∃ s', s.put junk is = .ok s' ∧ Clean s'.out ∧ s'.out.text = s.out.text ++ is.flatMap Item.chars ∧
      s'.content = s.content ++ is.flatMap Item.chars := by
  obtain ⟨o, k1, k2, k3⟩ := putItems_ok junk h is hv hr
  refine ⟨{ s with out := o }, by simp only [Buffered.put, k1, Res.bind_ok], k2, k3, ?_⟩
  simp only [Buffered.content, k3, List.append_assoc]

theorem flush_content {s : Buffered} (h : Clean s.out) :
    Clean s.flush.out ∧ s.flush.out.text = [] ∧ s.flush.file = s.content ∧ s.flush.content = s.content := by
  unfold Buffered.flush
  split
  · rename_i he
    have he' : s.out.text = [] := List.isEmpty_iff.1 he
    refine ⟨h, he', ?_, rfl⟩
    unfold Buffered.content
    rw [he', List.append_nil]
  · obtain ⟨c1, c2⟩ := clean_clear h
    refine ⟨c1, c2, rfl, ?_⟩
    unfold Buffered.content
    simp only [c2, List.append_nil]

/-! ## The hex stream -/

/-- The text of bytes when `n` bytes are on the current line. -/
def hexText (bil ind : Nat) : Nat → List Byte → List Byte
  | _, [] => []
  | n, b :: bs =>
    (if n = 0 then List.replicate ind 32 else if bil = n then b!",\n" ++ List.replicate ind 32 else b!", ") ++
      b!"0x" ++ hexPair b ++ hexText bil ind (if bil = n then 1 else n + 1) bs

theorem replicate_chars (k : Nat) : (List.replicate k (Item.chr 32)).flatMap Item.chars = List.replicate k 32 := by
  induction k with
  | zero => rfl
  | succ k ih => simp only [List.replicate_succ, List.flatMap_cons, Item.chars, List.singleton_append, ih]

/-- The invariant of the hex stream. -/
structure HexInv (bil ind : Nat) (s : HexStream) : Prop where
  clean : Clean s.base.out
  hbil : s.bytesInLine = bil
  hind : s.indent = ind
  le : s.bytesWritten ≤ bil
  room : s.base.out.text.length ≤ ind + 6 * s.bytesWritten
  start : s.bytesWritten = 0 → s.base.out.text = []

theorem separate_ok (junk : Nat → Byte) {bil ind : Nat} (hroom : ind + 6 * bil + 8 ≤ 1024)
    {s : HexStream} (h : HexInv bil ind s) :
    ∃ s', s.separate junk = .ok s' ∧ Clean s'.base.out ∧ s'.bytesInLine = bil ∧ s'.indent = ind ∧
      s'.totalBytesWritten = s.totalBytesWritten ∧
      s'.bytesWritten = (if bil = s.bytesWritten then 0 else s.bytesWritten) ∧
      s'.base.content = s.base.content ++ (if s.bytesWritten = 0 then [] else if bil = s.bytesWritten then b!",\n"
        else b!", ") ∧
      s'.base.out.text.length ≤ (if bil = s.bytesWritten then 0 else ind + 6 * s.bytesWritten +
        (if s.bytesWritten = 0 then 0 else 2)) ∧ (s'.bytesWritten = 0 → s'.base.out.text = []) := by
  have hle := h.le
  have hr := h.room
  unfold HexStream.separate
  by_cases h0 : s.bytesWritten = 0
  · rw [if_neg (by simp [h0])]
    refine ⟨s, rfl, h.clean, h.hbil, h.hind, rfl, ?_, ?_, ?_, h.start⟩
    · split <;> omega
    · rw [if_pos h0, List.append_nil]
    · rw [h.start h0]; simp
  · rw [if_pos h0]
    obtain ⟨b1, k1, k2, k3, k4⟩ := buffered_put_ok junk h.clean [.chr 44]
      (by intro i hi; rw [List.mem_singleton.1 hi]; trivial) (by simp [Item.chars]; omega)
    rw [k1]; simp only [Res.bind_ok]
    rw [h.hbil]
    by_cases hb : bil = s.bytesWritten
    · rw [if_pos hb]
      obtain ⟨b2, m1, m2, m3, m4⟩ := buffered_put_ok junk k2 [.chr 10]
        (by intro i hi; rw [List.mem_singleton.1 hi]; trivial) (by rw [k3]; simp [Item.chars]; omega)
      rw [m1]; simp only [Res.bind_ok]
      obtain ⟨f1, f2, f3, f4⟩ := flush_content m2
      refine ⟨_, rfl, f1, rfl, h.hind, rfl, by rw [if_pos hb], ?_, ?_, fun _ => f2⟩
      · simp only [if_neg h0, if_pos hb]
        rw [f4, m4, k4, List.append_assoc]
        rfl
      · simp only [f2]; simp
    · rw [if_neg hb]
      obtain ⟨b2, m1, m2, m3, m4⟩ := buffered_put_ok junk k2 [.chr 32]
        (by intro i hi; rw [List.mem_singleton.1 hi]; trivial) (by rw [k3]; simp [Item.chars]; omega)
      rw [m1]; simp only [Res.bind_ok]
      refine ⟨_, rfl, m2, rfl, h.hind, rfl, by simp only [if_neg hb], ?_, ?_, ?_⟩
      · simp only [if_neg h0, if_neg hb]
        rw [m4, k4, List.append_assoc]
        rfl
      · simp only [if_neg h0, if_neg hb, m3, k3]
        simp [Item.chars]
        omega
      · intro h0'; exact absurd h0' h0

theorem hexPair_length (b : Byte) : (hexPair b).length = 2 := rfl

theorem hexPut_ok (junk : Nat → Byte) {bil ind : Nat} (hb1 : 1 ≤ bil) (hroom : ind + 6 * bil + 8 ≤ 1024)
    {s : HexStream} (h : HexInv bil ind s) (ht : s.totalBytesWritten + 1 < 2147483648) (b : Byte) :
    ∃ s', s.put junk b = .ok s' ∧ HexInv bil ind s' ∧ s'.totalBytesWritten = s.totalBytesWritten + 1 ∧
      s'.bytesWritten = (if bil = s.bytesWritten then 1 else s.bytesWritten + 1) ∧
      s'.base.content = s.base.content ++ ((if s.bytesWritten = 0 then List.replicate ind 32 else
        if bil = s.bytesWritten then b!",\n" ++ List.replicate ind 32 else b!", ") ++ b!"0x" ++ hexPair b) := by
  have hle := h.le
  obtain ⟨s1, k1, k2, k3, k4, k5, k6, k7, k8, k9⟩ := separate_ok junk hroom h
  unfold HexStream.put
  rw [k1]; simp only [Res.bind_ok]
  have hv2 : ∀ i ∈ [Item.lit b!"0x", Item.hex b], i.Valid := by
    intro i hi
    simp only [List.mem_cons, List.not_mem_nil, or_false] at hi
    rcases hi with rfl | rfl
    · show ∀ c ∈ b!"0x", c ≠ 0
      decide
    · trivial
  have hl2 : ([Item.lit b!"0x", Item.hex b].flatMap Item.chars).length = 4 := rfl
  by_cases hz : s1.bytesWritten = 0
  · rw [if_pos hz]
    have hempty := k9 hz
    obtain ⟨b1, m1, m2, m3, m4⟩ := buffered_put_ok junk k2 (List.replicate s1.indent (.chr 32))
      (by intro i hi; rw [List.eq_of_mem_replicate hi]; trivial)
      (by rw [hempty, replicate_chars, List.length_replicate, k4]; simp; omega)
    rw [m1]; simp only [Res.bind_ok]
    obtain ⟨b2, n1, n2, n3, n4⟩ := buffered_put_ok junk m2 [.lit b!"0x", .hex b] hv2
      (by rw [m3, hempty, replicate_chars, hl2, k4]; simp; omega)
    rw [n1]; simp only [Res.bind_ok]
    rw [if_pos (by omega)]
    have hcase : s.bytesWritten = 0 ∨ bil = s.bytesWritten := by
      rw [k6] at hz
      split at hz
      · right; assumption
      · left; exact hz
    refine ⟨_, rfl, ⟨n2, k3, k4, by simp only; omega, ?_, by simp only; omega⟩, by simp only; omega, ?_, ?_⟩
    · simp only
      rw [n3, m3, hempty, replicate_chars, List.length_append, hl2, k4]
      simp
      omega
    · simp only
      rcases hcase with hc | hc
      · rw [if_neg (by omega)]; omega
      · rw [if_pos hc]; omega
    · simp only
      rw [n4, m4, k7, replicate_chars, k4]
      rcases hcase with hc | hc
      · simp only [if_pos hc]
        simp [Item.chars]
      · by_cases h0 : s.bytesWritten = 0
        · omega
        · simp only [if_neg h0, if_pos hc]
          simp [Item.chars]
  · rw [if_neg hz]
    simp only [Res.bind_ok]
    have hne : ¬ bil = s.bytesWritten := by
      intro hc; rw [k6, if_pos hc] at hz; exact hz rfl
    rw [k6, if_neg hne] at hz
    simp only [if_neg hne, if_neg hz] at k8 k6 k7
    obtain ⟨b2, n1, n2, n3, n4⟩ := buffered_put_ok junk k2 [.lit b!"0x", .hex b] hv2
      (by rw [hl2]; omega)
    rw [n1]; simp only [Res.bind_ok]
    rw [if_pos (by omega)]
    refine ⟨_, rfl, ⟨n2, k3, k4, by simp only; omega, ?_, by simp only; omega⟩, by simp only; omega, ?_, ?_⟩
    · simp only
      rw [n3, List.length_append, hl2]
      omega
    · simp only
      rw [if_neg hne]; omega
    · simp only
      rw [n4, k7, if_neg hz, if_neg hne]
      simp [Item.chars]

theorem hexPutAll_ok (junk : Nat → Byte) {bil ind : Nat} (hb1 : 1 ≤ bil) (hroom : ind + 6 * bil + 8 ≤ 1024)
    (bs : List Byte) {s : HexStream} (h : HexInv bil ind s) (ht : s.totalBytesWritten + bs.length < 2147483648) :
    ∃ s', s.putAll junk bs = .ok s' ∧ HexInv bil ind s' ∧ s'.totalBytesWritten = s.totalBytesWritten + bs.length ∧
      s'.base.content = s.base.content ++ hexText bil ind s.bytesWritten bs := by
  induction bs generalizing s with
  | nil => exact ⟨s, rfl, h, rfl, by simp [hexText]⟩
  | cons b bs ih =>
    simp only [List.length_cons] at ht
    obtain ⟨s1, k1, k2, k3, k4, k5⟩ := hexPut_ok junk hb1 hroom h (by omega) b
    obtain ⟨s2, m1, m2, m3, m4⟩ := ih k2 (by omega)
    refine ⟨s2, by simp only [HexStream.putAll, k1, Res.bind_ok, m1], m2, by simp only [List.length_cons]; omega, ?_⟩
    rw [m4, k5, k4]
    simp only [hexText, List.append_assoc]

/-- The `int` counter bounds the number of bytes which can be written. -/
theorem hexPutAll_total (junk : Nat → Byte) (bs : List Byte) (s s' : HexStream) (h : s.putAll junk bs = .ok s') :
    s'.totalBytesWritten = s.totalBytesWritten + bs.length ∧
    (bs ≠ [] → s.totalBytesWritten + bs.length < 2147483648) := by
  induction bs generalizing s with
  | nil =>
    simp only [HexStream.putAll, Res.ok.injEq] at h
    subst h
    exact ⟨rfl, fun h => absurd rfl h⟩
  | cons b bs ih =>
    simp only [HexStream.putAll, Res.bind_eq_ok] at h
    obtain ⟨s1, h1, h2⟩ := h
    have ht : s1.totalBytesWritten = s.totalBytesWritten + 1 ∧ s.totalBytesWritten + 1 < 2147483648 := by
      simp only [HexStream.put, Res.bind_eq_ok] at h1
      obtain ⟨s2, k1, b1, k2, b2, k3, k4⟩ := h1
      have hs : s2.totalBytesWritten = s.totalBytesWritten := by
        unfold HexStream.separate at k1
        split at k1
        · simp only [Res.bind_eq_ok] at k1
          obtain ⟨c1, _, k1⟩ := k1
          split at k1
          all_goals
            simp only [Res.bind_eq_ok, Res.ok.injEq] at k1
            obtain ⟨c2, _, k1⟩ := k1
            rw [← k1]
        · simp only [Res.ok.injEq] at k1
          rw [k1]
      split at k4
      · rename_i hlt
        simp only [Res.ok.injEq] at k4
        rw [← k4]
        simp only
        omega
      · cases k4
    obtain ⟨i1, i2⟩ := ih s1 h2
    simp only [List.length_cons]
    refine ⟨by omega, fun _ => ?_⟩
    by_cases hb : bs = []
    · subst hb; simp only [List.length_nil]; omega
    · have := i2 hb; omega

/-- A header is only written for a table with less than 2^31 bytes of bitmaps. -/
theorem writeHeaderFile_total (junk : Nat → Byte) (label : Nat → List Byte) (name encoding : List Byte)
    (table : List GlyphData) (first last : Nat) (height : Int) (file : List Byte)
    (h : writeHeaderFile junk label name encoding table first last height = .ok file) :
    (bitmapsFile table).length < 2147483648 := by
  simp only [writeHeaderFile, Res.bind_eq_ok] at h
  obtain ⟨h0, k0, h1, k1, -⟩ := h
  have hz : h0.totalBytesWritten = 0 := by
    simp only [HexStream.new, Res.bind_eq_ok, Res.ok.injEq] at k0
    obtain ⟨b, -, k0⟩ := k0
    rw [← k0]
  obtain ⟨-, h2⟩ := hexPutAll_total junk _ h0 h1 k1
  by_cases hb : bitmapsFile table = []
  · rw [hb]; simp
  · have := h2 hb; omega

/-! ## Reading -/

/-- The text `s` reads as the tokens `ts`, whatever follows. -/
def Seg (s : List Byte) (ts : List Tok) : Prop := ∀ rest, lex (.code []) (s ++ rest) = ts ++ lex (.code []) rest

theorem Seg.append {a b : List Byte} {ta tb : List Tok} (ha : Seg a ta) (hb : Seg b tb) : Seg (a ++ b) (ta ++ tb) := by
  intro rest
  rw [List.append_assoc, ha, hb, List.append_assoc]

theorem seg_nil : Seg [] [] := fun _ => rfl

theorem seg_spaces (k : Nat) : Seg (List.replicate k 32) [] := by
  induction k with
  | zero => exact seg_nil
  | succ k ih =>
    intro rest
    rw [List.replicate_succ, List.cons_append]
    show emit [] (lex (.code []) _) = _
    exact ih rest

/-- Characters of words. -/
def Plain (c : Byte) : Prop := isSpace c = false ∧ isPunct c = false ∧ c ≠ 47

theorem lex_word (w : List Byte) (hw : ∀ c ∈ w, Plain c) (cur rest : List Byte) :
    lex (.code cur) (w ++ rest) = lex (.code (cur ++ w)) rest := by
  induction w generalizing cur with
  | nil => simp
  | cons c w ih =>
    obtain ⟨h1, h2, h3⟩ := hw c (List.mem_cons_self ..)
    rw [List.cons_append, lex, h1, h2]
    simp only [Bool.false_eq_true, if_false]
    rw [if_neg (fun h => h3 h.1), ih (fun c hc => hw c (List.mem_cons_of_mem _ hc))]
    simp

theorem lex_end_space (w : List Byte) (hne : w ≠ []) (c : Byte) (hc : isSpace c = true) (rest : List Byte) :
    lex (.code w) (c :: rest) = wordTok w :: lex (.code []) rest := by
  rw [lex, if_pos hc, emit, if_neg hne]

theorem lex_end_punct (w : List Byte) (hne : w ≠ []) (c : Byte) (hs : isSpace c = false) (hc : isPunct c = true)
    (rest : List Byte) :
    lex (.code w) (c :: rest) = wordTok w :: .punct c :: lex (.code []) rest := by
  rw [lex, if_neg (by rw [hs]; decide), if_pos hc, emit, if_neg hne]

theorem seg_word_space (w : List Byte) (hne : w ≠ []) (hw : ∀ c ∈ w, Plain c) (c : Byte) (hc : isSpace c = true) :
    Seg (w ++ [c]) [wordTok w] := by
  intro rest
  rw [List.append_assoc, lex_word w hw, List.nil_append, List.singleton_append, lex_end_space w hne c hc]
  rfl

theorem seg_word_punct (w : List Byte) (hne : w ≠ []) (hw : ∀ c ∈ w, Plain c) (c : Byte) (hs : isSpace c = false)
    (hc : isPunct c = true) : Seg (w ++ [c]) [wordTok w, .punct c] := by
  intro rest
  rw [List.append_assoc, lex_word w hw, List.nil_append, List.singleton_append, lex_end_punct w hne c hs hc]
  rfl

/-! ### Numbers -/

theorem natDecF_digits (fuel n : Nat) : ∀ c ∈ natDecF fuel n, 48 ≤ c.toNat ∧ c.toNat ≤ 57 := by
  induction fuel generalizing n with
  | zero => simp [natDecF]
  | succ fuel ih =>
    intro c hc
    unfold natDecF at hc
    split at hc
    · rw [List.mem_singleton] at hc
      subst hc
      rw [BitVec.toNat_ofNat]
      omega
    · rw [List.mem_append, List.mem_singleton] at hc
      rcases hc with hc | rfl
      · exact ih _ c hc
      · rw [BitVec.toNat_ofNat]
        omega

theorem plain_digit (c : Byte) (h : (48 ≤ c.toNat ∧ c.toNat ≤ 57) ∨ c = 45) : Plain c := by
  have h' : c = 45 ∨ c = 48 ∨ c = 49 ∨ c = 50 ∨ c = 51 ∨ c = 52 ∨ c = 53 ∨ c = 54 ∨ c = 55 ∨ c = 56 ∨ c = 57 := by
    rcases h with h | h
    · have e : c = BitVec.ofNat 8 c.toNat := by simp
      have : c.toNat = 48 ∨ c.toNat = 49 ∨ c.toNat = 50 ∨ c.toNat = 51 ∨ c.toNat = 52 ∨ c.toNat = 53 ∨ c.toNat = 54 ∨
        c.toNat = 55 ∨ c.toNat = 56 ∨ c.toNat = 57 := by omega
      rcases this with h | h | h | h | h | h | h | h | h | h <;> rw [h] at e <;> subst e <;> decide
    · exact .inl h
  rcases h' with rfl | rfl | rfl | rfl | rfl | rfl | rfl | rfl | rfl | rfl | rfl <;>
    exact ⟨by decide, by decide, by decide⟩

theorem intDec_plain (n : Int) : ∀ c ∈ intDec n, Plain c := by
  intro c hc
  apply plain_digit
  unfold intDec at hc
  split at hc
  · rcases List.mem_cons.1 hc with h | h
    · exact .inr h
    · exact .inl (natDecF_digits _ _ c h)
  · exact .inl (natDecF_digits _ _ c hc)

theorem intDec_ne (n : Int) : intDec n ≠ [] := by
  intro h
  have := intDec_length_pos n
  rw [h] at this
  simp at this

theorem wordTok_int (n : Int) : wordTok (intDec n) = .num n := by
  unfold wordTok
  rw [intDec_parse]

theorem natDecF_length (k fuel n : Nat) (hk : 1 ≤ k) (h : n < 10 ^ k) : (natDecF fuel n).length ≤ k := by
  induction k generalizing fuel n with
  | zero => omega
  | succ k ih =>
    cases fuel with
    | zero => simp [natDecF]
    | succ fuel =>
      unfold natDecF
      split
      · simp
      · rename_i hn
        rw [List.length_append, List.length_singleton]
        by_cases hk0 : k = 0
        · subst hk0; omega
        · have := ih fuel (n / 10) (by omega) (by rw [Nat.pow_succ] at h; omega)
          omega

theorem intDec_length_le (k : Nat) (hk : 1 ≤ k) (n : Int) (h : n.natAbs < 10 ^ k) :
    (intDec n).length ≤ (if n < 0 then k + 1 else k) := by
  have := natDecF_length k (n.natAbs + 1) n.natAbs hk h
  unfold intDec natDec
  split
  · simp only [List.length_cons]; omega
  · exact this

/-- A padded number followed by a comma or a blank. -/
theorem seg_wint_comma (w : Nat) (n : Int) : Seg ((Item.wint w n).chars ++ [44]) [.num n, .punct 44] := by
  have h := (seg_spaces (w - (intDec n).length)).append
    (seg_word_punct (intDec n) (intDec_ne n) (intDec_plain n) 44 (by decide) (by decide))
  rw [wordTok_int] at h
  simp only [Item.chars, List.append_assoc, List.nil_append] at h ⊢
  exact h

theorem seg_wint_space (w : Nat) (n : Int) : Seg ((Item.wint w n).chars ++ [32]) [.num n] := by
  have h := (seg_spaces (w - (intDec n).length)).append
    (seg_word_space (intDec n) (intDec_ne n) (intDec_plain n) 32 (by decide))
  rw [wordTok_int] at h
  simp only [Item.chars, List.append_assoc, List.nil_append] at h ⊢
  exact h

theorem hexTok_table : ∀ b : Byte, wordTok (b!"0x" ++ hexPair b) = .num b.toNat ∧
    (∀ c ∈ b!"0x" ++ hexPair b, isSpace c = false ∧ isPunct c = false ∧ c ≠ 47 ∧ c ≠ 10) := by
  intro b
  constructor
  · show (match unhex (hexPair b) with | some [b'] => Tok.num b'.toNat | _ => _) = _
    rw [(hexPair_table b).2.2]
  · have key : ∀ n : Fin 16, isSpace (hexDigits.getD n 0) = false ∧ isPunct (hexDigits.getD n 0) = false ∧
        hexDigits.getD n 0 ≠ 47 ∧ hexDigits.getD n 0 ≠ 10 := by decide
    intro c hc
    have hc : c = 48 ∨ c = 120 ∨ c = hexDigits.getD (b.toNat / 16) 0 ∨ c = hexDigits.getD (b.toNat % 16) 0 := by
      simpa [hexPair] using hc
    rcases hc with rfl | rfl | rfl | rfl
    · decide
    · decide
    · exact key ⟨b.toNat / 16, by have := b.isLt; omega⟩
    · exact key ⟨b.toNat % 16, by omega⟩

theorem hexTok_plain (b : Byte) : ∀ c ∈ b!"0x" ++ hexPair b, Plain c := fun c hc =>
  ⟨((hexTok_table b).2 c hc).1, ((hexTok_table b).2 c hc).2.1, ((hexTok_table b).2 c hc).2.2.1⟩

/-! ### The list of bytes -/

theorem commaSep_cons (x : List Tok) (xs : List (List Tok)) :
    commaSep (x :: xs) = x ++ xs.flatMap (fun y => .punct 44 :: y) := by
  induction xs generalizing x with
  | nil => simp [commaSep]
  | cons y ys ih => rw [commaSep, ih]; simp; simp

theorem lex_hexRest (bil ind : Nat) (bs : List Byte) (n : Nat) (hn : 1 ≤ n) (w : List Byte) (hw : w ≠ [])
    (rest : List Byte) :
    lex (.code w) (hexText bil ind n bs ++ (b!" };\n\n" ++ rest)) =
      wordTok w :: (bs.flatMap (fun b => [Tok.punct 44, .num b.toNat])) ++ [.punct 125, .punct 59] ++
        lex (.code []) rest := by
  induction bs generalizing n w with
  | nil =>
    simp only [hexText, List.nil_append, List.cons_append, List.flatMap_nil]
    rw [lex_end_space w hw 32 (by decide)]
    rfl
  | cons b bs ih =>
    have hne : b!"0x" ++ hexPair b ≠ [] := by simp
    have step : ∀ n' cs, 1 ≤ n' → Seg cs [] →
        lex (.code w) (44 :: (cs ++ (b!"0x" ++ hexPair b ++ (hexText bil ind n' bs ++ (b!" };\n\n" ++ rest))))) =
        wordTok w :: .punct 44 :: .num b.toNat :: (bs.flatMap (fun b => [Tok.punct 44, .num b.toNat])) ++
          [.punct 125, .punct 59] ++ lex (.code []) rest := by
      intro n' cs hn' hcs
      rw [lex_end_punct w hw 44 (by decide) (by decide), hcs, List.nil_append, lex_word _ (hexTok_plain b),
        List.nil_append, ih n' hn' _ hne, (hexTok_table b).1]
      simp
    rw [hexText, if_neg (by omega)]
    by_cases hb : bil = n
    · rw [if_pos hb, if_pos hb]
      have hs : Seg (10 :: List.replicate ind 32) [] := by
        intro r
        show emit [] (lex (.code []) (List.replicate ind 32 ++ r)) = _
        exact seg_spaces ind r
      have := step 1 _ (by omega) hs
      simp only [List.append_assoc, List.cons_append, List.nil_append, List.flatMap_cons] at this ⊢
      exact this
    · rw [if_neg hb, if_neg hb]
      have := step (n + 1) [32] (by omega) (seg_spaces 1)
      simp only [List.append_assoc, List.cons_append, List.nil_append, List.flatMap_cons] at this ⊢
      exact this

theorem seg_hexBody (bil ind : Nat) (hb1 : 1 ≤ bil) (bs : List Byte) :
    Seg (hexText bil ind 0 bs ++ b!" };\n\n") (commaSep (bs.map (fun b => [Tok.num b.toNat])) ++
      [.punct 125, .punct 59]) := by
  intro rest
  rw [List.append_assoc]
  cases bs with
  | nil => rfl
  | cons b bs =>
    have hne : b!"0x" ++ hexPair b ≠ [] := by simp
    rw [hexText, if_pos rfl, if_neg (by omega)]
    rw [List.append_assoc (List.replicate ind 32), List.append_assoc (List.replicate ind 32),
      List.append_assoc (List.replicate ind 32), seg_spaces, List.nil_append, List.append_assoc, lex_word _ (hexTok_plain b),
      List.nil_append, lex_hexRest bil ind bs _ (by omega) _ hne, (hexTok_table b).1, List.map_cons,
      commaSep_cons, List.flatMap_map]
    simp

/-! ### Comments -/

theorem lex_comment (t : List Byte) (ht : ∀ c ∈ t, c ≠ 10) (rest : List Byte) :
    lex .comment (t ++ 39 :: 10 :: rest) = lex (.code []) rest ∧
    lex .backslash (t ++ 39 :: 10 :: rest) = lex (.code []) rest := by
  induction t with
  | nil => exact ⟨rfl, rfl⟩
  | cons c t ih =>
    obtain ⟨i1, i2⟩ := ih (fun c hc => ht c (List.mem_cons_of_mem _ hc))
    have hc := ht c (List.mem_cons_self ..)
    constructor
    · rw [List.cons_append, lex, if_neg hc]
      split
      · exact i2
      · exact i1
    · rw [List.cons_append, lex]
      split
      · exact i2
      · exact i1

end Verif.Converter
