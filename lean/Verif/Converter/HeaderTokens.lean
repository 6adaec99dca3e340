import Verif.Converter.Header
/-!
# C51, and C49 for the header format: the declarations in the generated header
-/
namespace Verif.Converter
open Verif.Font Verif.Out

/-! ## Identifiers -/

theorem ident_plain (c : Byte) (h : isIdentChar c) : Plain c := by
  unfold isIdentChar at h
  have hne : ∀ d : Byte, c.toNat ≠ d.toNat → c ≠ d := fun d hd e => hd (by rw [e])
  have h1 := hne 32 (by show _ ≠ 32; omega)
  have h2 := hne 10 (by show _ ≠ 10; omega)
  have h3 := hne 123 (by show _ ≠ 123; omega)
  have h4 := hne 125 (by show _ ≠ 125; omega)
  have h5 := hne 91 (by show _ ≠ 91; omega)
  have h6 := hne 93 (by show _ ≠ 93; omega)
  have h7 := hne 44 (by show _ ≠ 44; omega)
  have h8 := hne 59 (by show _ ≠ 59; omega)
  have h9 := hne 61 (by show _ ≠ 61; omega)
  have h10 := hne 47 (by show _ ≠ 47; omega)
  refine ⟨?_, ?_, h10⟩
  · simp only [isSpace, beq_false_of_ne h1, beq_false_of_ne h2, Bool.or_false]
  · simp only [isPunct, beq_false_of_ne h3, beq_false_of_ne h4, beq_false_of_ne h5, beq_false_of_ne h6,
      beq_false_of_ne h7, beq_false_of_ne h8, beq_false_of_ne h9, Bool.or_false]

theorem ident_tok (s : List Byte) (h : IsIdent s) : wordTok s = .word s := by
  obtain ⟨hc, c, cs, rfl, hd⟩ := h
  have hi := hc c (List.mem_cons_self ..)
  unfold isIdentChar at hi
  have h45 : c ≠ 45 := by intro e; subst e; revert hi; decide
  have h48 : c ≠ 48 := by intro e; subst e; exact hd (by decide)
  have hp : parseInt (c :: cs) = none := by
    unfold parseInt
    simp only [if_neg h45]
    unfold parseNatAux
    have hv : digitVal c = none := by
      unfold digitVal
      rw [if_neg (by omega)]
    simp [hv]
  unfold wordTok
  rw [hp]
  simp only
  split
  · rename_i heq
    injection heq with h1 h2
    exact absurd h1 h48
  · rfl

theorem ident_append (s t : List Byte) (h : IsIdent s) (ht : ∀ c ∈ t, isIdentChar c) : IsIdent (s ++ t) := by
  obtain ⟨hc, c, cs, rfl, hd⟩ := h
  refine ⟨?_, c, cs ++ t, by simp, hd⟩
  intro x hx
  rcases List.mem_append.1 hx with hx | hx
  · exact hc x hx
  · exact ht x hx

theorem ident_ne (s : List Byte) (h : IsIdent s) : s ≠ [] := by
  obtain ⟨_, c, cs, rfl, _⟩ := h
  simp

theorem seg_ident_space (s : List Byte) (h : IsIdent s) (c : Byte) (hc : isSpace c = true) :
    Seg (s ++ [c]) [.word s] := by
  have := seg_word_space s (ident_ne s h) (fun c hc => ident_plain c (h.1 c hc)) c hc
  rwa [ident_tok s h] at this

theorem seg_ident_punct (s : List Byte) (h : IsIdent s) (c : Byte) (hs : isSpace c = false) (hc : isPunct c = true) :
    Seg (s ++ [c]) [.word s, .punct c] := by
  have := seg_word_punct s (ident_ne s h) (fun c hc => ident_plain c (h.1 c hc)) c hs hc
  rwa [ident_tok s h] at this

theorem bitmaps_ident {name : List Byte} (h : IsIdent name) : IsIdent (name ++ b!"Bitmaps") :=
  ident_append _ _ h (by unfold isIdentChar; decide)
theorem glyphs_ident {name : List Byte} (h : IsIdent name) : IsIdent (name ++ b!"Glyphs") :=
  ident_append _ _ h (by unfold isIdentChar; decide)

/-! ## Glyph lines -/

/-- The part of a line before the comment. -/
def glyphItems (off : Int) (g : Glyph) : List Item :=
  [.lit b!"  { ", .wint 5 off, .lit b!", {", .wint 4 g.width.toNat, .lit b!",",
    .wint 4 g.height.toNat, .lit b!" },", .wint 4 g.shift.toNat, .lit b!", { ", .wint 4 g.offX.toInt, .lit b!",",
    .wint 5 g.offY.toInt, .lit b!" } }"]

theorem seg_glyph (off : Nat) (g : Glyph) : Seg ((glyphItems off g).flatMap Item.chars) (glyphInit off g) := by
  have s1 : Seg b!"  { " [.punct 123] := fun _ => rfl
  have s2 : Seg b!" {" [.punct 123] := fun _ => rfl
  have s3 : Seg b!"}," [.punct 125, .punct 44] := fun _ => rfl
  have s4 : Seg b!" { " [.punct 123] := fun _ => rfl
  have s5 : Seg b!"} }" [.punct 125, .punct 125] := fun _ => rfl
  have h := s1.append ((seg_wint_comma 5 off).append (s2.append ((seg_wint_comma 4 g.width.toNat).append
    ((seg_wint_space 4 g.height.toNat).append (s3.append ((seg_wint_comma 4 g.shift.toNat).append
    (s4.append ((seg_wint_comma 4 g.offX.toInt).append ((seg_wint_space 5 g.offY.toInt).append s5)))))))))
  have e1 : (glyphItems off g).flatMap Item.chars = b!"  { " ++ ((Item.wint 5 off).chars ++ [44] ++ (b!" {" ++
      ((Item.wint 4 g.width.toNat).chars ++ [44] ++ ((Item.wint 4 g.height.toNat).chars ++ [32] ++ (b!"}," ++
      ((Item.wint 4 g.shift.toNat).chars ++ [44] ++ (b!" { " ++ ((Item.wint 4 g.offX.toInt).chars ++ [44] ++
      ((Item.wint 5 g.offY.toInt).chars ++ [32] ++ b!"} }"))))))))) := by
    simp [glyphItems, Item.chars]
  rw [e1]
  exact h

theorem hexPair_no_newline (b : Byte) : ∀ c ∈ hexPair b, c ≠ 10 := by
  intro c hc
  exact ((hexTok_table b).2 c (List.mem_append_right _ hc)).2.2.2

theorem seg_comment (b : Byte) (x : List Byte) (hx : ∀ c ∈ x, c ≠ 10) :
    Seg (b!"// 0x" ++ hexPair b ++ b!" '" ++ x ++ b!"'\n") [] := by
  intro rest
  have h := (lex_comment (b!"/ 0x" ++ hexPair b ++ b!" '" ++ x) (by
    intro c hc
    simp only [List.mem_append] at hc
    rcases hc with ((hc | hc) | hc) | hc
    · revert c; decide
    · exact hexPair_no_newline b c hc
    · revert c; decide
    · exact hx c hc) rest).1
  simp only [List.append_assoc, List.cons_append, List.nil_append] at h ⊢
  exact h

/-- The rest of a line. -/
def tailItems (label : Nat → List Byte) (cur last : Nat) : List Item :=
  (if cur < last then [.lit b!",   // 0x", .hex (BitVec.ofNat 8 cur)]
    else [.lit b!" }; // 0x", .hex (BitVec.ofNat 8 cur)]) ++
  (if 0x20 ≤ cur ∧ cur ≤ 0x7E then [.lit b!" '", .chr (BitVec.ofNat 8 cur), .lit b!"'"]
    else if cur > 0x7E then [.lit b!" '", .str (label cur), .lit b!"'"]
    else []) ++
  [.chr 10]

/-- The label shown in the comment. -/
def shown (label : Nat → List Byte) (cur : Nat) : List Byte :=
  if cur ≤ 0x7E then [BitVec.ofNat 8 cur] else label cur

theorem tail_chars (label : Nat → List Byte) (cur last : Nat) (h : 0x20 ≤ cur) :
    (tailItems label cur last).flatMap Item.chars =
      (if cur < last then b!",   " else b!" }; ") ++
        (b!"// 0x" ++ hexPair (BitVec.ofNat 8 cur) ++ b!" '" ++ shown label cur ++ b!"'\n") := by
  unfold tailItems shown
  by_cases h1 : cur < last <;> by_cases h2 : cur ≤ 0x7E
  · rw [if_pos h1, if_pos ⟨h, h2⟩, if_pos h1, if_pos h2]; simp [Item.chars]
  · rw [if_pos h1, if_neg (by omega), if_pos (by omega), if_pos h1, if_neg h2]; simp [Item.chars]
  · rw [if_neg h1, if_pos ⟨h, h2⟩, if_neg h1, if_pos h2]; simp [Item.chars]
  · rw [if_neg h1, if_neg (by omega), if_pos (by omega), if_neg h1, if_neg h2]; simp [Item.chars]

theorem shown_no_newline (label : Nat → List Byte) (hl : ∀ n, (label n).length ≤ 4 ∧ ∀ c ∈ label n, c ≠ 10)
    (cur : Nat) (h : 0x20 ≤ cur) : (shown label cur).length ≤ 4 ∧ ∀ c ∈ shown label cur, c ≠ 10 := by
  unfold shown
  split
  · refine ⟨by simp, ?_⟩
    intro c hc e
    rw [List.mem_singleton.1 hc] at e
    have := congrArg BitVec.toNat e
    rw [BitVec.toNat_ofNat] at this
    have h10 : (10 : Byte).toNat = 10 := rfl
    omega
  · exact hl cur

theorem seg_tail (label : Nat → List Byte) (hl : ∀ n, (label n).length ≤ 4 ∧ ∀ c ∈ label n, c ≠ 10)
    (cur last : Nat) (h : 0x20 ≤ cur) : Seg ((tailItems label cur last).flatMap Item.chars)
      (if cur < last then [.punct 44] else [.punct 125, .punct 59]) := by
  rw [tail_chars label cur last h]
  have hc := seg_comment (BitVec.ofNat 8 cur) _ (shown_no_newline label hl cur h).2
  split
  · have s : Seg b!",   " [.punct 44] := fun _ => rfl
    simpa using s.append hc
  · have s : Seg b!" }; " [.punct 125, .punct 59] := fun _ => rfl
    simpa using s.append hc

theorem items_eq (s : GlyphStream) (label : Nat → List Byte) (g : Glyph) (h : s.bitmapOffset < 2147483648) :
    s.items label g = glyphItems s.bitmapOffset g ++ tailItems label s.currentGlyph s.lastChar := by
  have e : Int.bmod s.bitmapOffset 4294967296 = (s.bitmapOffset : Int) := by
    rw [Int.bmod_def]; split <;> omega
  unfold GlyphStream.items glyphItems tailItems
  rw [e]
  simp only [List.append_assoc]

theorem wint_length (w : Nat) (n : Int) (h : (intDec n).length ≤ w) : (Item.wint w n).chars.length = w := by
  simp only [Item.chars, List.length_append, List.length_replicate]
  omega

theorem byte_dec (b : BitVec 8) : (intDec (b.toNat : Int)).length ≤ 4 := by
  have := b.isLt
  have := intDec_length_le 3 (by omega) (b.toNat : Int) (by omega)
  rw [if_neg (by omega)] at this
  omega

theorem sbyte_dec (b : BitVec 8) : (intDec b.toInt).length ≤ 4 := by
  have h1 : b.toInt.natAbs < 10 ^ 3 := by
    rw [BitVec.toInt_eq_toNat_cond]
    have := b.isLt
    split <;> omega
  have := intDec_length_le 3 (by omega) b.toInt h1
  split at this <;> omega

theorem glyphItems_valid (off : Nat) (g : Glyph) (h : off < 100000) :
    (∀ i ∈ glyphItems off g, i.Valid) ∧ ((glyphItems off g).flatMap Item.chars).length = 46 := by
  have h5 : (intDec (off : Int)).length ≤ 5 := by
    have := intDec_length_le 5 (by omega) (off : Int) (by omega)
    rw [if_neg (by omega)] at this
    exact this
  have hy : (intDec g.offY.toInt).length ≤ 5 := by have := sbyte_dec g.offY; omega
  constructor
  · intro i hi
    simp only [glyphItems, List.mem_cons, List.not_mem_nil, or_false] at hi
    rcases hi with rfl | rfl | rfl | rfl | rfl | rfl | rfl | rfl | rfl | rfl | rfl | rfl | rfl
    · show ∀ c ∈ b!"  { ", c ≠ 0
      decide
    · exact h5
    · show ∀ c ∈ b!", {", c ≠ 0
      decide
    · exact byte_dec _
    · show ∀ c ∈ b!",", c ≠ 0
      decide
    · exact byte_dec _
    · show ∀ c ∈ b!" },", c ≠ 0
      decide
    · exact byte_dec _
    · show ∀ c ∈ b!", { ", c ≠ 0
      decide
    · exact sbyte_dec _
    · show ∀ c ∈ b!",", c ≠ 0
      decide
    · exact hy
    · show ∀ c ∈ b!" } }", c ≠ 0
      decide
  · simp only [glyphItems, List.flatMap_cons, List.flatMap_nil, List.length_append, wint_length 5 _ h5,
      wint_length 4 _ (byte_dec _), wint_length 4 _ (sbyte_dec _), wint_length 5 _ hy]
    rfl

theorem tailItems_valid (label : Nat → List Byte) (cur last : Nat) : ∀ i ∈ tailItems label cur last, i.Valid := by
  intro i hi
  have hlit : ∀ s : List Byte, s ∈ [b!",   // 0x", b!" }; // 0x", b!" '", b!"'"] → (Item.lit s).Valid := by
    intro s hs
    show ∀ c ∈ s, c ≠ 0
    revert s
    decide
  unfold tailItems at hi
  simp only [List.mem_append, List.mem_singleton] at hi
  rcases hi with (hi | hi) | hi
  · split at hi <;> simp only [List.mem_cons, List.not_mem_nil, or_false] at hi <;> rcases hi with rfl | rfl
    · exact hlit _ (by simp)
    · trivial
    · exact hlit _ (by simp)
    · trivial
  · split at hi
    · simp only [List.mem_cons, List.not_mem_nil, or_false] at hi
      rcases hi with rfl | rfl | rfl
      · exact hlit _ (by simp)
      · trivial
      · exact hlit _ (by simp)
    · split at hi
      · simp only [List.mem_cons, List.not_mem_nil, or_false] at hi
        rcases hi with rfl | rfl | rfl
        · exact hlit _ (by simp)
        · trivial
        · exact hlit _ (by simp)
      · simp at hi
  · rw [hi]; trivial

/-- One glyph line. -/
theorem glyphPut_ok (junk : Nat → Byte) (label : Nat → List Byte)
    (hl : ∀ n, (label n).length ≤ 4 ∧ ∀ c ∈ label n, c ≠ 10) {s : GlyphStream} (hc : Clean s.base.out)
    (he : s.base.out.text = []) (ho : s.bitmapOffset < 100000) (hcur : 0x20 ≤ s.currentGlyph) (g : Glyph) :
    ∃ s' line, s.put junk label g = .ok s' ∧ Clean s'.base.out ∧ s'.base.out.text = [] ∧
      s'.base.content = s.base.content ++ line ∧ s'.lastChar = s.lastChar ∧
      s'.bitmapOffset = s.bitmapOffset + g.bitmapOffset.toNat ∧
      s'.currentGlyph = (if s.currentGlyph < s.lastChar then (if s.currentGlyph = 0x7E then 0xA0
        else s.currentGlyph + 1) else s.currentGlyph) ∧
      Seg line (glyphInit s.bitmapOffset g ++
        (if s.currentGlyph < s.lastChar then [.punct 44] else [.punct 125, .punct 59])) := by
  obtain ⟨v1, v2⟩ := glyphItems_valid s.bitmapOffset g ho
  have hsh := (shown_no_newline label hl s.currentGlyph hcur).1
  have hlen : ((tailItems label s.currentGlyph s.lastChar).flatMap Item.chars).length ≤ 20 := by
    rw [tail_chars label _ _ hcur]
    simp only [List.length_append, hexPair_length]
    split <;> simp <;> omega
  obtain ⟨b, k1, k2, k3, k4⟩ := buffered_put_ok junk hc (s.items label g)
    (by
      rw [items_eq s label g (by omega)]
      intro i hi
      rcases List.mem_append.1 hi with hi | hi
      · exact v1 i hi
      · exact tailItems_valid label _ _ i hi)
    (by
      rw [items_eq s label g (by omega), he, List.flatMap_append, List.length_append, v2]
      simp only [List.length_nil]
      omega)
  obtain ⟨f1, f2, f3, f4⟩ := flush_content k2
  unfold GlyphStream.put
  rw [k1]; simp only [Res.bind_ok]
  refine ⟨_, _, rfl, f1, f2, f4.trans k4, rfl, rfl, rfl, ?_⟩
  rw [items_eq s label g (by omega), List.flatMap_append]
  exact (seg_glyph _ g).append (seg_tail label hl _ _ hcur)

/-- The initialisers of a list of glyphs, each with the offset of its bitmap. -/
def glyphInits : Nat → List GlyphData → List (List Tok)
  | _, [] => []
  | off, d :: ds => glyphInit off d.descriptor :: glyphInits (off + d.bitmapData.length) ds

theorem glyphInits_get (ds : List GlyphData) (off n : Nat) :
    (glyphInits off ds)[n]? = (ds[n]?).map (fun d =>
      glyphInit (off + ((ds.take n).map (fun d => d.bitmapData.length)).sum) d.descriptor) := by
  induction ds generalizing off n with
  | nil => simp [glyphInits]
  | cons d ds ih =>
    cases n with
    | zero => simp [glyphInits]
    | succ n => simp [glyphInits, ih, Nat.add_assoc]

/-- All glyph lines. -/
theorem glyphPutAll_ok (junk : Nat → Byte) (label : Nat → List Byte)
    (hl : ∀ n, (label n).length ≤ 4 ∧ ∀ c ∈ label n, c ≠ 10) (ds : List GlyphData) (fuel : Nat) {s : GlyphStream}
    (hc : Clean s.base.out) (he : s.base.out.text = []) (hcur : 0x20 ≤ s.currentGlyph)
    (hlast : s.lastChar = 0x7E ∨ s.lastChar = 0xFF) (hfuel : 256 ≤ s.currentGlyph + fuel)
    (hn : ds.length = (codesFrom s.lastChar s.currentGlyph fuel).length) (hpos : ds ≠ [])
    (hb : ∀ d ∈ ds, d.descriptor.bitmapOffset.toNat = d.bitmapData.length)
    (ht : s.bitmapOffset + (bitmapsFile ds).length < 100000) :
    ∃ s' text, s.putAll junk label (ds.map GlyphData.descriptor) = .ok s' ∧ Clean s'.base.out ∧
      s'.base.out.text = [] ∧ s'.base.content = s.base.content ++ text ∧
      Seg text (commaSep (glyphInits s.bitmapOffset ds) ++ [.punct 125, .punct 59]) := by
  induction ds generalizing s fuel with
  | nil => exact absurd rfl hpos
  | cons d ds ih =>
    have htd : (bitmapsFile (d :: ds)).length = d.bitmapData.length + (bitmapsFile ds).length := by
      simp [bitmapsFile]
    obtain ⟨s1, line, k1, k2, k3, k4, k5, k6, k7, k8⟩ := glyphPut_ok junk label hl hc he (by omega) hcur d.descriptor
    have hbd := hb d (List.mem_cons_self ..)
    have hd0 : 0 < (codesFrom s.lastChar s.currentGlyph fuel).length := by rw [← hn]; simp
    obtain ⟨fuel, rfl⟩ : ∃ f, fuel = f + 1 := by
      cases fuel with
      | zero => simp [codesFrom] at hd0
      | succ f => exact ⟨f, rfl⟩
    have hle : s.currentGlyph ≤ s.lastChar := by
      by_contra hgt
      rw [codesFrom, if_neg hgt] at hd0
      simp at hd0
    rw [codesFrom, if_pos hle, List.length_cons, List.length_cons] at hn
    simp only [List.map_cons, GlyphStream.putAll, k1, Res.bind_ok]
    by_cases hlt : s.currentGlyph < s.lastChar
    · rw [if_pos hlt] at k7 k8
      have hne : ds ≠ [] := by
        intro e
        subst e
        have hz : (codesFrom s.lastChar (if s.currentGlyph = 0x7E then 0xA0 else s.currentGlyph + 1) fuel).length = 0 := by
          simp at hn ⊢; omega
        obtain ⟨f, rfl⟩ : ∃ f, fuel = f + 1 := by
          cases fuel with
          | zero => omega
          | succ f => exact ⟨f, rfl⟩
        rw [codesFrom, if_pos (by split <;> omega)] at hz
        simp at hz
      have hcur1 : 0x20 ≤ s1.currentGlyph ∧ s.currentGlyph + 1 ≤ s1.currentGlyph := by
        rw [k7]; split <;> omega
      obtain ⟨s2, text, m1, m2, m3, m4, m5⟩ := ih fuel k2 k3 hcur1.1 (by rw [k5]; exact hlast) (by omega)
        (by rw [k5, k7]; omega) hne (fun d hd => hb d (List.mem_cons_of_mem _ hd)) (by rw [k6]; omega)
      refine ⟨s2, line ++ text, m1, m2, m3, by rw [m4, k4, List.append_assoc], ?_⟩
      have h := k8.append m5
      obtain ⟨d2, ds2, rfl⟩ : ∃ d2 ds2, ds = d2 :: ds2 := by
        cases ds with
        | nil => exact absurd rfl hne
        | cons a b => exact ⟨a, b, rfl⟩
      rw [k6, hbd] at h
      simp only [glyphInits, commaSep, List.append_assoc, List.cons_append, List.nil_append] at h ⊢
      exact h
    · rw [if_neg hlt] at k7 k8
      have heq : s.currentGlyph = s.lastChar := by omega
      have hnil : ds = [] := by
        have : (codesFrom s.lastChar (if s.currentGlyph = 0x7E then 0xA0 else s.currentGlyph + 1) fuel) = [] := by
          cases fuel with
          | zero => rfl
          | succ f => rw [codesFrom, if_neg (by split <;> omega)]
        rw [this] at hn
        exact List.length_eq_zero_iff.1 (by simpa using hn)
      subst hnil
      exact ⟨s1, line, rfl, k2, k3, k4, k8⟩

/-! ## The file -/

/-- The declaration of the font. -/
def fontDecl (name : List Byte) (first last : Nat) (height : Int) : List Tok :=
  [.word b!"const", .word b!"GFXfont", .word name, .punct 61, .punct 123, .word (name ++ b!"Bitmaps"), .punct 44,
    .word (name ++ b!"Glyphs"), .punct 44, .num first, .punct 44, .num last, .punct 44, .num height,
    .punct 125, .punct 59]

theorem hex_seg_comma (n : Nat) (h : n < 256) : Seg (b!"0x" ++ hexPair (BitVec.ofNat 8 n) ++ [44]) [.num n, .punct 44] := by
  have := seg_word_punct _ (by simp) (hexTok_plain (BitVec.ofNat 8 n)) 44 (by decide) (by decide)
  rw [(hexTok_table _).1, BitVec.toNat_ofNat, Nat.mod_eq_of_lt h] at this
  exact this

/-- **C51** and **C49** (header format): the generated header consists of exactly the declarations of the bitmap
array with all bytes of all bitmaps in order, the glyph array with each glyph's metrics and the offset of its bitmap
in that array, and the font; no line is cut by the line buffer.  This holds for any rendering of the font and any
table of glyphs, provided the font name is an identifier of at most 300 characters and the bitmaps take less than
100000 bytes. -/
theorem header_tokens (junk : Nat → Byte) (label : Nat → List Byte)
    (hl : ∀ n, (label n).length ≤ 4 ∧ ∀ c ∈ label n, c ≠ 10)
    (name encoding : List Byte) (hname : IsIdent name) (hlen : name.length ≤ 300)
    (table : List GlyphData) (last : Nat)
    (hlast : (encoding = b!"ASCII" ∧ last = 0x7E) ∨ (encoding ≠ b!"ASCII" ∧ last = 0xFF))
    (hn : table.length = (codes 0x20 last).length)
    (hb : ∀ d ∈ table, d.descriptor.bitmapOffset.toNat = d.bitmapData.length)
    (ht : (bitmapsFile table).length < 100000)
    (height : Int) (hh : -2147483648 ≤ height ∧ height < 2147483648) :
    ∃ file, writeHeaderFile junk label name encoding table 0x20 last height = .ok file ∧
      tokens file =
        arrayDecl b!"uint8_t" (name ++ b!"Bitmaps") ((bitmapsFile table).map (fun b => [Tok.num b.toNat])) ++
        arrayDecl b!"GFXglyph" (name ++ b!"Glyphs") (glyphInits 0 table) ++
        fontDecl name 0x20 last height := by
  have hlast' : (if encoding = b!"ASCII" then 0x7E else 0xFF) = last := by
    rcases hlast with ⟨h1, h2⟩ | ⟨h1, h2⟩
    · rw [if_pos h1, h2]
    · rw [if_neg h1, h2]
  have hl2 : last = 0x7E ∨ last = 0xFF := by
    rcases hlast with h | h
    · exact .inl h.2
    · exact .inr h.2
  have hlit : ∀ s : List Byte, s ∈ [b!"const uint8_t ", b!"Bitmaps[] = {\n", b!" };\n\n", b!"\n", b!"const GFXfont ",
      b!" = {\n", b!"  ", b!"Bitmaps,\n", b!"Glyphs,\n", b!"  0x", b!", 0x", b!", ", b!" };\n"] →
      (Item.lit s).Valid := by
    intro s hs
    show ∀ c ∈ s, c ≠ 0
    revert s
    decide
  -- the bitmap array
  obtain ⟨b0, a1, a2, a3, a4⟩ := buffered_put_ok junk (s := Buffered.new []) clean_new.1
    [.lit b!"const uint8_t ", .str name, .lit b!"Bitmaps[] = {\n"]
    (by
      intro i hi
      simp only [List.mem_cons, List.not_mem_nil, or_false] at hi
      rcases hi with rfl | rfl | rfl
      · exact hlit _ (by simp)
      · trivial
      · exact hlit _ (by simp))
    (by
      have : (Buffered.new []).out.text = [] := clean_new.2
      rw [this]
      simp [Item.chars]
      omega)
  obtain ⟨f1, f2, f3, f4⟩ := flush_content a2
  have inv : HexInv 12 2 ⟨b0.flush, 12, 2, 0, 0⟩ := ⟨f1, rfl, rfl, by simp, by simp [f2], fun _ => f2⟩
  obtain ⟨h1, c1, c2, c3, c4⟩ := hexPutAll_ok junk (by omega) (by omega) (bitmapsFile table) inv (by simp only; omega)
  obtain ⟨b1, d1, d2, d3, d4⟩ := buffered_put_ok junk c2.clean [.lit b!" };\n\n"]
    (by intro i hi; rw [List.mem_singleton.1 hi]; exact hlit _ (by simp))
    (by
      have := c2.room
      have := c2.le
      simp [Item.chars]
      omega)
  obtain ⟨e1, e2, e3, e4⟩ := flush_content d2
  -- the glyph array
  have hne : table ≠ [] := by
    intro e
    subst e
    rcases hl2 with rfl | rfl <;> revert hn <;> decide +kernel
  have gcl : Clean (GlyphStream.new b1.flush.file name encoding).base.out := clean_new.1
  have get : (GlyphStream.new b1.flush.file name encoding).base.out.text = [] := clean_new.2
  have glc : (GlyphStream.new b1.flush.file name encoding).lastChar = last := hlast'
  obtain ⟨g1, gtext, p1, p2, p3, p4, p5⟩ := glyphPutAll_ok junk label hl table 256
    (s := GlyphStream.new b1.flush.file name encoding) gcl get (Nat.le_refl _) (by rw [glc]; exact hl2)
    (by simp) (by rw [glc]; exact hn) hne hb (by simp only [GlyphStream.new]; omega)
  obtain ⟨b2, q1, q2, q3, q4⟩ := buffered_put_ok junk p2 [.lit b!"\n"]
    (by intro i hi; rw [List.mem_singleton.1 hi]; exact hlit _ (by simp)) (by rw [p3]; simp [Item.chars])
  obtain ⟨r1, r2, r3, r4⟩ := flush_content q2
  -- the font
  have hdec : (intDec height).length ≤ 11 := by
    have := intDec_length_le 10 (by omega) height (by omega)
    split at this <;> omega
  obtain ⟨o, u1, u2, u3⟩ := putItems_ok junk clean_new.1
    [.lit b!"const GFXfont ", .str name, .lit b!" = {\n", .lit b!"  ", .str name, .lit b!"Bitmaps,\n",
      .lit b!"  ", .str name, .lit b!"Glyphs,\n",
      .lit b!"  0x", .hex (BitVec.ofNat 8 0x20), .lit b!", 0x", .hex (BitVec.ofNat 8 last), .lit b!", ",
      .int height, .lit b!" };\n"]
    (by
      intro i hi
      simp only [List.mem_cons, List.not_mem_nil, or_false] at hi
      rcases hi with rfl | rfl | rfl | rfl | rfl | rfl | rfl | rfl | rfl | rfl | rfl | rfl | rfl | rfl | rfl | rfl <;>
        first
        | exact hlit _ (by simp)
        | exact True.intro)
    (by
      rw [clean_new.2]
      simp [Item.chars, hexPair_length]
      omega)
  rw [clean_new.2, List.nil_append] at u3
  refine ⟨b2.flush.file ++ o.text, ?_, ?_⟩
  · unfold writeHeaderFile HexStream.new HexStream.close GlyphStream.close
    simp only [a1, c1, d1, p1, q1, u1, Res.bind_ok]
  · -- reading it back
    have hbi := bitmaps_ident hname
    have hgi := glyphs_ident hname
    have w1 : Seg b!"const uint8_t " [.word b!"const", .word b!"uint8_t"] := fun _ => rfl
    have w2 := seg_ident_punct _ hbi 91 (by decide) (by decide)
    have w3 : Seg b!"] = {\n" [.punct 93, .punct 61, .punct 123] := fun _ => rfl
    have w4 := seg_hexBody 12 2 (by omega) (bitmapsFile table)
    have w5 : Seg b!"const GFXglyph " [.word b!"const", .word b!"GFXglyph"] := fun _ => rfl
    have w6 := seg_ident_punct _ hgi 91 (by decide) (by decide)
    have w7 : Seg b!"\n" [] := fun _ => rfl
    have w8 : Seg b!"const GFXfont " [.word b!"const", .word b!"GFXfont"] := fun _ => rfl
    have w9 := seg_ident_space _ hname 32 (by decide)
    have w10 : Seg b!"= {\n  " [.punct 61, .punct 123] := fun _ => rfl
    have w11 := seg_ident_punct _ hbi 44 (by decide) (by decide)
    have w12 : Seg b!"\n  " [] := fun _ => rfl
    have w13 := seg_ident_punct _ hgi 44 (by decide) (by decide)
    have w14 := hex_seg_comma 0x20 (by omega)
    have w15 : Seg b!" " [] := fun _ => rfl
    have w16 := hex_seg_comma last (by omega)
    have w17 := seg_word_space _ (intDec_ne height) (intDec_plain height) 32 (by decide)
    rw [wordTok_int] at w17
    have w18 : Seg b!"};\n" [.punct 125, .punct 59] := fun _ => rfl
    have hall := w1.append (w2.append (w3.append (w4.append (w5.append (w6.append (w3.append (p5.append (w7.append
      (w8.append (w9.append (w10.append (w11.append (w12.append (w13.append (w12.append (w14.append (w15.append
      (w16.append (w15.append (w17.append w18))))))))))))))))))))
    have hfile : b2.flush.file ++ o.text = b!"const uint8_t " ++ (name ++ b!"Bitmaps" ++ [91] ++ (b!"] = {\n" ++
        (hexText 12 2 0 (bitmapsFile table) ++ b!" };\n\n" ++ (b!"const GFXglyph " ++ (name ++ b!"Glyphs" ++ [91] ++
        (b!"] = {\n" ++ (gtext ++ (b!"\n" ++ (b!"const GFXfont " ++ (name ++ [32] ++ (b!"= {\n  " ++
        (name ++ b!"Bitmaps" ++ [44] ++ (b!"\n  " ++ (name ++ b!"Glyphs" ++ [44] ++ (b!"\n  " ++
        (b!"0x" ++ hexPair (BitVec.ofNat 8 0x20) ++ [44] ++ (b!" " ++ (b!"0x" ++ hexPair (BitVec.ofNat 8 last) ++ [44] ++
        (b!" " ++ (intDec height ++ [32] ++ b!"};\n")))))))))))))))))))) := by
      have hz : (Buffered.new []).content = [] := rfl
      have hg : (GlyphStream.new b1.flush.file name encoding).base.content =
          b1.flush.file ++ b!"const GFXglyph " ++ name ++ b!"Glyphs[] = {\n" := by
        simp only [GlyphStream.new, Buffered.new, Buffered.content]
        rw [clean_new.2, List.append_nil]
      rw [r3, q4, p4, hg, e3, d4, c4, u3]
      simp only [f4, a4, hz]
      simp [Item.chars]
    have hgoal := hall []
    rw [List.append_nil, ← hfile] at hgoal
    unfold tokens
    rw [hgoal]
    simp [lex, emit, arrayDecl, fontDecl, GlyphStream.new]

/-- **C51**: the text written by the hex stream alone reads as the declaration of an array of exactly the bytes
written, for any number of bytes the `int` counter can count and any layout whose lines fit into the buffer. -/
theorem hex_stream_tokens (junk : Nat → Byte) (name : List Byte) (hname : IsIdent name) (hlen : name.length ≤ 300)
    (bil ind : Nat) (hb : 1 ≤ bil) (hroom : ind + 6 * bil + 8 ≤ 1024)
    (bytes : List Byte) (ht : bytes.length < 2147483648) (before : List Byte) :
    ∃ h0 h1 file, HexStream.new junk before name bil ind = .ok h0 ∧ h0.putAll junk bytes = .ok h1 ∧
      h1.close junk = .ok (before ++ file) ∧
      tokens file = arrayDecl b!"uint8_t" (name ++ b!"Bitmaps") (bytes.map (fun b => [Tok.num b.toNat])) := by
  obtain ⟨b0, a1, a2, a3, a4⟩ := buffered_put_ok junk (s := Buffered.new before) clean_new.1
    [.lit b!"const uint8_t ", .str name, .lit b!"Bitmaps[] = {\n"]
    (by
      intro i hi
      simp only [List.mem_cons, List.not_mem_nil, or_false] at hi
      rcases hi with rfl | rfl | rfl
      · show ∀ c ∈ b!"const uint8_t ", c ≠ 0
        decide
      · exact True.intro
      · show ∀ c ∈ b!"Bitmaps[] = {\n", c ≠ 0
        decide)
    (by
      have : (Buffered.new before).out.text = [] := clean_new.2
      rw [this]
      simp [Item.chars]
      omega)
  obtain ⟨f1, f2, f3, f4⟩ := flush_content a2
  have inv : HexInv bil ind ⟨b0.flush, bil, ind, 0, 0⟩ := ⟨f1, rfl, rfl, by simp, by simp [f2], fun _ => f2⟩
  obtain ⟨h1, c1, c2, c3, c4⟩ := hexPutAll_ok junk hb hroom bytes inv (by simp only; omega)
  obtain ⟨b1, d1, d2, d3, d4⟩ := buffered_put_ok junk c2.clean [.lit b!" };\n\n"]
    (by
      intro i hi
      rw [List.mem_singleton.1 hi]
      show ∀ c ∈ b!" };\n\n", c ≠ 0
      decide)
    (by
      have := c2.room
      have := c2.le
      simp [Item.chars]
      omega)
  obtain ⟨e1, e2, e3, e4⟩ := flush_content d2
  refine ⟨⟨b0.flush, bil, ind, 0, 0⟩, h1, b!"const uint8_t " ++ (name ++ b!"Bitmaps" ++ [91] ++ (b!"] = {\n" ++
    (hexText bil ind 0 bytes ++ b!" };\n\n"))), ?_, c1, ?_, ?_⟩
  · unfold HexStream.new
    simp only [a1, Res.bind_ok]
  · unfold HexStream.close
    simp only [d1, Res.bind_ok]
    rw [e3, d4, c4]
    have hz : (Buffered.new before).content = before := by
      simp only [Buffered.new, Buffered.content]
      rw [clean_new.2, List.append_nil]
    simp only [f4, a4, hz]
    simp [Item.chars]
  · have w1 : Seg b!"const uint8_t " [.word b!"const", .word b!"uint8_t"] := fun _ => rfl
    have w2 := seg_ident_punct _ (bitmaps_ident hname) 91 (by decide) (by decide)
    have w3 : Seg b!"] = {\n" [.punct 93, .punct 61, .punct 123] := fun _ => rfl
    have w4 := seg_hexBody bil ind hb bytes
    have hgoal := (w1.append (w2.append (w3.append w4))) []
    rw [List.append_nil] at hgoal
    unfold tokens
    rw [hgoal]
    simp [lex, emit, arrayDecl]

/-- **C49** (header format): the `n`-th member of the glyph array in the header carries the total size of the bitmaps
before it, and its own bytes are found there in the bitmap array. -/
theorem header_offsets (ds : List GlyphData) (n : Nat) (d : GlyphData) (h : ds[n]? = some d) :
    ∃ off, (glyphInits 0 ds)[n]? = some (glyphInit off d.descriptor) ∧
      off = ((ds.take n).map (fun d => d.bitmapData.length)).sum ∧
      ((bitmapsFile ds).drop off).take d.bitmapData.length = d.bitmapData := by
  refine ⟨_, ?_, rfl, ?_⟩
  · rw [glyphInits_get, h]
    simp
  · have hlen : ((ds.take n).map (fun d => d.bitmapData.length)).sum = (bitmapsFile (ds.take n)).length := by
      simp [bitmapsFile, List.length_flatMap]
    rw [hlen]
    have hn : n < ds.length := (List.getElem?_eq_some_iff.1 h).1
    have e : ds = ds.take n ++ d :: ds.drop (n + 1) := by
      have hd : ds[n] = d := (List.getElem?_eq_some_iff.1 h).2
      rw [← hd, List.getElem_cons_drop, List.take_append_drop]
    have e2 : bitmapsFile ds = bitmapsFile (ds.take n) ++ (d.bitmapData ++ bitmapsFile (ds.drop (n + 1))) := by
      conv_lhs => rw [e]
      simp [bitmapsFile]
    rw [e2, List.drop_left, List.take_left]

/-- A font of 95 glyphs of one pixel each. -/
def dots : List GlyphData := List.replicate 95 ⟨⟨1, 1, 1, 2, 0, 0⟩, [0x80]⟩

/-- The hypotheses of `header_tokens` hold for a small font. -/
example : ∃ file, writeHeaderFile (fun _ => 0) (fun _ => []) b!"Dots8pt7b" b!"ASCII" dots 0x20 0x7E 5 = .ok file ∧
    tokens file =
      arrayDecl b!"uint8_t" b!"Dots8pt7bBitmaps" ((bitmapsFile dots).map (fun b => [Tok.num b.toNat])) ++
      arrayDecl b!"GFXglyph" b!"Dots8pt7bGlyphs" (glyphInits 0 dots) ++
      fontDecl b!"Dots8pt7b" 0x20 0x7E 5 := by
  apply header_tokens (fun _ => 0) (fun _ => []) (by simp) b!"Dots8pt7b" b!"ASCII"
  · exact ⟨by unfold isIdentChar; decide, 68, b!"ots8pt7b", rfl, by decide⟩
  · decide
  · exact .inl ⟨rfl, rfl⟩
  · decide +kernel
  · intro d hd
    rw [List.eq_of_mem_replicate hd]
    rfl
  · decide +kernel
  · omega

/-- From 100000 bytes on the offset column is too narrow and the last digit of the offset is lost: the header then
says 10000. -/
theorem header_offset_truncated :
    ∃ s', (⟨Buffered.new [], 0x21, 0x7E, 100000⟩ : GlyphStream).put (fun _ => 0) (fun _ => []) ⟨1, 1, 1, 2, 0, 0⟩ =
        .ok s' ∧
      tokens s'.base.file = glyphInit 10000 ⟨1, 1, 1, 2, 0, 0⟩ ++ [.punct 44] := by
  have h : (match (⟨Buffered.new [], 0x21, 0x7E, 100000⟩ : GlyphStream).put (fun _ => 0) (fun _ => [])
      ⟨1, 1, 1, 2, 0, 0⟩ with
      | .ok s' => decide (tokens s'.base.file = glyphInit 10000 ⟨1, 1, 1, 2, 0, 0⟩ ++ [.punct 44])
      | _ => false) = true := by decide +kernel
  split at h
  · rename_i s' hs
    exact ⟨s', hs, of_decide_eq_true h⟩
  · simp at h

/-- A font name which does not fit into the line buffer cuts the declaration: here the array is called `AAA...Bitma`
and neither the brackets nor the brace are written. -/
theorem long_name_truncated :
    ∃ s, HexStream.new (fun _ => 0) [] (List.replicate 1005 65) 12 2 = .ok s ∧
      tokens s.base.file = [.word b!"const", .word b!"uint8_t", .word (List.replicate 1005 65 ++ b!"Bitma")] := by
  have h : (match HexStream.new (fun _ => 0) [] (List.replicate 1005 65) 12 2 with
      | .ok s => decide (tokens s.base.file = [.word b!"const", .word b!"uint8_t",
          .word (List.replicate 1005 65 ++ b!"Bitma")])
      | _ => false) = true := by decide +kernel
  split at h
  · rename_i s' hs
    exact ⟨s', hs, of_decide_eq_true h⟩
  · simp at h

end Verif.Converter
