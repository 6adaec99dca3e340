import Verif.Converter.MainProps
/-!
# C93: the header and the binary output describe the same font

A small reader of C++ declarations (specification): the tokens of the generated header are read as three
declarations with brace-enclosed initialisers, and the initialisers are given their meaning by the types
`GFXglyph = GlyphDescriptor` and `GFXfont = FontDescriptor` (EmbeddedFonts.cpp:11-12, GFXFontsAdapter.h:10-26).
Inside braces a constant which does not fit its member is ill-formed (narrowing), and so is an array without
members.  The font so compiled is compared with the font made of the files of the binary format.
-/
namespace Verif.Converter
open Verif.Font Verif.Text Verif.Canvas Verif.FrameBuffer Verif.Out

/-! ## Reading declarations -/

/-- An initialiser. -/
inductive Init where
  | num (n : Int)
  | name (s : List Byte)
  | braces (l : List Init)

/-- Read an initialiser; `stack` holds, innermost first, the members read so far (the last one first) of the open
braces, `after` says that a member has just been read. -/
def readInit : Bool → List (List Init) → List Tok → Option (Init × List Tok)
  | _, _, [] => none
  | _, [], _ :: _ => none
  | after, top :: st, .num n :: ts => if after then none else readInit true ((.num n :: top) :: st) ts
  | after, top :: st, .word s :: ts => if after then none else readInit true ((.name s :: top) :: st) ts
  | after, top :: st, .punct c :: ts =>
    if c = 123 ∧ after = false then readInit false ([] :: top :: st) ts
    else if c = 44 ∧ after = true then readInit false (top :: st) ts
    else if c = 125 then
      match st with
      | [] => some (.braces top.reverse, ts)
      | up :: st => readInit true ((.braces top.reverse :: up) :: st) ts
    else none

/-- A declaration `const TYPE NAME = ...;` or `const TYPE NAME[] = ...;`. -/
structure Decl where
  type : List Byte
  name : List Byte
  array : Bool
  init : Init

/-- Read a declaration from the name on. -/
def readBody (type name : List Byte) (array : Bool) (ts : List Tok) : Option (Decl × List Tok) :=
  if ts.take 2 = [.punct 61, .punct 123] then
    match readInit false [[]] (ts.drop 2) with
    | some (i, .punct c :: rest) => if c = 59 then some (⟨type, name, array, i⟩, rest) else none
    | _ => none
  else none

/-- Read a declaration. -/
def readDecl : List Tok → Option (Decl × List Tok)
  | .word c :: .word t :: .word n :: ts =>
    if c = b!"const" then
      if ts.take 2 = [.punct 91, .punct 93] then readBody t n true (ts.drop 2) else readBody t n false ts
    else none
  | _ => none

/-- A constant which fits its type. -/
def unsigned (bits : Nat) : Init → Option (BitVec bits)
  | .num n => if 0 ≤ n ∧ n < 2 ^ bits then some (BitVec.ofInt bits n) else none
  | _ => none
def signed8 : Init → Option (BitVec 8)
  | .num n => if -128 ≤ n ∧ n < 128 then some (BitVec.ofInt 8 n) else none
  | _ => none

/-- The members of an array, at least one. -/
def members {α : Type} (f : Init → Option α) : Init → Option (List α)
  | .braces l => if l = [] then none else l.mapM f
  | _ => none

/-- A `GlyphDescriptor` (GFXFontsAdapter.h:10-16). -/
def glyphOf : Init → Option Glyph
  | .braces [o, .braces [w, h], s, .braces [x, y]] => do
    let o ← unsigned 16 o
    let w ← unsigned 8 w
    let h ← unsigned 8 h
    let s ← unsigned 8 s
    let x ← signed8 x
    let y ← signed8 y
    some ⟨o, w, h, s, x, y⟩
  | _ => none

/-- The font declared by a header, and its `verticalShift`: an array of bytes, an array of glyphs and a font made of
both; none if the compiler refuses it. -/
def compile (ts : List Tok) : Option (Font × BitVec 8) :=
  match readDecl ts with
  | none => none
  | some (b, ts) =>
  match readDecl ts with
  | none => none
  | some (g, ts) =>
  match readDecl ts with
  | none => none
  | some (f, ts) =>
  if ts = [] ∧ b.type = b!"uint8_t" ∧ b.array = true ∧ g.type = b!"GFXglyph" ∧ g.array = true ∧
      f.type = b!"GFXfont" ∧ f.array = false ∧ b.name ≠ g.name ∧ b.name ≠ f.name ∧ g.name ≠ f.name then
    match f.init with
    | .braces [.name b', .name g', first, last, shift] =>
      if b' = b.name ∧ g' = g.name then do
        let bytes ← members (unsigned 8) b.init
        let glyphs ← members glyphOf g.init
        let first ← unsigned 8 first
        let last ← unsigned 8 last
        let shift ← unsigned 8 shift
        some (⟨bytes, glyphs, first, last⟩, shift)
      else none
    | _ => none
  else none

/-! ## The generated tokens -/

/-- The tokens `ts` are read as the member `v`. -/
def Reads (ts : List Tok) (v : Init) : Prop :=
  ∀ top st rest, readInit false (top :: st) (ts ++ rest) = readInit true ((v :: top) :: st) rest

theorem reads_num (n : Int) : Reads [.num n] (.num n) := fun _ _ _ => rfl
theorem reads_word (s : List Byte) : Reads [.word s] (.name s) := fun _ _ _ => rfl

/-- Members separated by commas, up to the closing brace. -/
theorem readInit_commaSep (ms : List (List Tok × Init)) (h : ∀ m ∈ ms, Reads m.1 m.2) (top : List Init)
    (st : List (List Init)) (rest : List Tok) :
    readInit false (top :: st) (commaSep (ms.map Prod.fst) ++ .punct 125 :: rest) =
      match st with
      | [] => some (.braces (top.reverse ++ ms.map Prod.snd), rest)
      | up :: st => readInit true ((.braces (top.reverse ++ ms.map Prod.snd) :: up) :: st) rest := by
  induction ms generalizing top with
  | nil =>
    simp only [List.map_nil, commaSep, List.nil_append, List.append_nil]
    cases st <;> simp [readInit]
  | cons m ms ih =>
    have h1 := h m (List.mem_cons_self ..)
    have h2 := fun m hm => h m (List.mem_cons_of_mem _ hm)
    cases ms with
    | nil =>
      simp only [List.map_cons, List.map_nil, commaSep]
      rw [h1]
      cases st <;> simp [readInit]
    | cons m2 ms =>
      have e : commaSep (List.map Prod.fst (m :: m2 :: ms)) ++ .punct 125 :: rest =
          m.1 ++ (.punct 44 :: (commaSep (List.map Prod.fst (m2 :: ms)) ++ .punct 125 :: rest)) := by
        simp only [List.map_cons, commaSep, List.append_assoc, List.cons_append]
      rw [e, h1]
      have e2 : ∀ ts, readInit true ((m.2 :: top) :: st) (.punct 44 :: ts) = readInit false ((m.2 :: top) :: st) ts := by
        intro ts; simp [readInit]
      rw [e2, ih h2]
      simp only [List.map_cons, List.reverse_cons, List.append_assoc, List.cons_append, List.nil_append]

/-- A list in braces is read as a member. -/
theorem reads_braces (ms : List (List Tok × Init)) (h : ∀ m ∈ ms, Reads m.1 m.2) :
    Reads (.punct 123 :: (commaSep (ms.map Prod.fst) ++ [.punct 125])) (.braces (ms.map Prod.snd)) := by
  intro top st rest
  have e : ∀ ts, readInit false (top :: st) (.punct 123 :: ts) = readInit false ([] :: top :: st) ts := by
    intro ts; simp [readInit]
  rw [List.cons_append, e, List.append_assoc, List.singleton_append, readInit_commaSep ms h]
  simp only [List.reverse_nil, List.nil_append]

/-- The initialiser of a glyph. -/
def glyphTree (o : Nat) (g : Glyph) : Init :=
  .braces [.num o, .braces [.num g.width.toNat, .num g.height.toNat], .num g.shift.toNat,
    .braces [.num g.offX.toInt, .num g.offY.toInt]]

theorem reads_glyph (o : Nat) (g : Glyph) : Reads (glyphInit o g) (glyphTree o g) := by
  have h1 := reads_braces [([.num g.width.toNat], .num g.width.toNat), ([.num g.height.toNat], .num g.height.toNat)]
    (by simp [reads_num])
  have h2 := reads_braces [([.num g.offX.toInt], .num g.offX.toInt), ([.num g.offY.toInt], .num g.offY.toInt)]
    (by simp [reads_num])
  have h3 := reads_braces [([.num o], .num o), (_, _), ([.num g.shift.toNat], .num g.shift.toNat), (_, _)] (by
    intro m hm
    simp only [List.mem_cons, List.not_mem_nil, or_false] at hm
    rcases hm with rfl | rfl | rfl | rfl
    · exact reads_num _
    · exact h1
    · exact reads_num _
    · exact h2)
  exact h3

theorem readDecl_array (type name : List Byte) (ms : List (List Tok × Init)) (h : ∀ m ∈ ms, Reads m.1 m.2)
    (rest : List Tok) :
    readDecl (arrayDecl type name (ms.map Prod.fst) ++ rest) =
      some (⟨type, name, true, .braces (ms.map Prod.snd)⟩, rest) := by
  have e : arrayDecl type name (ms.map Prod.fst) ++ rest =
      .word b!"const" :: .word type :: .word name :: .punct 91 :: .punct 93 :: .punct 61 :: .punct 123 ::
        (commaSep (ms.map Prod.fst) ++ .punct 125 :: .punct 59 :: rest) := by
    simp only [arrayDecl, List.append_assoc, List.cons_append, List.nil_append]
  rw [e]
  simp only [readDecl, readBody, if_true, List.take_succ_cons, List.take_zero, List.drop_succ_cons, List.drop_zero]
  rw [readInit_commaSep ms h]
  simp only [List.reverse_nil, List.nil_append, if_true]

theorem readDecl_font (name : List Byte) (first last : Nat) (height : Int) :
    readDecl (fontDecl name first last height) =
      some (⟨b!"GFXfont", name, false, .braces [.name (name ++ b!"Bitmaps"), .name (name ++ b!"Glyphs"), .num first,
        .num last, .num height]⟩, []) := by
  simp [fontDecl, readDecl, readBody, readInit]

/-! ## The meaning of the initialisers -/

theorem unsigned_byte (b : Byte) : unsigned 8 (.num b.toNat) = some b := by
  have := b.isLt
  unfold unsigned; dsimp only
  rw [if_pos (by omega)]
  congr 1
  apply BitVec.eq_of_toNat_eq
  rw [BitVec.toNat_ofInt]
  omega

theorem signed_byte (b : Byte) : signed8 (.num b.toInt) = some b := by
  have h1 := b.toInt_lt
  have h2 := b.le_toInt
  unfold signed8; dsimp only
  rw [if_pos (by omega), BitVec.ofInt_toInt]

theorem glyphOf_tree (o : Nat) (g : Glyph) :
    glyphOf (glyphTree o g) = if o < 65536 then some { g with bitmapOffset := BitVec.ofNat 16 o } else none := by
  unfold glyphTree glyphOf
  simp only [unsigned_byte, signed_byte]
  by_cases h : o < 65536
  · rw [if_pos h]
    have : unsigned 16 (.num o) = some (BitVec.ofNat 16 o) := by
      unfold unsigned; dsimp only
      rw [if_pos (by omega)]
      congr 1
    rw [this]
    rfl
  · rw [if_neg h]
    have : unsigned 16 (.num o) = none := by
      unfold unsigned; dsimp only
      rw [if_neg (by omega)]
    rw [this]
    rfl

/-- The offset of the bitmap of glyph `n`. -/
def offsetOf (ds : List GlyphData) (n : Nat) : Nat := ((ds.take n).map fun d => d.bitmapData.length).sum

/-- The initialisers of the glyph table. -/
def glyphTrees : Nat → List GlyphData → List Init
  | _, [] => []
  | off, d :: ds => glyphTree off d.descriptor :: glyphTrees (off + d.bitmapData.length) ds

theorem glyphInits_pairs (off : Nat) (ds : List GlyphData) :
    ∃ ms : List (List Tok × Init), ms.map Prod.fst = glyphInits off ds ∧ ms.map Prod.snd = glyphTrees off ds ∧
      ∀ m ∈ ms, Reads m.1 m.2 := by
  induction ds generalizing off with
  | nil => exact ⟨[], rfl, rfl, by simp⟩
  | cons d ds ih =>
    obtain ⟨ms, h1, h2, h3⟩ := ih (off + d.bitmapData.length)
    refine ⟨(glyphInit off d.descriptor, glyphTree off d.descriptor) :: ms, ?_, ?_, ?_⟩
    · simp only [List.map_cons, h1, glyphInits]
    · simp only [List.map_cons, h2, glyphTrees]
    · intro m hm
      rcases List.mem_cons.1 hm with rfl | hm
      · exact reads_glyph _ _
      · exact h3 m hm

theorem glyphTrees_ok (off : Nat) (ds : List GlyphData) (h : ∀ n, n < ds.length → off + offsetOf ds n < 65536) :
    (glyphTrees off ds).mapM glyphOf = some (binaryGlyphs (BitVec.ofNat 16 off) ds) := by
  induction ds generalizing off with
  | nil => rfl
  | cons d ds ih =>
    have h0 : off < 65536 := by
      have := h 0 (by simp)
      simpa [offsetOf] using this
    have hr := ih (off + d.bitmapData.length) (by
      intro n hn
      have := h (n + 1) (by simpa using hn)
      simp only [offsetOf, List.take_succ_cons, List.map_cons, List.sum_cons] at this
      unfold offsetOf
      omega)
    simp only [glyphTrees, List.mapM_cons, glyphOf_tree, if_pos h0, hr, binaryGlyphs]
    rw [BitVec.ofNat_add]
    rfl

theorem glyphTrees_none (off : Nat) (ds : List GlyphData) (h : ∃ n, n < ds.length ∧ 65536 ≤ off + offsetOf ds n) :
    (glyphTrees off ds).mapM glyphOf = none := by
  induction ds generalizing off with
  | nil => obtain ⟨n, hn, -⟩ := h; simp at hn
  | cons d ds ih =>
    obtain ⟨n, hn, hle⟩ := h
    simp only [glyphTrees, List.mapM_cons, glyphOf_tree]
    by_cases h0 : off < 65536
    · rw [if_pos h0]
      have hr := ih (off + d.bitmapData.length) (by
        cases n with
        | zero => simp only [offsetOf, List.take_zero, List.map_nil, List.sum_nil] at hle; omega
        | succ n =>
          refine ⟨n, by simpa using hn, ?_⟩
          simp only [offsetOf, List.take_succ_cons, List.map_cons, List.sum_cons] at hle
          unfold offsetOf
          omega)
      rw [hr]; rfl
    · rw [if_neg h0]; rfl

/-- What a table of glyphs must satisfy for its header to be accepted by the compiler: there is a byte of bitmap, the
bitmaps begin at offsets below 65536, and the height fits a byte. -/
structure Compiles (ds : List GlyphData) (height : Int) : Prop where
  bytes : bitmapsFile ds ≠ []
  offsets : ∀ n, n < ds.length → offsetOf ds n < 65536
  height : 0 ≤ height ∧ height < 256

/-- The declarations of a header, compiled. -/
theorem compile_decls (name : List Byte) (ds : List GlyphData) (first last : Nat) (hf : first < 256) (hl : last < 256)
    (height : Int) :
    compile (arrayDecl b!"uint8_t" (name ++ b!"Bitmaps") ((bitmapsFile ds).map (fun b => [Tok.num b.toNat])) ++
        arrayDecl b!"GFXglyph" (name ++ b!"Glyphs") (glyphInits 0 ds) ++ fontDecl name first last height) =
      open Classical in
      if Compiles ds height then
        some (⟨bitmapsFile ds, binaryGlyphs 0 ds, BitVec.ofNat 8 first, BitVec.ofNat 8 last⟩, BitVec.ofInt 8 height)
      else none := by
  classical
  have hd1 : ∀ rest, readDecl (arrayDecl b!"uint8_t" (name ++ b!"Bitmaps")
        ((bitmapsFile ds).map (fun b => [Tok.num b.toNat])) ++ rest) =
      some (⟨b!"uint8_t", name ++ b!"Bitmaps", true, .braces ((bitmapsFile ds).map fun b => .num b.toNat)⟩, rest) := by
    intro rest
    have := readDecl_array b!"uint8_t" (name ++ b!"Bitmaps")
      ((bitmapsFile ds).map fun b => ([Tok.num b.toNat], Init.num b.toNat)) (by
        intro m hm
        obtain ⟨b, -, rfl⟩ := List.mem_map.1 hm
        exact reads_num _) rest
    simp only [List.map_map, Function.comp_def] at this
    exact this
  obtain ⟨ms, m1, m2, m3⟩ := glyphInits_pairs 0 ds
  have hd2 := readDecl_array b!"GFXglyph" (name ++ b!"Glyphs") ms m3 (fontDecl name first last height)
  rw [m1, m2] at hd2
  have hn1 : name ++ b!"Bitmaps" ≠ name ++ b!"Glyphs" := by
    intro h; exact absurd (List.append_cancel_left h) (by decide)
  have hn2 : name ++ b!"Bitmaps" ≠ name := by
    intro h; have := congrArg List.length h; simp at this
  have hn3 : name ++ b!"Glyphs" ≠ name := by
    intro h; have := congrArg List.length h; simp at this
  unfold compile
  rw [List.append_assoc, hd1]
  simp only [hd2, readDecl_font]
  rw [if_pos ⟨trivial, trivial, trivial, trivial, trivial, trivial, trivial, hn1, hn2, hn3⟩]
  rw [if_pos ⟨trivial, trivial⟩]
  have hu : ∀ v : Nat, v < 256 → unsigned 8 (.num v) = some (BitVec.ofNat 8 v) := by
    intro v hv
    unfold unsigned; dsimp only
    rw [if_pos (by omega)]
    rfl
  have hbytes : ∀ l : List Byte, (l.map fun b => Init.num b.toNat).mapM (unsigned 8) = some l := by
    intro l
    induction l with
    | nil => rfl
    | cons b l ih => simp only [List.map_cons, List.mapM_cons, unsigned_byte, ih]; rfl
  simp only [members, List.map_eq_nil_iff, hbytes, hu first hf, hu last hl]
  by_cases h : Compiles ds height
  · rw [if_pos h, if_neg h.bytes]
    have hg : glyphTrees 0 ds ≠ [] := by
      cases ds with
      | nil => exact absurd rfl h.bytes
      | cons d ds => simp [glyphTrees]
    rw [if_neg hg, glyphTrees_ok 0 ds (by intro n hn; have := h.offsets n hn; omega)]
    have hh : unsigned 8 (.num height) = some (BitVec.ofInt 8 height) := by
      unfold unsigned; dsimp only
      have := h.height
      rw [if_pos (by omega)]
    rw [hh]
    rfl
  · rw [if_neg h]
    by_cases hb : bitmapsFile ds = []
    · rw [if_pos hb]; rfl
    · rw [if_neg hb]
      by_cases ho : ∀ n, n < ds.length → offsetOf ds n < 65536
      · have hh : unsigned 8 (.num height) = none := by
          unfold unsigned; dsimp only
          rw [if_neg]
          intro hc
          exact h ⟨hb, ho, by omega⟩
        rw [hh]
        have hg : glyphTrees 0 ds ≠ [] := by
          cases ds with
          | nil => exact absurd rfl hb
          | cons d ds => simp [glyphTrees]
        rw [if_neg hg, glyphTrees_ok 0 ds (by intro n hn; have := ho n hn; omega)]
        rfl
      · have hex : ∃ n, n < ds.length ∧ 65536 ≤ 0 + offsetOf ds n := by
          by_contra hc
          apply ho
          intro n hn
          by_contra hn2
          exact hc ⟨n, hn, by omega⟩
        rw [glyphTrees_none 0 ds hex]
        split <;> rfl

end Verif.Converter
