import Verif.Converter.CompileProps
/-!
# C100: from a font file to a text on the screen

The converter's output, in either format, handed to `Canvas::drawStringAt`: the text appears on the screen as
FreeType renders its characters, set one after another.
-/
namespace Verif.Converter.Main
open Verif.Font Verif.Text Verif.Canvas Verif.FrameBuffer Verif.Converter.Config

/-! ## Specification: setting a text with rendered glyphs -/

/-- Whole pixels the pen moves for a text. -/
def penMove (r : Nat → Rendered) : List Byte → Int
  | [] => 0
  | b :: bs => (r b.toNat).advance / 65536 + penMove r bs

/-- The pixels of one rendered character with the pen at `pos`. -/
def Inked (r : Rendered) (pos p : Pt) : Prop :=
  ∃ x y : Nat, x < r.width ∧ y < r.rows ∧ r.isSet x y = true ∧ p = ⟨pos.x + r.left + x, pos.y + (1 - r.top) + y⟩

/-- The pixels of a text: those of each character, with the pen moved by the characters before. -/
def TextInked (r : Nat → Rendered) (pos : Pt) (text : List Byte) (p : Pt) : Prop :=
  ∃ before b after, text = before ++ b :: after ∧ Inked (r b.toNat) ⟨pos.x + penMove r before, pos.y⟩ p

/-! ## Texts from characters -/

/-- The font draws each of these characters as rendered. -/
def DrawsChars (signed : Bool) (f : Font) (r : Nat → Rendered) (ok : Byte → Prop) : Prop :=
  ∀ (cv : Canvas) (g : Geom) (fb : FB) (pos : Pt) (b : Byte), Ready cv g fb → SmallPt pos → ok b →
    ∃ fb', drawCharAt cv g fb signed f pos b = .ok (fb', (r b.toNat).advance / 65536) ∧
      Paints cv g fb fb' (Inked (r b.toNat) pos)

theorem text_of_chars {signed : Bool} {f : Font} {r : Nat → Rendered} {ok : Byte → Prop}
    (h : DrawsChars signed f r ok)
    (hadv : ∀ b, ok b → 0 ≤ (r b.toNat).advance / 65536 ∧ (r b.toNat).advance / 65536 < 256)
    (cv : Canvas) (g : Geom) (fb : FB) (hr : Ready cv g fb) (pos : Pt) (text : List Byte) (ht : ∀ b ∈ text, ok b)
    (hp : (-134217728 ≤ pos.x ∧ pos.x + 255 * text.length ≤ 134217728) ∧ -134217728 ≤ pos.y ∧ pos.y ≤ 134217728) :
    ∃ fb', drawStringAt cv g signed f fb pos text = .ok fb' ∧ Paints cv g fb fb' (TextInked r pos text) := by
  induction text generalizing fb pos with
  | nil =>
    refine ⟨fb, rfl, paints_congr (paints_refl cv g fb) ?_⟩
    intro p
    constructor
    · intro h; exact h.elim
    · rintro ⟨a, b, c, e, -⟩
      simp at e
  | cons b bs ih =>
    simp only [List.length_cons] at hp
    push_cast at hp
    obtain ⟨fb1, k1, k2⟩ := h cv g fb pos b hr (by constructor <;> constructor <;> omega) (ht b (by simp))
    have ha := hadv b (ht b (by simp))
    obtain ⟨fb2, k3, k4⟩ := ih fb1 (paints_ready hr k2) ⟨pos.x + (r b.toNat).advance / 65536, pos.y⟩
      (fun x hx => ht x (by simp [hx])) (by simp only; omega)
    refine ⟨fb2, ?_, paints_congr (paints_trans k2 k4) ?_⟩
    · unfold drawStringAt
      rw [k1]; simp only [Res.bind_ok]
      rw [chk_ok (v := pos.x + (r b.toNat).advance / 65536) (by constructor <;> omega)]; simp only [Res.bind_ok]
      exact k3
    · intro p
      constructor
      · rintro (hq | ⟨a, x, c, e, hx⟩)
        · exact ⟨[], b, bs, rfl, by simpa [penMove] using hq⟩
        · refine ⟨b :: a, x, c, by rw [e]; rfl, ?_⟩
          simp only [penMove]
          rw [← Int.add_assoc]
          exact hx
      · rintro ⟨a, x, c, e, hx⟩
        cases a with
        | nil =>
          simp only [List.nil_append, List.cons.injEq] at e
          rw [e.1]
          exact .inl (by simpa [penMove] using hx)
        | cons a0 a =>
          simp only [List.cons_append, List.cons.injEq] at e
          rw [e.1]
          refine .inr ⟨a, x, c, e.2, ?_⟩
          simp only [penMove] at hx
          rw [← Int.add_assoc] at hx
          exact hx

/-- A text with a character the font does not survive, behind characters it draws. -/
theorem text_ub {signed : Bool} {f : Font} {r : Nat → Rendered} {ok : Byte → Prop}
    (h : DrawsChars signed f r ok)
    (hadv : ∀ b, ok b → 0 ≤ (r b.toNat).advance / 65536 ∧ (r b.toNat).advance / 65536 < 256)
    (cv : Canvas) (g : Geom) (fb : FB) (hr : Ready cv g fb) (pos : Pt) (before after : List Byte) (b : Byte)
    (ht : ∀ b ∈ before, ok b) (hb : getBitmap signed f b = .ub)
    (hp : (-134217728 ≤ pos.x ∧ pos.x + 255 * before.length ≤ 134217728) ∧ -134217728 ≤ pos.y ∧ pos.y ≤ 134217728) :
    drawStringAt cv g signed f fb pos (before ++ b :: after) = .ub := by
  induction before generalizing fb pos with
  | nil =>
    simp only [List.nil_append]
    unfold drawStringAt drawCharAt
    obtain ⟨v, hv, -⟩ := shifts_ok hr
    rw [hv]; simp only [Res.bind_ok]
    rw [hb]
    rfl
  | cons x xs ih =>
    simp only [List.length_cons] at hp
    push_cast at hp
    obtain ⟨fb1, k1, k2⟩ := h cv g fb pos x hr (by constructor <;> constructor <;> omega) (ht x (by simp))
    have ha := hadv x (ht x (by simp))
    simp only [List.cons_append]
    unfold drawStringAt
    rw [k1]; simp only [Res.bind_ok]
    rw [chk_ok (v := pos.x + (r x.toNat).advance / 65536) (by constructor <;> omega)]; simp only [Res.bind_ok]
    exact ih fb1 (paints_ready hr k2) _ (fun y hy => ht y (by simp [hy])) (by simp only; omega)

/-! ## The two formats -/

/-- What a converted font does with texts of printable characters of its encoding: it sets them as rendered, unless they
contain the last character of the font (C44). -/
def SetsTexts (f : Font) (last : Nat) (r : Nat → Rendered) : Prop :=
  ∀ (cv : Canvas) (g : Geom) (fb : FB) (signed : Bool) (pos : Pt) (text : List Byte), Ready cv g fb →
    (∀ b ∈ text, inRepertoire b.toNat ∧ b.toNat ≤ last ∧ (signed = false ∨ b.toNat < 128)) →
    (-134217728 ≤ pos.x ∧ pos.x + 255 * text.length ≤ 134217728) ∧ -134217728 ≤ pos.y ∧ pos.y ≤ 134217728 →
    ((∀ b ∈ text, b.toNat ≠ last) →
      ∃ fb', drawStringAt cv g signed f fb pos text = .ok fb' ∧ Paints cv g fb fb' (TextInked r pos text)) ∧
    ((∃ b ∈ text, b.toNat = last) → drawStringAt cv g signed f fb pos text = .ub)

theorem first_last {last : Nat} (text : List Byte) (h : ∃ b ∈ text, b.toNat = last) :
    ∃ a b c, text = a ++ b :: c ∧ b.toNat = last ∧ ∀ x ∈ a, x.toNat ≠ last := by
  induction text with
  | nil => simp at h
  | cons x xs ih =>
    by_cases hx : x.toNat = last
    · exact ⟨[], x, xs, rfl, hx, by simp⟩
    · obtain ⟨a, b, c, rfl, h1, h2⟩ := ih (by
        obtain ⟨b, hb, e⟩ := h
        rcases List.mem_cons.1 hb with rfl | hb
        · exact absurd e hx
        · exact ⟨b, hb, e⟩)
      refine ⟨x :: a, b, c, rfl, h1, ?_⟩
      intro y hy
      rcases List.mem_cons.1 hy with rfl | hy
      · exact hx
      · exact h2 y hy

theorem table_sets_texts (r : Nat → Rendered) (last : Nat) (hlast : last = 0x7E ∨ last = 0xFF)
    (hraster : ∀ x ∈ (codes 0x20 last).map r, (∃ pitch, x.WF pitch) ∧ x.Fits)
    (hsize : ((codes 0x20 last).map fun i => bitmapBytes (r i).width (r i).rows).sum < 65536)
    (ds : List GlyphData) (k1 : convertAll ((codes 0x20 last).map r) BitStream.new = .ok ds) :
    SetsTexts ⟨bitmapsFile ds, binaryGlyphs 0 ds, 0x20, BitVec.ofNat 8 last⟩ last r := by
  obtain ⟨hlen, hdraw⟩ := table_draws r last hlast hraster hsize ds k1
  intro cv g fb signed pos text hr htext hp
  have hmem : ∀ n, inRepertoire n → n ≤ last → n ∈ codes 0x20 last := by
    intro n h1 h2
    have := codes_exact last hlast n
    rw [this]
    exact ⟨h1, h2⟩
  have hchars : DrawsChars signed ⟨bitmapsFile ds, binaryGlyphs 0 ds, 0x20, BitVec.ofNat 8 last⟩ r
      (fun b => (inRepertoire b.toNat ∧ b.toNat ≤ last ∧ (signed = false ∨ b.toNat < 128)) ∧ b.toNat ≠ last) := by
    intro cv g fb pos b hr hs hb
    exact hdraw cv g fb signed pos b hr hs hb.1.2.2 (hmem _ hb.1.1 hb.1.2.1) hb.2
  have hadv : ∀ b : Byte, (inRepertoire b.toNat ∧ b.toNat ≤ last ∧ (signed = false ∨ b.toNat < 128)) ∧ b.toNat ≠ last →
      0 ≤ (r b.toNat).advance / 65536 ∧ (r b.toNat).advance / 65536 < 256 := by
    intro b hb
    exact (hraster _ (List.mem_map_of_mem (hmem _ hb.1.1 hb.1.2.1))).2.advance
  refine ⟨fun hno => text_of_chars hchars hadv cv g fb hr pos text (fun b hb => ⟨htext b hb, hno b hb⟩) hp, ?_⟩
  intro hex
  obtain ⟨a, b, c, rfl, h1, h2⟩ := first_last text hex
  have hb := htext b (by simp)
  refine text_ub hchars hadv cv g fb hr pos a c b (fun x hx => ⟨htext x (by simp [hx]), h2 x hx⟩) ?_ (by
    simp only [List.length_append, List.length_cons] at hp
    push_cast at hp
    omega)
  have hl8 : (BitVec.ofNat 8 last).toNat = last := by
    rcases hlast with h | h <;> rw [h] <;> rfl
  refine last_glyph_ub signed _ b hb.2.2 ?_ (by simp only [hl8]; omega) hb.1
    ⟨show inRepertoire 32 from by unfold inRepertoire; decide, show 32 ≤ 0x7E by decide⟩ ?_
  · show 32 ≤ b.toNat
    have := hb.1
    unfold inRepertoire at this
    omega
  · simp only [hlen, h1]
    rcases hlast with h | h <;> rw [h] <;> decide +kernel

/-- **C100**, binary format: the program succeeds, and the font made of the two files sets every text of printable
characters of the encoding as FreeType renders its characters; texts with the last character are undefined behaviour. -/
theorem binary_text_draws_partial {σ : Type} (w : World σ) (args : List (List Byte)) (c : Config)
    (hp : Config.parse args = .ok (some c)) (hh : c.printHelp = false) (hf : c.fontFileName ≠ [])
    (hs : 0 ≤ c.fontSize ∧ c.fontSize < 33554432) (hw : Works w c) (conv : List Byte → Answer) (r : Nat → Rendered)
    (hr : Renders w c conv r) (hb : c.format = .binary)
    (hsize : ((codes 0x20 c.lastChar).map fun i => bitmapBytes (r i).width (r i).rows).sum < 65536)
    (p1 p2 : List Byte) (hp1 : p1 = join (outputDir w c) (fontName c ++ b!"Bitmaps.bin"))
    (hp2 : p2 = join (outputDir w c) (fontName c ++ b!"Glyphs.bin"))
    (ho1 : w.canOpen p1 = true) (ho2 : w.canOpen p2 = true) (hk1 : ∀ f, w.kept p1 f = f) (hk2 : ∀ f, w.kept p2 f = f) :
    ∃ bitmap file glyphs, main w args = .ok (.code 0, [(p1, bitmap), (p2, file)]) ∧ readGlyphs file = some glyphs ∧
      SetsTexts ⟨bitmap, glyphs, 0x20, BitVec.ofNat 8 c.lastChar⟩ c.lastChar r := by
  obtain ⟨ds, k1, k2⟩ := main_table w args c hp hh hf hs hw conv r hr
  have hfirst := parse_first hp
  rw [hb] at k2
  rw [hfirst] at k1
  have hlast : c.lastChar = 0x7E ∨ c.lastChar = 0xFF := by
    rcases parse_char hp with h | h
    · exact .inl h.2
    · exact .inr h.2
  have hraster : ∀ x ∈ (codes 0x20 c.lastChar).map r, (∃ pitch, x.WF pitch) ∧ x.Fits := by
    intro x hx
    obtain ⟨i, hi, rfl⟩ := List.mem_map.1 hx
    exact hr.raster i (by rw [hfirst]; exact hi)
  refine ⟨bitmapsFile ds, glyphsFile ds, binaryGlyphs 0 ds, ?_, glyphsFile_reads _,
    table_sets_texts r c.lastChar hlast hraster hsize ds k1⟩
  rw [k2]
  simp only [writeBinary, ← hp1, ← hp2, ho1, ho2, hk1, hk2, Bool.not_true, Bool.false_eq_true, if_false]

/-- **C100**, header format: likewise for the font a compiler makes of the header. -/
theorem header_text_draws_partial {σ : Type} (w : World σ) (args : List (List Byte)) (c : Config)
    (hp : Config.parse args = .ok (some c)) (conv : List Byte → Answer) (r : Nat → Rendered) (height : Int)
    (p : List Byte) (h : HeaderRun w c conv r height p) (ha : Accepted c.lastChar r height)
    (hsize : sizes r (codes 0x20 c.lastChar) < 65536) :
    ∃ file f shift, main w args = .ok (.code 0, [(p, file)]) ∧ compile (tokens file) = some (f, shift) ∧
      (shift.toNat : Int) = height ∧ SetsTexts f c.lastChar r := by
  obtain ⟨ds, file, h1, h2, h3, -⟩ := header_compiles w args c hp conv r height p h
  have hlast : c.lastChar = 0x7E ∨ c.lastChar = 0xFF := by
    rcases parse_char hp with h | h
    · exact .inl h.2
    · exact .inr h.2
  have hraster : ∀ x ∈ (codes 0x20 c.lastChar).map r, (∃ pitch, x.WF pitch) ∧ x.Fits := by
    intro x hx
    obtain ⟨i, hi, rfl⟩ := List.mem_map.1 hx
    exact h.renders.raster i (by rw [parse_first hp]; exact hi)
  exact ⟨file, _, _, h2, h3 ha, toNat_ofInt8 _ ha.height, table_sets_texts r c.lastChar hlast hraster hsize ds h1⟩

/-! ### A case meeting the hypotheses -/

example : HeaderRun (sampleOf blob) sampleHeader (fun bs => .done (bs ++ [0, 0, 0])) (fun _ => blob) 24
    b!"out/Blob18pt7b.h" ∧ Accepted sampleHeader.lastChar (fun _ => blob) 24 ∧
    sizes (fun _ => blob) (codes 0x20 sampleHeader.lastChar) < 65536 :=
  ⟨sampleOf_run blob blob_ok (by decide), sample_accepted, by decide +kernel⟩

/-- The pen moves by the whole pixels of the advance, and some pixel of the third character is inked. -/
example : penMove (fun _ => blob) b!"ab" = 2 * (blob.advance / 65536) := by decide

example : ∃ p, TextInked (fun _ => blob) ⟨10, 20⟩ b!"abc" p ∧ ¬ TextInked (fun _ => blob) ⟨10, 20⟩ b!"ab" p := by
  refine ⟨⟨19, 19⟩, ⟨b!"ab", 0x63, [], rfl, 0, 0, by decide, by decide, by decide, by decide⟩, ?_⟩
  rintro ⟨a, b, c, e, x, y, hx, -, -, hp⟩
  have hx' : x < 3 := hx
  have hq := congrArg Pt.x hp
  have hl : (blob.left : Int) = 1 := rfl
  match a, e with
  | [], _ => simp only [penMove, hl] at hq; omega
  | [_], _ =>
    have : blob.advance / 65536 = 4 := by decide
    simp only [penMove, hl, this] at hq; omega
  | _ :: _ :: a, e =>
    have := congrArg List.length e
    simp at this

end Verif.Converter.Main
