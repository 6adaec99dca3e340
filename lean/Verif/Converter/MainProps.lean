import Verif.Converter.MainModel
import Verif.Converter.ConfigProps
import Verif.Converter.EndToEnd
import Verif.Converter.HeaderTokens
/-!
# C74: the converter program as a whole
-/
namespace Verif.Converter.Main
open Verif Verif.Out Verif.Font Verif.Text Verif.Canvas Verif.FrameBuffer Verif.Converter Verif.Converter.Config

/-! ### Names -/

theorem takeWhile_until (p : Byte → Bool) (a b : List Byte) (x : Byte) (ha : ∀ c ∈ a, p c = true) (hx : p x = false) :
    (a ++ x :: b).takeWhile p = a := by
  induction a with
  | nil => simp [hx]
  | cons y a ih =>
    rw [List.cons_append, List.takeWhile_cons, ha y (by simp), if_pos rfl, ih (fun c hc => ha c (by simp [hc]))]

theorem dropWhile_until (p : Byte → Bool) (a b : List Byte) (x : Byte) (ha : ∀ c ∈ a, p c = true) (hx : p x = false) :
    (a ++ x :: b).dropWhile p = x :: b := by
  induction a with
  | nil => simp [hx]
  | cons y a ih =>
    rw [List.cons_append, List.dropWhile_cons, ha y (by simp), if_pos rfl, ih (fun c hc => ha c (by simp [hc]))]

/-- The name of a file in a directory. -/
theorem fileName_in_directory (dir base : List Byte) (h : 0x2F ∉ base) : fileName (dir ++ b!"/" ++ base) = base := by
  unfold fileName
  have e : (dir ++ b!"/" ++ base).reverse = base.reverse ++ 0x2F :: dir.reverse := by simp
  rw [e, takeWhile_until, List.reverse_reverse]
  · intro c hc
    have : c ≠ 0x2F := by rintro rfl; exact h (List.mem_reverse.1 hc)
    simpa using this
  · rfl

/-- A file without directory. -/
theorem fileName_plain (base : List Byte) (h : 0x2F ∉ base) : fileName base = base := by
  unfold fileName
  have := takeWhile_stop (p := (· != 0x2F)) base.reverse [] (by
    intro c hc
    have : c ≠ 0x2F := by rintro rfl; exact h (List.mem_reverse.1 hc)
    simpa using this) (by simp)
  rw [List.append_nil] at this
  rw [this, List.reverse_reverse]

/-- The extension is dropped. -/
theorem dropExtension_ext (base ext : List Byte) (hb : base ≠ []) (h : 0x2E ∉ ext) (hdots : base ++ b!"." ++ ext ≠ b!"..") :
    dropExtension (base ++ b!"." ++ ext) = base := by
  unfold dropExtension
  rw [if_neg hdots]
  have e : (base ++ b!"." ++ ext).reverse = ext.reverse ++ 0x2E :: base.reverse := by simp
  have d : ((base ++ b!"." ++ ext).reverse.dropWhile (· != 0x2E)).tail.reverse = base := by
    rw [e, dropWhile_until, List.tail_cons, List.reverse_reverse]
    · intro c hc
      have : c ≠ 0x2E := by rintro rfl; exact h (List.mem_reverse.1 hc)
      simpa using this
    · rfl
  simp only [d]
  rw [if_pos ⟨by simp, hb⟩]

/-- A name without dot stays. -/
theorem dropExtension_none (f : List Byte) (h : 0x2E ∉ f) : dropExtension f = f := by
  unfold dropExtension
  rw [if_neg (by rintro rfl; exact h (by simp)), if_neg (fun hc => h hc.1)]

/-! ### The conversion loop -/

theorem input_new {e : Enc} (h : e.InBounds) (h0 : e.inSize = 0) (c : Byte) :
    ∃ e', e.input c = .ok (e', [c]) ∧ e'.InBounds ∧ e'.inSize = 0 := by
  obtain ⟨e', k1, k2, k3, _⟩ := input_ok h c
  rw [h0, List.take_zero, List.nil_append] at k1
  exact ⟨e', k1, k2, by omega⟩

/-- For a single-byte encoding each code is converted on its own. -/
theorem convertRaw_single {σ : Type} (conv : List Byte → Answer) (hc : ∀ c, conv [c] ≠ .incomplete)
    (iconv : σ → List Byte → Answer × σ) (hi : ∀ t bs, (iconv t bs).1 = conv bs) (i : Nat) (e : Enc) (t : σ)
    (he : e.InBounds) (h0 : e.inSize = 0) :
    ∃ e2 t2, Enc.convertRaw iconv (e, t) (BitVec.ofNat 8 i) =
      .ok (answerValue (conv [BitVec.ofNat 8 i]), e2, t2) ∧ e2.InBounds ∧ e2.inSize = 0 := by
  obtain ⟨e1, k1, k2, k3⟩ := input_new he h0 (BitVec.ofNat 8 i)
  unfold Enc.convertRaw
  rw [k1]
  simp only [Res.bind_ok]
  have hi' := hi t [BitVec.ofNat 8 i]
  cases hq : iconv t [BitVec.ofNat 8 i] with
  | mk a t' =>
    rw [hq] at hi'
    simp only at hi'
    subst hi'
    cases ha : conv [BitVec.ofNat 8 i] with
    | done out => exact ⟨e1, t', rfl, k2, k3⟩
    | incomplete => exact absurd ha (hc _)
    | failed => exact ⟨_, t', rfl, ⟨k2.1, by simp⟩, rfl⟩

/-- A table produced by the loop has one entry for each character, and each of them was rendered. -/
theorem convertLoop_complete {σ : Type} (w : World σ) (iconv : σ → List Byte → Answer × σ) (render : Nat → Glyph?)
    (is : List Nat) (st : Enc × σ) (s : BitStream) (table : List GlyphData)
    (h : convertLoop w iconv render is st s = .ok (some table)) :
    table.length = is.length ∧
    ∀ conv : List Byte → Answer, (∀ c, conv [c] ≠ .incomplete) → (∀ t bs, (iconv t bs).1 = conv bs) → st.1.InBounds →
      st.1.inSize = 0 → ∀ i ∈ is, ∃ r, render (answerValue (conv [BitVec.ofNat 8 i])) = .bitmap r := by
  induction is generalizing st s table with
  | nil =>
    simp only [convertLoop, Res.ok.injEq, Option.some.injEq] at h
    subst h
    exact ⟨rfl, by simp⟩
  | cons i is ih =>
    rw [convertLoop, Res.bind_eq_ok] at h
    obtain ⟨⟨v, st'⟩, h1, h2⟩ := h
    simp only at h2
    cases hr : render v with
    | error => simp only [hr, ftError] at h2; split at h2 <;> simp at h2
    | noBitmap => simp [hr] at h2
    | bitmap r =>
      simp only [hr] at h2
      rw [Res.bind_eq_ok] at h2
      obtain ⟨⟨d, s'⟩, h3, h4⟩ := h2
      rw [Res.bind_eq_ok] at h4
      obtain ⟨rest, h5, h6⟩ := h4
      cases rest with
      | none => simp at h6
      | some rest =>
        simp only [Option.map_some, Res.ok.injEq, Option.some.injEq] at h6
        subst h6
        obtain ⟨k1, k2⟩ := ih st' s' rest h5
        refine ⟨by simp [k1], ?_⟩
        intro conv hc hi hb h0 j hj
        obtain ⟨e2, t2, m1, m2, m3⟩ := convertRaw_single conv hc iconv hi i st.1 st.2 hb h0
        rw [show (st.1, st.2) = st from rfl, h1] at m1
        simp only [Res.ok.injEq, Prod.mk.injEq] at m1
        obtain ⟨rfl, rfl⟩ := m1
        rcases List.mem_cons.1 hj with rfl | hj
        · exact ⟨r, hr⟩
        · exact k2 conv hc hi m2 m3 j hj

/-- For a single-byte encoding the loop converts the rendering of each character. -/
theorem convertLoop_ok {σ : Type} (w : World σ) (conv : List Byte → Answer) (hc : ∀ c, conv [c] ≠ .incomplete)
    (iconv : σ → List Byte → Answer × σ) (hi : ∀ t bs, (iconv t bs).1 = conv bs)
    (render : Nat → Glyph?) (r : Nat → Rendered) (is : List Nat)
    (hr : ∀ i ∈ is, render (answerValue (conv [BitVec.ofNat 8 i])) = .bitmap (r i)) (e : Enc) (t : σ)
    (he : e.InBounds) (h0 : e.inSize = 0) (s : BitStream) :
    convertLoop w iconv render is (e, t) s = (do let ds ← convertAll (is.map r) s; .ok (some ds)) := by
  induction is generalizing e t s with
  | nil => rfl
  | cons i is ih =>
    obtain ⟨e2, t2, m1, m2, m3⟩ := convertRaw_single conv hc iconv hi i e t he h0
    rw [convertLoop, m1]
    simp only [Res.bind_ok, hr i (by simp), List.map_cons, convertAll]
    cases convertGlyph (r i) s with
    | ub => rfl
    | hang => rfl
    | ok d =>
      simp only [Res.bind_ok]
      rw [ih (fun j hj => hr j (by simp [hj])) e2 t2 m2 m3]
      cases convertAll (is.map r) d.2 with
      | ub => rfl
      | hang => rfl
      | ok ds => rfl

theorem charWidth_ok (n : Int) (h : 0 ≤ n ∧ n < 33554432) : charWidth n = .ok (64 * n) := by
  unfold charWidth
  rw [if_pos (by omega), Int.bmod_eq_of_le (by omega) (by omega)]
  congr 1
  omega

/-- **C74**: which font sizes are defined, and the width asked for: from 2^25 points on it wraps to a negative number. -/
theorem charWidth_iff (n w : Int) :
    charWidth n = .ok w ↔ (0 ≤ n ∧ n < 2 ^ 25 ∧ w = 64 * n) ∨ (2 ^ 25 ≤ n ∧ n < 2 ^ 26 ∧ w = 64 * n - 2 ^ 32) := by
  unfold charWidth
  by_cases h : 0 ≤ n ∧ n * 64 < 4294967296
  · rw [if_pos h, Res.ok.injEq]
    by_cases h2 : n < 33554432
    · rw [Int.bmod_eq_of_le (by omega) (by omega)]
      omega
    · have : Int.bmod (n * 64) 4294967296 = n * 64 - 4294967296 := by
        unfold Int.bmod
        dsimp only
        split <;> omega
      rw [this]
      omega
  · rw [if_neg h]
    constructor
    · intro h'; cases h'
    · intro h'; omega

/-- **C74**: the height in the header file is the integral part of the height in pixels, which must fit an `int`. -/
theorem headerHeight_iff (h v : Int) :
    headerHeight h = .ok v ↔ v = h.tdiv 64 ∧ -137438953536 < h ∧ h < 137438953472 := by
  have key : (-2147483648 ≤ h.tdiv 64 ∧ h.tdiv 64 ≤ 2147483647) ↔ -137438953536 < h ∧ h < 137438953472 := by
    rcases Int.lt_or_le h 0 with hn | hn
    · have e : h.tdiv 64 = -((-h) / 64) := by
        rw [← Int.tdiv_eq_ediv_of_nonneg (by omega), Int.neg_tdiv, Int.neg_neg]
      rw [e]
      omega
    · rw [Int.tdiv_eq_ediv_of_nonneg hn]
      omega
  unfold headerHeight
  by_cases hc : -2147483648 ≤ h.tdiv 64 ∧ h.tdiv 64 ≤ 2147483647
  · rw [if_pos hc, Res.ok.injEq]
    exact ⟨fun e => ⟨e.symm, key.1 hc⟩, fun e => e.1.symm⟩
  · rw [if_neg hc]
    constructor
    · intro h'; cases h'
    · intro h'; exact absurd (key.2 h'.2) hc

/-- Everything outside of the program works for a conversion with configuration `c`. -/
structure Works {σ : Type} (w : World σ) (c : Config) : Prop where
  directory : w.directoryError c.outputDirectory = false
  init : w.ftInit = true
  face : w.ftFace c.fontFileName = true
  size : w.ftSize c.fontFileName (64 * c.fontSize) c.dpi = true
  iconv : w.iconvOpen c.encoding b!"UCS-4LE" = true

/-- The encoding is a single-byte one, converted by `conv`, and `r` are the rendered glyphs of its characters. -/
structure Renders {σ : Type} (w : World σ) (c : Config) (conv : List Byte → Answer) (r : Nat → Rendered) : Prop where
  iconv : ∀ t bs, (w.iconv c.encoding t bs).1 = conv bs
  single : ∀ ch, conv [ch] ≠ .incomplete
  render : ∀ i ∈ codes c.firstChar c.lastChar,
    w.render c.fontFileName (64 * c.fontSize) c.dpi (answerValue (conv [BitVec.ofNat 8 i])) = .bitmap (r i)
  raster : ∀ i ∈ codes c.firstChar c.lastChar, (∃ pitch, (r i).WF pitch) ∧ (r i).Fits

/-- The program up to the output of the table. -/
theorem main_table {σ : Type} (w : World σ) (args : List (List Byte)) (c : Config)
    (hp : Config.parse args = .ok (some c)) (hh : c.printHelp = false) (hf : c.fontFileName ≠ [])
    (hs : 0 ≤ c.fontSize ∧ c.fontSize < 33554432) (hw : Works w c) (conv : List Byte → Answer) (r : Nat → Rendered)
    (hr : Renders w c conv r) :
    ∃ ds, convertAll ((codes c.firstChar c.lastChar).map r) BitStream.new = .ok ds ∧
      main w args =
        match c.format with
        | .binary => .ok (writeBinary w (outputDir w c) (fontName c) ds)
        | .header => (do
          let height ← headerHeight (w.metricHeight c.fontFileName (64 * c.fontSize) c.dpi)
          writeHeader w (outputDir w c) (fontName c) c height ds) := by
  obtain ⟨ds, k1, -, -⟩ := convertAll_ok ((codes c.firstChar c.lastChar).map r) (by
    intro x hx
    obtain ⟨i, hi, rfl⟩ := List.mem_map.1 hx
    exact (hr.raster i hi).1)
  refine ⟨ds, k1, ?_⟩
  have hloop := convertLoop_ok w conv hr.single (w.iconv c.encoding) hr.iconv _ r _ hr.render Enc.new w.iconvState
    ⟨rfl, by decide⟩ rfl BitStream.new
  rw [k1, Res.bind_ok] at hloop
  have hemp : c.fontFileName.isEmpty = false := by
    cases h : c.fontFileName with
    | nil => exact absurd h hf
    | cons _ _ => rfl
  unfold main
  rw [hp]
  simp only [Res.bind_ok, hh, hemp, Bool.or_self, Bool.false_eq_true, if_false, hw.directory, charWidth_ok _ hs, hw.init, hw.face,
    hw.size, hw.iconv, Bool.not_true, hloop]
  cases c.format <;> rfl

theorem parse_char {args : List (List Byte)} {c : Config} (h : Config.parse args = .ok (some c)) :
    (c.encoding = b!"ASCII" ∧ c.lastChar = 0x7E) ∨ (c.encoding ≠ b!"ASCII" ∧ c.lastChar = 0xFF) := by
  unfold Config.parse at h
  cases ha : Config.init.applyAll (getopt none args) with
  | none => rw [ha] at h; cases h
  | some d =>
    rw [ha] at h
    simp only at h
    rw [Res.bind_eq_ok] at h
    obtain ⟨e, _, h⟩ := h
    cases h
    simp only
    by_cases he : e = b!"ASCII"
    · exact .inl ⟨he, if_pos he⟩
    · exact .inr ⟨he, if_neg he⟩

theorem apply_firstChar {c c' : Config} {o : Opt} (h : c.apply o = some c') : c'.firstChar = c.firstChar := by
  cases o with
  | flag f =>
    simp only [Config.apply] at h
    split at h <;> cases h <;> rfl
  | arg x v =>
    simp only [Config.apply] at h
    split at h
    · cases h; rfl
    split at h
    · cases h; rfl
    split at h
    · rw [Option.map_eq_some_iff] at h; obtain ⟨_, _, rfl⟩ := h; rfl
    split at h
    · rw [Option.map_eq_some_iff] at h; obtain ⟨_, _, rfl⟩ := h; rfl
    split at h <;> cases h <;> rfl

theorem parse_first {args : List (List Byte)} {c : Config} (h : Config.parse args = .ok (some c)) :
    c.firstChar = 0x20 := by
  have key : ∀ (os : List Opt) (c c' : Config), c.applyAll os = some c' → c'.firstChar = c.firstChar := by
    intro os
    induction os with
    | nil => intro c c' h; cases h; rfl
    | cons o os ih =>
      intro c c' h
      rw [Config.applyAll] at h
      cases ha : c.apply o with
      | none => rw [ha] at h; cases h
      | some d => rw [ha] at h; rw [ih d c' h, apply_firstChar ha]
  unfold Config.parse at h
  cases ha : Config.init.applyAll (getopt none args) with
  | none => rw [ha] at h; cases h
  | some d =>
    rw [ha] at h
    simp only at h
    rw [Res.bind_eq_ok] at h
    obtain ⟨e, _, h⟩ := h
    cases h
    exact key _ _ _ ha

/-- The font made of the converted table of rendered characters draws every character but the last one as rendered. -/
theorem table_draws (r : Nat → Rendered) (last : Nat) (hlast : last = 0x7E ∨ last = 0xFF)
    (hraster : ∀ x ∈ (codes 0x20 last).map r, (∃ pitch, x.WF pitch) ∧ x.Fits)
    (hsize : ((codes 0x20 last).map fun i => bitmapBytes (r i).width (r i).rows).sum < 65536)
    (ds : List GlyphData) (k1 : convertAll ((codes 0x20 last).map r) BitStream.new = .ok ds) :
    (binaryGlyphs 0 ds).length = (codes 0x20 last).length ∧
      ∀ (cv : Canvas) (g : Geom) (fb : FB) (signed : Bool) (pos : Pt) (b : Byte), Ready cv g fb → SmallPt pos →
        (signed = false ∨ b.toNat < 128) → b.toNat ∈ codes 0x20 last → b.toNat ≠ last →
        ∃ fb', drawCharAt cv g fb signed ⟨bitmapsFile ds, binaryGlyphs 0 ds, 0x20, BitVec.ofNat 8 last⟩ pos b =
            .ok (fb', (r b.toNat).advance / 65536) ∧
          Paints cv g fb fb' (fun p => ∃ x y : Nat, x < (r b.toNat).width ∧ y < (r b.toNat).rows ∧
            (r b.toNat).isSet x y = true ∧
            p = ⟨pos.x + (r b.toNat).left + x, pos.y + (1 - (r b.toNat).top) + y⟩) := by
  have hl8 : (BitVec.ofNat 8 last).toNat = last := by
    rcases hlast with h | h <;> rw [h] <;> rfl
  have hdraw := converted_glyph_draws_partial ((codes 0x20 last).map r) (BitVec.ofNat 8 last)
    (by rw [hl8]; exact hlast) (by rw [hl8, List.length_map]) hraster (by rw [List.map_map]; exact hsize)
  obtain ⟨ds', d1, d2⟩ := hdraw
  rw [k1] at d1
  cases d1
  have hlen : ds.length = (codes 0x20 last).length := by
    obtain ⟨ds', m1, m2, -⟩ := convertAll_ok ((codes 0x20 last).map r) (fun x hx => (hraster x hx).1)
    rw [k1] at m1
    cases m1
    rw [m2, List.length_map]
  refine ⟨by rw [binaryGlyphs_length, hlen], ?_⟩
  intro cv g fb signed pos b hready hpos hsg hmem hne
  obtain ⟨n, hn, hget⟩ := List.mem_iff_getElem.1 hmem
  have hget' : (codes 0x20 last)[n]? = some b.toNat := by rw [List.getElem?_eq_getElem hn, hget]
  refine d2 cv g fb signed pos b n (r b.toNat) hready hpos hsg (by rw [hl8]; exact hget') (by
    rw [List.getElem?_map, hget']; rfl) ?_
  rw [List.length_map]
  -- the last code is the last character
  have hlastpos : ∀ n : Nat, n < (codes 0x20 last).length → (codes 0x20 last)[n]? ≠ some last →
      n + 1 < (codes 0x20 last).length := by
    intro m hm hx
    by_contra hcon
    apply hx
    have hm' : m = (codes 0x20 last).length - 1 := by omega
    rcases hlast with h | h
    · rw [h] at hm' ⊢
      have e : (codes 0x20 0x7E).length - 1 = 94 := by decide +kernel
      rw [hm', e]; decide +kernel
    · rw [h] at hm' ⊢
      have e : (codes 0x20 0xFF).length - 1 = 190 := by decide +kernel
      rw [hm', e]; decide +kernel
  exact hlastpos n hn (by rw [hget']; intro h; exact hne (Option.some.inj h))

/-- **C74**, binary output: the program succeeds, and the font made of its two files draws every character (but the last
one, see C44) as FreeType renders it from the given font file in the given size and resolution. -/
theorem binary_font_draws_partial {σ : Type} (w : World σ) (args : List (List Byte)) (c : Config)
    (hp : Config.parse args = .ok (some c)) (hh : c.printHelp = false) (hf : c.fontFileName ≠ [])
    (hs : 0 ≤ c.fontSize ∧ c.fontSize < 33554432) (hw : Works w c) (conv : List Byte → Answer) (r : Nat → Rendered)
    (hr : Renders w c conv r) (hb : c.format = .binary)
    (hsize : ((codes 0x20 c.lastChar).map fun i => bitmapBytes (r i).width (r i).rows).sum < 65536)
    (p1 p2 : List Byte) (hp1 : p1 = join (outputDir w c) (fontName c ++ b!"Bitmaps.bin"))
    (hp2 : p2 = join (outputDir w c) (fontName c ++ b!"Glyphs.bin"))
    (ho1 : w.canOpen p1 = true) (ho2 : w.canOpen p2 = true) (hk1 : ∀ f, w.kept p1 f = f) (hk2 : ∀ f, w.kept p2 f = f) :
    ∃ bitmap file glyphs, main w args = .ok (.code 0, [(p1, bitmap), (p2, file)]) ∧ readGlyphs file = some glyphs ∧
      glyphs.length = (codes 0x20 c.lastChar).length ∧
      ∀ (cv : Canvas) (g : Geom) (fb : FB) (signed : Bool) (pos : Pt) (b : Byte), Ready cv g fb → SmallPt pos →
        (signed = false ∨ b.toNat < 128) → b.toNat ∈ codes 0x20 c.lastChar → b.toNat ≠ c.lastChar →
        ∃ fb', drawCharAt cv g fb signed ⟨bitmap, glyphs, 0x20, BitVec.ofNat 8 c.lastChar⟩ pos b =
            .ok (fb', (r b.toNat).advance / 65536) ∧
          Paints cv g fb fb' (fun p => ∃ x y : Nat, x < (r b.toNat).width ∧ y < (r b.toNat).rows ∧
            (r b.toNat).isSet x y = true ∧
            p = ⟨pos.x + (r b.toNat).left + x, pos.y + (1 - (r b.toNat).top) + y⟩) := by
  obtain ⟨ds, k1, k2⟩ := main_table w args c hp hh hf hs hw conv r hr
  have hfirst := parse_first hp
  rw [hb] at k2
  rw [hfirst] at k1
  have hlast : c.lastChar = 0x7E ∨ c.lastChar = 0xFF := by
    rcases parse_char hp with h | h
    · exact .inl h.2
    · exact .inr h.2
  have hraster : ∀ x ∈ (codes 0x20 c.lastChar).map r, (∃ pitch, x.WF pitch) ∧ x.Fits := by
    intro x hx
    obtain ⟨i, hi, rfl⟩ := List.mem_map.1 hx
    exact hr.raster i (by rw [hfirst]; exact hi)
  obtain ⟨hlen, hd⟩ := table_draws r c.lastChar hlast hraster hsize ds k1
  refine ⟨bitmapsFile ds, glyphsFile ds, binaryGlyphs 0 ds, ?_, glyphsFile_reads _, hlen, hd⟩
  rw [k2]
  simp only [writeBinary, ← hp1, ← hp2, ho1, ho2, hk1, hk2, Bool.not_true, Bool.false_eq_true, if_false]

/-- **C74**, header output: the program succeeds and the header declares, to a compiler, the arrays of bitmap bytes and
glyphs of the rendered characters and the font with the given name and height. -/
theorem header_font_tokens {σ : Type} (w : World σ) (args : List (List Byte)) (c : Config)
    (hp : Config.parse args = .ok (some c)) (hh : c.printHelp = false) (hf : c.fontFileName ≠ [])
    (hs : 0 ≤ c.fontSize ∧ c.fontSize < 33554432) (hw : Works w c) (conv : List Byte → Answer) (r : Nat → Rendered)
    (hr : Renders w c conv r) (hb : c.format = .header)
    (hsize : ∀ i ∈ codes 0x20 c.lastChar, bitmapBytes (r i).width (r i).rows < 65536)
    (htotal : ((codes 0x20 c.lastChar).map fun i => bitmapBytes (r i).width (r i).rows).sum < 100000)
    (hutf : w.iconvOpen c.encoding b!"UTF-8" = true)
    (hl : ∀ n, (w.label c.encoding n).length ≤ 4 ∧ ∀ ch ∈ w.label c.encoding n, ch ≠ 10)
    (hname : IsIdent (fontName c)) (hlen : (fontName c).length ≤ 300)
    (height : Int) (hht : height = (w.metricHeight c.fontFileName (64 * c.fontSize) c.dpi).tdiv 64)
    (hrange : -2147483648 ≤ height ∧ height < 2147483648)
    (p : List Byte) (hp1 : p = join (outputDir w c) (fontName c ++ b!".h"))
    (ho : w.canOpen p = true) (hk : ∀ f, w.kept p f = f) :
    ∃ ds file, convertAll ((codes 0x20 c.lastChar).map r) BitStream.new = .ok ds ∧
      main w args = .ok (.code 0, [(p, file)]) ∧
      tokens file =
        arrayDecl b!"uint8_t" (fontName c ++ b!"Bitmaps") ((bitmapsFile ds).map (fun b => [Tok.num b.toNat])) ++
        arrayDecl b!"GFXglyph" (fontName c ++ b!"Glyphs") (glyphInits 0 ds) ++
        fontDecl (fontName c) 0x20 c.lastChar height := by
  obtain ⟨ds, k1, k2⟩ := main_table w args c hp hh hf hs hw conv r hr
  have hfirst := parse_first hp
  rw [hb] at k2
  rw [hfirst] at k1
  obtain ⟨ds', m1, m2, m3⟩ := convertAll_ok ((codes 0x20 c.lastChar).map r) (by
    intro x hx
    obtain ⟨i, hi, rfl⟩ := List.mem_map.1 hx
    exact (hr.raster i (by rw [hfirst]; exact hi)).1)
  rw [k1] at m1
  cases m1
  have hmap : ds.map (fun d => d.bitmapData.length) =
      (codes 0x20 c.lastChar).map fun i => bitmapBytes (r i).width (r i).rows := by
    apply List.ext_getElem?
    intro m
    rw [List.getElem?_map, List.getElem?_map]
    rw [List.length_map] at m2
    cases hm : (codes 0x20 c.lastChar)[m]? with
    | none =>
      have := List.getElem?_eq_none_iff.1 hm
      rw [List.getElem?_eq_none (by omega)]
      rfl
    | some i =>
      obtain ⟨d', e1, e2⟩ := m3 m (r i) (by rw [List.getElem?_map, hm]; rfl)
      rw [e1]
      simp only [Option.map_some, e2.size]
  obtain ⟨file, t1, t2⟩ := header_tokens w.junk (w.label c.encoding) hl (fontName c) c.encoding hname hlen ds c.lastChar
    (parse_char hp) (by rw [m2, List.length_map]) (by
      intro d hd
      obtain ⟨n, hn, rfl⟩ := List.mem_iff_getElem.1 hd
      have hn' : n < (codes 0x20 c.lastChar).length := by rw [m2, List.length_map] at hn; exact hn
      obtain ⟨d', e1, e2⟩ := m3 n (r (codes 0x20 c.lastChar)[n]) (by
        rw [List.getElem?_map, List.getElem?_eq_getElem hn']; rfl)
      rw [List.getElem?_eq_getElem hn] at e1
      cases e1
      have hz := hsize _ (List.getElem_mem hn')
      rw [e2.descr]
      simp only [BitVec.toNat_ofNat, e2.size]
      exact Nat.mod_eq_of_lt hz)
    (by simp only [bitmapsFile, List.length_flatMap]; rw [hmap]; exact htotal) height hrange
  refine ⟨ds, file, k1, ?_, t2⟩
  rw [k2]
  have hhh : headerHeight (w.metricHeight c.fontFileName (64 * c.fontSize) c.dpi) = .ok height := by
    unfold headerHeight
    rw [← hht, if_pos (by omega)]
  simp only [hhh, Res.bind_ok, writeHeader, ← hp1, ho, hutf, hfirst, Bool.not_true, Bool.false_eq_true, if_false, t1, hk]

/-! ### Exit status -/

/-- What was given and done when the program ends with status 0: a font file, no request for help, and the complete
table is written (as far as the files keep it). -/
structure Complete {σ : Type} (w : World σ) (args : List (List Byte)) (files : Files) : Prop where
  done : ∃ c width table, Config.parse args = .ok (some c) ∧ c.printHelp = false ∧ c.fontFileName ≠ [] ∧
    w.directoryError c.outputDirectory = false ∧ charWidth c.fontSize = .ok width ∧ w.ftInit = true ∧ w.ftFace c.fontFileName = true ∧
    w.ftSize c.fontFileName width c.dpi = true ∧ w.iconvOpen c.encoding b!"UCS-4LE" = true ∧
    convertLoop w (w.iconv c.encoding) (w.render c.fontFileName width c.dpi) (codes c.firstChar c.lastChar)
      (Enc.new, w.iconvState) BitStream.new = .ok (some table) ∧
    ((c.format = .binary ∧ ∃ p1 p2, p1 = join (outputDir w c) (fontName c ++ b!"Bitmaps.bin") ∧
        p2 = join (outputDir w c) (fontName c ++ b!"Glyphs.bin") ∧ w.canOpen p1 = true ∧ w.canOpen p2 = true ∧
        files = [(p1, w.kept p1 (bitmapsFile table)), (p2, w.kept p2 (glyphsFile table))]) ∨
      (c.format = .header ∧ ∃ p height text, p = join (outputDir w c) (fontName c ++ b!".h") ∧ w.canOpen p = true ∧
        w.iconvOpen c.encoding b!"UTF-8" = true ∧
        headerHeight (w.metricHeight c.fontFileName width c.dpi) = .ok height ∧
        writeHeaderFile w.junk (w.label c.encoding) (fontName c) c.encoding table c.firstChar c.lastChar height = .ok text ∧
        files = [(p, w.kept p text)]))

theorem bool_cases (b : Bool) : b = true ∨ b = false := by cases b <;> simp

/-- **C74**: whenever the program ends, status 0 means that everything was done; otherwise the status is 1 or the program
was terminated because of a bad number. -/
theorem exit_status {σ : Type} (w : World σ) (args : List (List Byte)) (e : Exit) (files : Files)
    (h : main w args = .ok (e, files)) :
    (e = .code 0 ∧ Complete w args files) ∨ (e = .code 1 ∧ ¬ Complete w args files) ∨
      (e = .terminated ∧ files = [] ∧ Config.parse args = .ok none) := by
  -- status 1 contradicts completeness because `main` is a function
  have excl : ∀ files', Complete w args files' → main w args = .ok (.code 0, files') := by
    intro files' ⟨c, width, table, k1, k2, k3, k0, k4, k5, k6, k7, k8, k9, k10⟩
    have hemp : c.fontFileName.isEmpty = false := by
      cases h : c.fontFileName with
      | nil => exact absurd h k3
      | cons _ _ => rfl
    unfold main
    rw [k1]
    simp only [Res.bind_ok, k2, hemp, Bool.or_self, Bool.false_eq_true, if_false, k0, k4, k5, k6, k7, k8, Bool.not_true, k9]
    rcases k10 with ⟨f, p1, p2, e1, e2, o1, o2, rfl⟩ | ⟨f, p, height, text, e1, o1, u, hh, ht, rfl⟩
    · rw [f]
      simp only [writeBinary, ← e1, ← e2, o1, o2, Bool.not_true, Bool.false_eq_true, if_false]
    · rw [f]
      simp only [hh, Res.bind_ok, writeHeader, ← e1, o1, u, Bool.not_true, Bool.false_eq_true, if_false, ht]
  have one : e = .code 1 → (e = .code 0 ∧ Complete w args files) ∨ (e = .code 1 ∧ ¬ Complete w args files) ∨
      (e = .terminated ∧ files = [] ∧ Config.parse args = .ok none) := by
    intro he
    refine .inr (.inl ⟨he, fun hc => ?_⟩)
    have := excl files hc
    rw [h, he] at this
    simp at this
  have ftE : ∀ x : Exit × Files, x = (.code 1, []) → ftError w x = .ok (e, files) → e = .code 1 := by
    intro x hx hx'
    unfold ftError at hx'
    split at hx'
    · rw [hx] at hx'; cases hx'; rfl
    · cases hx'
  have h0 := h
  unfold main at h
  rw [Res.bind_eq_ok] at h
  obtain ⟨o, k1, h⟩ := h
  cases o with
  | none => simp only at h; cases h; exact .inr (.inr ⟨rfl, rfl, k1⟩)
  | some c =>
    simp only at h
    split at h
    · cases h; exact one rfl
    rename_i hne
    simp only [Bool.or_eq_true, not_or, Bool.not_eq_true] at hne
    rcases bool_cases (w.directoryError c.outputDirectory) with k0 | k0
    · rw [k0] at h; cases h; exact one rfl
    rw [k0] at h
    simp only [Bool.false_eq_true, if_false] at h
    rw [Res.bind_eq_ok] at h
    obtain ⟨width, k4, h⟩ := h
    rcases bool_cases w.ftInit with k5 | k5
    swap
    · rw [k5] at h; exact one (ftE _ rfl h)
    rcases bool_cases (w.ftFace c.fontFileName) with k6 | k6
    swap
    · rw [k5, k6] at h; exact one (ftE _ rfl h)
    rcases bool_cases (w.ftSize c.fontFileName width c.dpi) with k7 | k7
    swap
    · rw [k5, k6, k7] at h; exact one (ftE _ rfl h)
    rcases bool_cases (w.iconvOpen c.encoding b!"UCS-4LE") with k8 | k8
    swap
    · simp only [k5, k6, k7, k8, Bool.not_true, Bool.not_false, Bool.false_eq_true, if_false, if_true] at h
      cases h; exact one rfl
    simp only [k5, k6, k7, k8, Bool.not_true, Bool.false_eq_true, if_false] at h
    rw [Res.bind_eq_ok] at h
    obtain ⟨o, k9, h⟩ := h
    cases o with
    | none => simp only at h; cases h; exact one rfl
    | some table =>
      simp only at h
      have hfile : c.fontFileName ≠ [] := by
        intro he; rw [he] at hne; simp at hne
      cases hf : c.format with
      | binary =>
        rw [hf] at h
        simp only [writeBinary, Res.ok.injEq] at h
        rcases bool_cases (w.canOpen (join (outputDir w c) (fontName c ++ b!"Bitmaps.bin"))) with o1 | o1
        swap
        · simp only [o1, Bool.not_false, if_true, Prod.mk.injEq] at h; exact one h.1.symm
        rcases bool_cases (w.canOpen (join (outputDir w c) (fontName c ++ b!"Glyphs.bin"))) with o2 | o2
        swap
        · simp only [o1, o2, Bool.not_true, Bool.not_false, Bool.false_eq_true, if_false, if_true, Prod.mk.injEq] at h
          exact one h.1.symm
        simp only [o1, o2, Bool.not_true, Bool.false_eq_true, if_false, Prod.mk.injEq] at h
        exact .inl ⟨h.1.symm, c, width, table, k1, hne.1, hfile, k0, k4, k5, k6, k7, k8, k9,
          .inl ⟨hf, _, _, rfl, rfl, o1, o2, h.2.symm⟩⟩
      | header =>
        rw [hf] at h
        simp only at h
        rw [Res.bind_eq_ok] at h
        obtain ⟨height, hh, h⟩ := h
        simp only [writeHeader] at h
        rcases bool_cases (w.canOpen (join (outputDir w c) (fontName c ++ b!".h"))) with o1 | o1
        swap
        · simp only [o1, Bool.not_false, if_true, Res.ok.injEq, Prod.mk.injEq] at h; exact one h.1.symm
        rcases bool_cases (w.iconvOpen c.encoding b!"UTF-8") with o2 | o2
        swap
        · simp only [o1, o2, Bool.not_true, Bool.not_false, Bool.false_eq_true, if_false, if_true] at h
          rw [Res.bind_eq_ok] at h
          obtain ⟨f, -, h⟩ := h
          cases h
          exact one rfl
        simp only [o1, o2, Bool.not_true, Bool.false_eq_true, if_false] at h
        rw [Res.bind_eq_ok] at h
        obtain ⟨text, ht, h⟩ := h
        simp only [Res.ok.injEq, Prod.mk.injEq] at h
        exact .inl ⟨h.1.symm, c, width, table, k1, hne.1, hfile, k0, k4, k5, k6, k7, k8, k9,
          .inr ⟨hf, _, height, text, rfl, o1, o2, hh, ht, h.2.symm⟩⟩

/-- Finding for **C74**: errors while writing are not noticed: whatever the files keep, even nothing, the exit status is
the same (main.cpp:331, 354 and the streams are not checked). -/
theorem exit_ignores_write_errors {σ : Type} (w : World σ) (kept : List Byte → List Byte → List Byte)
    (args : List (List Byte)) (files : Files) (h : main w args = .ok (.code 0, files)) :
    ∃ files', main { w with kept := kept } args = .ok (.code 0, files') ∧ files'.map Prod.fst = files.map Prod.fst ∧
      ∀ f ∈ files', ∃ text, f.2 = kept f.1 text := by
  have hloop : ∀ (iconv : σ → List Byte → Answer × σ) (render : Nat → Glyph?) (is : List Nat) (st : Enc × σ) (s : BitStream),
      convertLoop { w with kept := kept } iconv render is st s = convertLoop w iconv render is st s := by
    intro iconv render is
    induction is with
    | nil => intro st s; rfl
    | cons i is ih =>
      intro st s
      simp only [convertLoop, ih]
      rfl
  rcases exit_status w args _ _ h with ⟨-, hc⟩ | ⟨he, -⟩ | ⟨he, -⟩
  · obtain ⟨c, width, table, k1, k2, k3, k0, k4, k5, k6, k7, k8, k9, k10⟩ := hc
    have hemp : c.fontFileName.isEmpty = false := by
      cases h : c.fontFileName with
      | nil => exact absurd h k3
      | cons _ _ => rfl
    have hm : main { w with kept := kept } args =
        match c.format with
        | .binary => .ok (writeBinary { w with kept := kept } (outputDir w c) (fontName c) table)
        | .header => (do
          let height ← headerHeight (w.metricHeight c.fontFileName width c.dpi)
          writeHeader { w with kept := kept } (outputDir w c) (fontName c) c height table) := by
      have hd : outputDir { w with kept := kept } c = outputDir w c := rfl
      have k9' := (hloop (w.iconv c.encoding) (w.render c.fontFileName width c.dpi) (codes c.firstChar c.lastChar)
        (Enc.new, w.iconvState) BitStream.new).trans k9
      have hit : ({ w with kept := kept } : World σ).iconvState = w.iconvState := rfl
      have k0' : ({ w with kept := kept } : World σ).directoryError c.outputDirectory = false := k0
      have k5' : ({ w with kept := kept } : World σ).ftInit = true := k5
      have k6' : ({ w with kept := kept } : World σ).ftFace c.fontFileName = true := k6
      have k7' : ({ w with kept := kept } : World σ).ftSize c.fontFileName width c.dpi = true := k7
      have k8' : ({ w with kept := kept } : World σ).iconvOpen c.encoding b!"UCS-4LE" = true := k8
      have hic : ({ w with kept := kept } : World σ).iconv = w.iconv := rfl
      have hre : ({ w with kept := kept } : World σ).render = w.render := rfl
      have hme : ({ w with kept := kept } : World σ).metricHeight = w.metricHeight := rfl
      generalize ({ w with kept := kept } : World σ) = w' at *
      unfold main
      rw [k1]
      simp only [Res.bind_ok, k2, hemp, Bool.or_self, Bool.false_eq_true, if_false, k0', k4, k5', k6', k7', k8', Bool.not_true,
        hic, hre, hme, hit, k9', hd]
      cases c.format <;> rfl
    rcases k10 with ⟨f, p1, p2, e1, e2, o1, o2, rfl⟩ | ⟨f, p, height, text, e1, o1, u, hh, ht, rfl⟩
    · rw [f] at hm
      simp only [writeBinary, ← e1, ← e2, o1, o2, Bool.not_true, Bool.false_eq_true, if_false] at hm
      refine ⟨_, hm, rfl, ?_⟩
      intro x hx
      simp only [List.mem_cons, List.not_mem_nil, or_false] at hx
      rcases hx with rfl | rfl
      · exact ⟨_, rfl⟩
      · exact ⟨_, rfl⟩
    · rw [f] at hm
      simp only [hh, Res.bind_ok, writeHeader, ← e1, o1, u, Bool.not_true, Bool.false_eq_true, if_false, ht] at hm
      refine ⟨_, hm, rfl, ?_⟩
      intro x hx
      simp only [List.mem_cons, List.not_mem_nil, or_false] at hx
      rw [hx]
      exact ⟨_, rfl⟩
  · simp at he
  · simp at he

/-- **C74**: if a character of the range cannot be rendered, the program does not end with status 0. -/
theorem missing_glyph_noticed {σ : Type} (w : World σ) (args : List (List Byte)) (c : Config) (files : Files)
    (hp : Config.parse args = .ok (some c)) (width : Int) (hwd : charWidth c.fontSize = .ok width)
    (conv : List Byte → Answer) (hc : ∀ ch, conv [ch] ≠ .incomplete)
    (hi : ∀ t bs, (w.iconv c.encoding t bs).1 = conv bs) (i : Nat) (hm : i ∈ codes c.firstChar c.lastChar)
    (hn : ∀ r, w.render c.fontFileName width c.dpi (answerValue (conv [BitVec.ofNat 8 i])) ≠ .bitmap r) :
    main w args ≠ .ok (.code 0, files) := by
  intro h
  rcases exit_status w args _ _ h with ⟨-, hcm⟩ | ⟨he, -⟩ | ⟨he, -⟩
  · obtain ⟨c', width', table, k1, -, -, -, k4, -, -, -, -, k9, -⟩ := hcm
    rw [hp] at k1
    simp only [Res.ok.injEq, Option.some.injEq] at k1
    subst k1
    rw [hwd] at k4
    cases k4
    obtain ⟨r, hr⟩ := (convertLoop_complete w _ _ _ _ _ _ k9).2 conv hc hi ⟨rfl, Nat.zero_le _⟩ rfl i hm
    exact hn r hr
  · simp at he
  · simp at he

theorem flush_prefix (s : Buffered) : s.file <+: s.flush.file := by
  unfold Buffered.flush
  split
  · exact List.prefix_refl _
  · exact List.prefix_append _ _

theorem put_file {junk : Nat → Byte} {s s' : Buffered} {is : List Item} (h : s.put junk is = .ok s') : s'.file = s.file := by
  unfold Buffered.put at h
  obtain ⟨o, -, h⟩ := Res.bind_eq_ok.1 h
  cases h
  rfl

theorem putAll_prefix {junk : Nat → Byte} {label : Nat → List Byte} (gs : List Font.Glyph) {s s' : GlyphStream}
    (h : s.putAll junk label gs = .ok s') : s.base.file <+: s'.base.file := by
  induction gs generalizing s with
  | nil => cases h; exact List.prefix_refl _
  | cons g gs ih =>
    obtain ⟨s1, k1, k2⟩ := Res.bind_eq_ok.1 h
    unfold GlyphStream.put at k1
    obtain ⟨b, m1, m2⟩ := Res.bind_eq_ok.1 k1
    cases m2
    rw [← put_file m1]
    exact (flush_prefix b).trans (ih k2)

/-- **C74**: where the files are written, for an output directory given with or without the slash at its end, or none. -/
theorem join_names (dir name : List Byte) (hd : dir ≠ []) (hs : dir.getLast? ≠ some 0x2F) :
    join dir name = dir ++ b!"/" ++ name ∧ join (dir ++ b!"/") name = dir ++ b!"/" ++ name ∧ join [] name = name := by
  refine ⟨?_, ?_, rfl⟩
  · unfold join
    rw [if_neg hd, if_neg hs]
  · unfold join
    rw [if_neg (by simp), if_pos (by rw [List.getLast?_append]; rfl)]

/-- **C74**: the name of the font: that of the font file without directory and extension, the size, and seven or eight bits. -/
theorem fontName_parts {args : List (List Byte)} {c : Config} (h : Config.parse args = .ok (some c))
    (dir base ext : List Byte) (hf : c.fontFileName = dir ++ b!"/" ++ (base ++ b!"." ++ ext) ∨
      c.fontFileName = base ++ b!"." ++ ext) (hb : base ≠ []) (hbs : 0x2F ∉ base) (hes : 0x2F ∉ ext) (hed : 0x2E ∉ ext)
    (hdots : base ++ b!"." ++ ext ≠ b!"..") :
    fontName c = base ++ intDec c.fontSize ++ (if c.encoding = b!"ASCII" then b!"pt7b" else b!"pt8b") := by
  have hsl : 0x2F ∉ base ++ b!"." ++ ext := by
    simp only [List.mem_append, not_or]
    exact ⟨⟨hbs, by decide⟩, hes⟩
  have hfile : fileName c.fontFileName = base ++ b!"." ++ ext := by
    rcases hf with hf | hf
    · rw [hf, fileName_in_directory _ _ hsl]
    · rw [hf, fileName_plain _ hsl]
  unfold fontName
  rw [hfile, dropExtension_ext base ext hb hed hdots]
  rcases parse_char h with ⟨e1, e2⟩ | ⟨e1, e2⟩
  · rw [e2, if_neg (by decide), if_pos e1]
    simp only [List.append_assoc]
    rfl
  · rw [e2, if_pos (by decide), if_neg e1]
    simp only [List.append_assoc]
    rfl

/-- **C74**: a header file left incomplete, because the conversion to UTF-8 is not available, holds the beginning of what
the file would be with it, and the exit status tells. -/
theorem incomplete_header {σ : Type} (w w' : World σ) (dir name : List Byte) (c : Config) (height : Int)
    (table : List GlyphData) (p text : List Byte) (hp : p = join dir (name ++ b!".h")) (ho : w.canOpen p = true)
    (hu : w.iconvOpen c.encoding b!"UTF-8" = false) (hj : w'.junk = w.junk) (ho' : w'.canOpen p = true)
    (hu' : w'.iconvOpen c.encoding b!"UTF-8" = true) (hk : ∀ f, w'.kept p f = f)
    (h : writeHeader w' dir name c height table = .ok (.code 0, [(p, text)])) :
    ∃ start rest, text = start ++ rest ∧ writeHeader w dir name c height table = .ok (.code 1, [(p, w.kept p start)]) := by
  unfold writeHeader at h
  simp only [← hp, ho', hu', Bool.not_true, Bool.false_eq_true, if_false] at h
  obtain ⟨f, h1, h2⟩ := Res.bind_eq_ok.1 h
  simp only [hk, Res.ok.injEq, Prod.mk.injEq, List.cons.injEq, and_true, true_and] at h2
  subst h2
  rw [hj] at h1
  unfold writeHeaderFile at h1
  obtain ⟨h0, k0, h1⟩ := Res.bind_eq_ok.1 h1
  obtain ⟨hx, kx, h1⟩ := Res.bind_eq_ok.1 h1
  obtain ⟨f1, k1, h1⟩ := Res.bind_eq_ok.1 h1
  obtain ⟨g1, k2, h1⟩ := Res.bind_eq_ok.1 h1
  obtain ⟨f2, k3, h1⟩ := Res.bind_eq_ok.1 h1
  obtain ⟨o, k4, h1⟩ := Res.bind_eq_ok.1 h1
  cases h1
  have e1 := putAll_prefix _ k2
  unfold GlyphStream.close at k3
  obtain ⟨b, m1, m2⟩ := Res.bind_eq_ok.1 k3
  cases m2
  have e2 := flush_prefix b
  rw [put_file m1] at e2
  have e3 : f1 <+: (GlyphStream.new f1 name c.encoding).base.file := by
    simp only [GlyphStream.new, Buffered.new, List.append_assoc]
    exact List.prefix_append _ _
  obtain ⟨rest, hr⟩ := (e3.trans (e1.trans e2)).trans (List.prefix_append _ o.text)
  refine ⟨f1, rest, hr.symm, ?_⟩
  unfold writeHeader
  simp only [← hp, ho, hu, Bool.not_true, Bool.not_false, Bool.false_eq_true, if_false, if_true, headerBitmaps, k0, kx, k1,
    Res.bind_ok]

/-- Finding for **C74**: with FreeType in its default configuration (no error strings) a font file which cannot be read is
undefined behaviour instead of an error message. -/
theorem unreadable_font_ub {σ : Type} (w : World σ) (args : List (List Byte)) (c : Config)
    (hp : Config.parse args = .ok (some c)) (hh : c.printHelp = false) (hf : c.fontFileName ≠ [])
    (hd : w.directoryError c.outputDirectory = false) (he : w.errorStrings = false) (hface : w.ftFace c.fontFileName = false) :
    main w args = .ub := by
  have hemp : c.fontFileName.isEmpty = false := by
    cases h : c.fontFileName with
    | nil => exact absurd h hf
    | cons _ _ => rfl
  unfold main
  rw [hp]
  simp only [Res.bind_ok, hh, hemp, hd, Bool.or_self, Bool.false_eq_true, if_false]
  unfold charWidth
  split
  · simp only [Res.bind_ok, hface, Bool.not_false, if_true, ftError, he, Bool.false_eq_true, if_false]
    split <;> rfl
  · rfl

/-- Finding for **C74**: a negative font size is undefined behaviour. -/
theorem negative_size_ub {σ : Type} (w : World σ) (args : List (List Byte)) (c : Config)
    (hp : Config.parse args = .ok (some c)) (hh : c.printHelp = false) (hf : c.fontFileName ≠ [])
    (hd : w.directoryError c.outputDirectory = false) (hs : c.fontSize < 0) : main w args = .ub := by
  have hemp : c.fontFileName.isEmpty = false := by
    cases h : c.fontFileName with
    | nil => exact absurd h hf
    | cons _ _ => rfl
  unfold main
  rw [hp]
  simp only [Res.bind_ok, hh, hemp, hd, Bool.or_self, Bool.false_eq_true, if_false]
  unfold charWidth
  rw [if_neg (by omega)]
  rfl

/-- Finding for **C74**: an output directory which does not exist is not reported; whenever the program succeeds, the
files are in the directory of the program instead. -/
theorem missing_directory_redirected {σ : Type} (w : World σ) (args : List (List Byte)) (c : Config) (files : Files)
    (hp : Config.parse args = .ok (some c)) (hd : w.isDirectory c.outputDirectory = false)
    (h : main w args = .ok (.code 0, files)) :
    files ≠ [] ∧ ∀ f ∈ files, ∃ suffix, f.1 = join w.programDir (fontName c ++ suffix) := by
  have ho : outputDir w c = w.programDir := by unfold outputDir; rw [hd]; rfl
  rcases exit_status w args _ _ h with ⟨-, hcm⟩ | ⟨he, -⟩ | ⟨he, -⟩
  · obtain ⟨c', width', table, k1, -, -, -, -, -, -, -, -, -, k10⟩ := hcm
    rw [hp] at k1
    simp only [Res.ok.injEq, Option.some.injEq] at k1
    subst k1
    rw [ho] at k10
    rcases k10 with ⟨-, p1, p2, e1, e2, -, -, rfl⟩ | ⟨-, p, height, text, e1, -, -, -, -, rfl⟩
    · refine ⟨by simp, ?_⟩
      intro f hf
      simp only [List.mem_cons, List.not_mem_nil, or_false] at hf
      rcases hf with rfl | rfl
      · exact ⟨_, e1⟩
      · exact ⟨_, e2⟩
    · refine ⟨by simp, ?_⟩
      intro f hf
      simp only [List.mem_cons, List.not_mem_nil, or_false] at hf
      subst hf
      exact ⟨_, e1⟩
  · simp at he
  · simp at he

/-! ### A case meeting the hypotheses -/

/-- A world in which everything works: Latin-1 and a font all of whose characters are a 3 × 2 raster. -/
def sample : World Unit where
  isDirectory p := p = b!"out"
  directoryError _ := false
  programDir := []
  canOpen _ := true
  kept _ f := f
  iconvOpen _ _ := true
  iconv _ _ bs := (.done (bs ++ [0, 0, 0]), ())
  iconvState := ()
  label _ _ := b!"?"
  ftInit := true
  ftFace _ := true
  ftSize _ _ _ := true
  render _ _ _ _ := .bitmap blob
  metricHeight _ _ _ := 1555
  errorStrings := true
  junk _ := 0

def sampleConfig : Config := ⟨b!"fonts/Blob.ttf", b!"out", b!"ASCII", 141, 18, 0x20, 0x7E, .binary, false⟩

example : Config.parse [b!"-ffonts/Blob.ttf", b!"-bs18", b!"-o", b!"out"] = .ok (some sampleConfig) := by decide +kernel

example : Works sample sampleConfig := ⟨rfl, rfl, rfl, rfl, rfl⟩

example : Renders sample sampleConfig (fun bs => .done (bs ++ [0, 0, 0])) (fun _ => blob) where
  iconv _ _ := rfl
  single _ := by simp
  render _ _ := rfl
  raster _ _ := blob_ok

example : ((codes 0x20 sampleConfig.lastChar).map fun _ => bitmapBytes blob.width blob.rows).sum < 65536 := by
  decide +kernel

example : join (outputDir sample sampleConfig) (fontName sampleConfig ++ b!"Glyphs.bin") =
    b!"out/Blob18pt7bGlyphs.bin" := by decide +kernel

/-- With one glyph: the file with and without the conversion to UTF-8. -/
example : (match writeHeader { sample with iconvOpen := fun _ t => t ≠ b!"UTF-8" } [] b!"B" sampleConfig 24
      [⟨⟨0, 3, 2, 4, 0, 0⟩, [0xA8]⟩], writeHeader sample [] b!"B" sampleConfig 24 [⟨⟨0, 3, 2, 4, 0, 0⟩, [0xA8]⟩] with
    | .ok (e1, [(p1, f1)]), .ok (e2, [(p2, f2)]) =>
      decide (e1 = .code 1 ∧ e2 = .code 0 ∧ p1 = b!"B.h" ∧ p2 = p1 ∧
        f1 = b!"const uint8_t BBitmaps[] = {\n  0xA8 };\n\n" ∧ f1 <+: f2 ∧ f1.length < f2.length)
    | _, _ => false) = true := by decide +kernel

end Verif.Converter.Main
