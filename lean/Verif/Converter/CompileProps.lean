import Verif.Converter.Compile
/-!
# C93: the header and the binary output of the converter describe the same font
-/
namespace Verif.Converter.Main
open Verif Verif.Out Verif.Font Verif.Text Verif.Canvas Verif.FrameBuffer Verif.Converter Verif.Converter.Config

/-- The bytes of the bitmaps of rendered characters. -/
def sizes (r : Nat → Rendered) (cs : List Nat) : Nat := (cs.map fun i => bitmapBytes (r i).width (r i).rows).sum

/-- The compiler accepts the header of the rendered characters up to `last`: some character has a pixel, the bitmap of
every character begins below offset 65536, and the height fits a byte. -/
structure Accepted (last : Nat) (r : Nat → Rendered) (height : Int) : Prop where
  pixel : ∃ i ∈ codes 0x20 last, 0 < (r i).width * (r i).rows
  offsets : ∀ n, n < (codes 0x20 last).length → sizes r ((codes 0x20 last).take n) < 65536
  height : 0 ≤ height ∧ height < 256

/-- The sizes of the bitmaps of the table. -/
theorem table_sizes (r : Nat → Rendered) (cs : List Nat) (hr : ∀ i ∈ cs, (∃ pitch, (r i).WF pitch))
    (ds : List GlyphData) (h : convertAll (cs.map r) BitStream.new = .ok ds) :
    ds.map (fun d => d.bitmapData.length) = cs.map fun i => bitmapBytes (r i).width (r i).rows := by
  obtain ⟨ds', m1, m2, m3⟩ := convertAll_ok (cs.map r) (by
    intro x hx
    obtain ⟨i, hi, rfl⟩ := List.mem_map.1 hx
    exact hr i hi)
  rw [h] at m1
  cases m1
  rw [List.length_map] at m2
  apply List.ext_getElem?
  intro m
  rw [List.getElem?_map, List.getElem?_map]
  cases hm : cs[m]? with
  | none =>
    have := List.getElem?_eq_none_iff.1 hm
    rw [List.getElem?_eq_none (by omega)]
    rfl
  | some i =>
    obtain ⟨d', e1, e2⟩ := m3 m (r i) (by rw [List.getElem?_map, hm]; rfl)
    rw [e1]
    simp only [Option.map_some, e2.size]

theorem compiles_iff (r : Nat → Rendered) (last : Nat) (hr : ∀ i ∈ codes 0x20 last, (∃ pitch, (r i).WF pitch))
    (ds : List GlyphData) (h : convertAll ((codes 0x20 last).map r) BitStream.new = .ok ds) (height : Int) :
    Compiles ds height ↔ Accepted last r height := by
  have hs := table_sizes r _ hr ds h
  have hlen : ds.length = (codes 0x20 last).length := by
    have := congrArg List.length hs
    simpa using this
  have hoff : ∀ n, offsetOf ds n = sizes r ((codes 0x20 last).take n) := by
    intro n
    unfold offsetOf sizes
    rw [List.map_take, hs, List.map_take]
  have hb : bitmapsFile ds ≠ [] ↔ ∃ i ∈ codes 0x20 last, 0 < (r i).width * (r i).rows := by
    have e : (bitmapsFile ds).length = ((codes 0x20 last).map fun i => bitmapBytes (r i).width (r i).rows).sum := by
      simp only [bitmapsFile, List.length_flatMap]; rw [hs]
    rw [← List.length_pos_iff, e]
    generalize codes 0x20 last = cs
    induction cs with
    | nil => simp
    | cons i cs ih =>
      rw [List.map_cons, List.sum_cons]
      constructor
      · intro hpos
        by_cases h0 : 0 < (r i).width * (r i).rows
        · exact ⟨i, List.mem_cons_self .., h0⟩
        · have hz : bitmapBytes (r i).width (r i).rows = 0 := by
            unfold bitmapBytes; omega
          obtain ⟨j, hj, hp⟩ := ih.1 (by omega)
          exact ⟨j, List.mem_cons_of_mem _ hj, hp⟩
      · rintro ⟨j, hj, hp⟩
        rcases List.mem_cons.1 hj with rfl | hj
        · unfold bitmapBytes; omega
        · have := ih.2 ⟨j, hj, hp⟩
          omega
  constructor
  · intro ⟨h1, h2, h3⟩
    exact ⟨hb.1 h1, fun n hn => by rw [← hoff]; exact h2 n (by omega), h3⟩
  · intro ⟨h1, h2, h3⟩
    exact ⟨hb.2 h1, fun n hn => by rw [hoff]; exact h2 n (by omega), h3⟩

/-- What is given for the header output. -/
structure HeaderRun {σ : Type} (w : World σ) (c : Config) (conv : List Byte → Answer) (r : Nat → Rendered)
    (height : Int) (p : List Byte) : Prop where
  help : c.printHelp = false
  font : c.fontFileName ≠ []
  size : 0 ≤ c.fontSize ∧ c.fontSize < 33554432
  works : Works w c
  renders : Renders w c conv r
  header : c.format = .header
  total : sizes r (codes 0x20 c.lastChar) < 100000
  each : ∀ i ∈ codes 0x20 c.lastChar, bitmapBytes (r i).width (r i).rows < 65536
  utf8 : w.iconvOpen c.encoding b!"UTF-8" = true
  label : ∀ n, (w.label c.encoding n).length ≤ 4 ∧ ∀ ch ∈ w.label c.encoding n, ch ≠ 10
  name : IsIdent (fontName c) ∧ (fontName c).length ≤ 300
  metric : height = (w.metricHeight c.fontFileName (64 * c.fontSize) c.dpi).tdiv 64
  int : -2147483648 ≤ height ∧ height < 2147483648
  path : p = join (outputDir w c) (fontName c ++ b!".h")
  opens : w.canOpen p = true
  keeps : ∀ f, w.kept p f = f

/-- **C93**: the program succeeds, and the header it writes compiles to the font of the converted table exactly if it
is `Accepted`; otherwise the compiler refuses it. -/
theorem header_compiles {σ : Type} (w : World σ) (args : List (List Byte)) (c : Config)
    (hp : Config.parse args = .ok (some c)) (conv : List Byte → Answer) (r : Nat → Rendered) (height : Int)
    (p : List Byte) (h : HeaderRun w c conv r height p) :
    ∃ ds file, convertAll ((codes 0x20 c.lastChar).map r) BitStream.new = .ok ds ∧
      main w args = .ok (.code 0, [(p, file)]) ∧
      (Accepted c.lastChar r height → compile (tokens file) =
        some (⟨bitmapsFile ds, binaryGlyphs 0 ds, 0x20, BitVec.ofNat 8 c.lastChar⟩, BitVec.ofInt 8 height)) ∧
      (¬ Accepted c.lastChar r height → compile (tokens file) = none) := by
  obtain ⟨ds, file, h1, h2, h3⟩ := header_font_tokens w args c hp h.help h.font h.size h.works conv r h.renders h.header
    h.each h.total h.utf8 h.label h.name.1 h.name.2 height h.metric h.int p h.path h.opens h.keeps
  have hl : c.lastChar < 256 := by
    rcases parse_char hp with ⟨-, h⟩ | ⟨-, h⟩ <;> omega
  have hc := compile_decls (fontName c) ds 0x20 c.lastChar (by decide) hl height
  rw [← h3] at hc
  have hi := compiles_iff r c.lastChar (by
    intro i hi
    exact (h.renders.raster i (by rw [parse_first hp]; exact hi)).1) ds h1 height
  refine ⟨ds, file, h1, h2, fun ha => ?_, fun ha => ?_⟩
  · rw [hc, if_pos (hi.2 ha)]; rfl
  · rw [hc, if_neg (fun hx => ha (hi.1 hx))]

/-- **C93**: the same font written in both formats is the same font: when the compiler accepts the header, the
bitmap array and the glyphs it declares are those of the two binary files. -/
theorem formats_agree {σ : Type} (w : World σ) (args args' : List (List Byte)) (c : Config)
    (hp : Config.parse args = .ok (some c)) (hp' : Config.parse args' = .ok (some { c with format := .binary }))
    (conv : List Byte → Answer) (r : Nat → Rendered) (height : Int) (p : List Byte) (h : HeaderRun w c conv r height p)
    (ha : Accepted c.lastChar r height)
    (p1 p2 : List Byte) (hp1 : p1 = join (outputDir w c) (fontName c ++ b!"Bitmaps.bin"))
    (hp2 : p2 = join (outputDir w c) (fontName c ++ b!"Glyphs.bin"))
    (ho1 : w.canOpen p1 = true) (ho2 : w.canOpen p2 = true) (hk1 : ∀ f, w.kept p1 f = f) (hk2 : ∀ f, w.kept p2 f = f) :
    ∃ header bitmap file glyphs, main w args = .ok (.code 0, [(p, header)]) ∧
      main w args' = .ok (.code 0, [(p1, bitmap), (p2, file)]) ∧ readGlyphs file = some glyphs ∧
      compile (tokens header) =
        some (⟨bitmap, glyphs, 0x20, BitVec.ofNat 8 c.lastChar⟩, BitVec.ofInt 8 height) := by
  obtain ⟨ds, header, h1, h2, h3, -⟩ := header_compiles w args c hp conv r height p h
  obtain ⟨ds', k1, k2⟩ := main_table w args' { c with format := .binary } hp' h.help h.font h.size
    ⟨h.works.directory, h.works.init, h.works.face, h.works.size, h.works.iconv⟩ conv r
    ⟨h.renders.iconv, h.renders.single, h.renders.render, h.renders.raster⟩
  rw [parse_first hp'] at k1
  simp only at k1 k2
  rw [h1] at k1
  cases k1
  refine ⟨header, bitmapsFile ds, glyphsFile ds, binaryGlyphs 0 ds, h2, ?_, glyphsFile_reads _, h3 ha⟩
  rw [k2]
  have e1 : join (outputDir w { c with format := .binary }) (fontName { c with format := .binary } ++ b!"Bitmaps.bin") = p1 :=
    hp1.symm
  have e2 : join (outputDir w { c with format := .binary }) (fontName { c with format := .binary } ++ b!"Glyphs.bin") = p2 :=
    hp2.symm
  simp only [writeBinary, e1, e2, ho1, ho2, hk1, hk2, Bool.not_true, Bool.false_eq_true, if_false]

/-- **C93**: the font compiled from the header draws every character (but the last one, see C44) as FreeType renders
it, and carries the height of the font. -/
theorem header_font_draws_partial {σ : Type} (w : World σ) (args : List (List Byte)) (c : Config)
    (hp : Config.parse args = .ok (some c)) (conv : List Byte → Answer) (r : Nat → Rendered) (height : Int)
    (p : List Byte) (h : HeaderRun w c conv r height p) (ha : Accepted c.lastChar r height)
    (hsize : sizes r (codes 0x20 c.lastChar) < 65536) :
    ∃ file f shift, main w args = .ok (.code 0, [(p, file)]) ∧ compile (tokens file) = some (f, shift) ∧
      (shift.toNat : Int) = height ∧ f.glyph.length = (codes 0x20 c.lastChar).length ∧
      ∀ (cv : Canvas) (g : Geom) (fb : FB) (signed : Bool) (pos : Pt) (b : Byte), Ready cv g fb → SmallPt pos →
        (signed = false ∨ b.toNat < 128) → b.toNat ∈ codes 0x20 c.lastChar → b.toNat ≠ c.lastChar →
        ∃ fb', drawCharAt cv g fb signed f pos b = .ok (fb', (r b.toNat).advance / 65536) ∧
          Paints cv g fb fb' (fun p => ∃ x y : Nat, x < (r b.toNat).width ∧ y < (r b.toNat).rows ∧
            (r b.toNat).isSet x y = true ∧
            p = ⟨pos.x + (r b.toNat).left + x, pos.y + (1 - (r b.toNat).top) + y⟩) := by
  obtain ⟨ds, file, h1, h2, h3, -⟩ := header_compiles w args c hp conv r height p h
  have hlast : c.lastChar = 0x7E ∨ c.lastChar = 0xFF := by
    rcases parse_char hp with h | h
    · exact .inl h.2
    · exact .inr h.2
  have hraster : ∀ x ∈ (codes 0x20 c.lastChar).map r, (∃ pitch, x.WF pitch) ∧ x.Fits := by
    intro x hx
    obtain ⟨i, hi, rfl⟩ := List.mem_map.1 hx
    exact h.renders.raster i (by rw [parse_first hp]; exact hi)
  obtain ⟨hl, hd⟩ := table_draws r c.lastChar hlast hraster hsize ds h1
  refine ⟨file, _, _, h2, h3 ha, ?_, hl, hd⟩
  exact toNat_ofInt8 _ ha.height

/-! ### A case meeting the hypotheses -/

def sampleHeader : Config := { sampleConfig with format := .header }

/-- The world of `sample` with another raster. -/
def sampleOf (g : Rendered) : World Unit := { sample with render := fun _ _ _ _ => .bitmap g }

theorem sampleOf_run (g : Rendered) (hg : (∃ pitch, g.WF pitch) ∧ g.Fits) (hs : bitmapBytes g.width g.rows < 1050) :
    HeaderRun (sampleOf g) sampleHeader (fun bs => .done (bs ++ [0, 0, 0])) (fun _ => g) 24 b!"out/Blob18pt7b.h" where
  help := rfl
  font := by decide
  size := by decide
  works := ⟨rfl, rfl, rfl, rfl, rfl⟩
  renders := { iconv := fun _ _ => rfl, single := fun _ => by simp, render := fun _ _ => rfl, raster := fun _ _ => hg }
  header := rfl
  total := by
    have hlen : (codes 0x20 sampleHeader.lastChar).length = 95 := by decide +kernel
    unfold sizes
    rw [List.map_const', hlen, List.sum_replicate_nat]
    omega
  each := by intro _ _; show bitmapBytes g.width g.rows < 65536; omega
  utf8 := rfl
  label := by
    intro n
    exact ⟨by simp [sampleOf, sample], by
      intro ch hc; simp only [sampleOf, sample, List.mem_singleton] at hc; rw [hc]; decide⟩
  name := by
    have : fontName sampleHeader = b!"Blob18pt7b" := by decide +kernel
    rw [this]
    refine ⟨⟨?_, 66, _, rfl, by decide⟩, by decide⟩
    intro ch hc
    simp only [List.mem_cons, List.not_mem_nil, or_false] at hc
    rcases hc with rfl | rfl | rfl | rfl | rfl | rfl | rfl | rfl | rfl | rfl <;> (unfold isIdentChar; decide)
  metric := by show (24 : Int) = (1555 : Int).tdiv 64; decide
  int := by decide
  path := by
    show _ = join (outputDir sample sampleHeader) _
    decide +kernel
  opens := rfl
  keeps := fun _ => rfl

example : Config.parse [b!"-ffonts/Blob.ttf", b!"-s18", b!"-o", b!"out"] = .ok (some sampleHeader) := by decide +kernel

theorem sample_accepted : Accepted sampleHeader.lastChar (fun _ => blob) 24 where
  pixel := ⟨0x20, by decide +kernel, by decide⟩
  offsets := by
    have : ∀ n : Fin 96, sizes (fun _ => blob) ((codes 0x20 sampleHeader.lastChar).take n.1) < 65536 := by decide +kernel
    intro n hn
    have hlen : (codes 0x20 sampleHeader.lastChar).length = 95 := by decide +kernel
    exact this ⟨n, by omega⟩
  height := by decide

example : HeaderRun (sampleOf blob) sampleHeader (fun bs => .done (bs ++ [0, 0, 0])) (fun _ => blob) 24
    b!"out/Blob18pt7b.h" := sampleOf_run blob blob_ok (by decide)

/-- A raster of 90 × 90 pixels. -/
def big : Rendered := ⟨90, 90, 12, List.replicate 1080 0xFF, 0, 90, 90 * 65536⟩

theorem big_ok : (∃ pitch, big.WF pitch) ∧ big.Fits :=
  ⟨⟨12, rfl, by decide, by simp only [big, List.length_replicate]; decide, by simp only [big, List.length_replicate]; decide⟩, by decide, by decide, by decide, by decide, by decide⟩

/-- Finding for **C93**: with 95 characters of 90 × 90 pixels the program reports success and writes a header which
does not compile. -/
theorem large_header_refused :
    ∃ file, main (sampleOf big) [b!"-ffonts/Blob.ttf", b!"-s18", b!"-o", b!"out"] =
        .ok (.code 0, [(b!"out/Blob18pt7b.h", file)]) ∧ compile (tokens file) = none := by
  obtain ⟨ds, file, -, h2, -, h4⟩ := header_compiles (sampleOf big) [b!"-ffonts/Blob.ttf", b!"-s18", b!"-o", b!"out"]
    sampleHeader (by decide +kernel) _ _ _ _ (sampleOf_run big big_ok (by decide))
  refine ⟨file, h2, h4 ?_⟩
  intro ha
  have hlen : (codes 0x20 sampleHeader.lastChar).length = 95 := by decide +kernel
  have := ha.offsets 94 (by omega)
  unfold sizes at this
  rw [List.map_const', List.length_take, hlen, List.sum_replicate_nat] at this
  exact absurd this (by decide)

/-- A declaration whose constant does not fit, and one whose constant fits. -/
example : compile (tokens (b!"const uint8_t aB[] = { 0x10 };\nconst GFXglyph aG[] = { { 65536, { 3, 2 }, 4, { 0, -1 } } };" ++
    b!"\nconst GFXfont a = { aB, aG, 0x20, 0x7E, 24 };")) = none := by decide +kernel
example : (compile (tokens (b!"const uint8_t aB[] = { 0x10 };\nconst GFXglyph aG[] = { { 65535, { 3, 2 }, 4, { 0, -1 } } };" ++
    b!"\nconst GFXfont a = { aB, aG, 0x20, 0x7E, 24 };"))).map (fun f => (f.1.bitmap, f.1.glyph, f.1.first, f.1.last, f.2)) =
    some ([0x10], [⟨65535, 3, 2, 4, 0, 255⟩], 0x20, 0x7E, 24) := by decide +kernel

end Verif.Converter.Main
