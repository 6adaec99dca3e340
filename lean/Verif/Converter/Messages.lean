import Verif.Converter.MainProps
/-!
# C98: what the font converter tells its user

The program of MainModel.lean once more, this time with the text written to the standard output and to the standard error
stream.  Not modelled: what `getopt` itself complains about, and what the runtime prints when an exception is not caught.
-/
namespace Verif.Converter.Main
open Verif Verif.Out Verif.Converter Verif.Converter.Config

/-! ## The code -/

/-- Texts which come from outside.  At most one exception is thrown in a run, so one of each kind is enough. -/
structure Texts where
  /-- `argv[0]` -/
  program : List Byte
  /-- what `FT_Error_String` returns -/
  ft : List Byte
  /-- `what()` of the exception thrown by `is_directory` -/
  directory : List Byte
  /-- `errno` after `iconv_open`: `EINVAL` (`none`) or another number -/
  errno : Option Int
  /-- it is `FT_Load_Char` which fails, not `FT_Render_Glyph` -/
  loading : Bool
  /-- `FT_Get_Glyph` succeeds, but there is no bitmap -/
  got : Bool

/-- The two streams. -/
structure Console where
  out : List Byte
  err : List Byte
deriving DecidableEq

/-- EncodingConverter.cpp:9-19. -/
def noConversion (x : Texts) (source target : List Byte) : List Byte :=
  match x.errno with
  | none => b!"conversion from " ++ source ++ b!" to " ++ target ++ b!" not available"
  | some n => b!"iconv_open filed, errno is " ++ intDec n

/-- FreeTypeFace.cpp:20-32, FreeTypeGlyph.cpp:7-10: a glyph which cannot be had; `std::to_string(symbol)` is decimal. -/
def noGlyph (x : Texts) (v : Nat) : Glyph? → List Byte
  | .error => (if x.loading then b!"Failed to load FreeType face char code " else b!"Failed to render FreeType face char code ") ++
      intDec v ++ b!": " ++ x.ft
  | _ => if x.got then b!"FreeType glyph is not bitmap" else b!"Failed to get FreeType face glyph " ++ intDec v

/-- main.cpp:292-316: the loop, with the text of the exception. -/
def loopSays {σ} (w : World σ) (x : Texts) (iconv : σ → List Byte → Answer × σ) (render : Nat → Glyph?) :
    List Nat → Enc × σ → BitStream → Res (Except (List Byte) (List GlyphData))
  | [], _, _ => .ok (.ok [])
  | i :: is, st, s => do
    let (v, st') ← Enc.convertRaw iconv st (BitVec.ofNat 8 i)
    match render v with
    | .error => ftError w (.error (noGlyph x v .error))
    | .noBitmap => .ok (.error (noGlyph x v .noBitmap))
    | .bitmap r => do
      let (d, s') ← convertGlyph r s
      let rest ← loopSays w x iconv render is st' s'
      .ok (rest.map (d :: ·))

/-- main.cpp:368-372: the exception is reported. -/
def report (out what : List Byte) : Console := ⟨out, b!"Error: " ++ what ++ [10]⟩

/-- main.cpp:218, 326, 340. -/
def notOpened (p : List Byte) : List Byte := b!"output file " ++ p ++ b!" was not opened"

/-- main.cpp:318-357. -/
def binarySays {σ} (w : World σ) (dir name : List Byte) (table : List GlyphData) : Exit × Files × Console :=
  let p1 := join dir (name ++ b!"Bitmaps.bin")
  let p2 := join dir (name ++ b!"Glyphs.bin")
  if !w.canOpen p1 then (.code 1, [], report [] (notOpened p1))
  else
    let f1 := (p1, w.kept p1 (bitmapsFile table))
    let o1 := b!"Writing bitmaps to " ++ p1 ++ [10]
    if !w.canOpen p2 then (.code 1, [f1], report o1 (notOpened p2))
    else (.code 0, [f1, (p2, w.kept p2 (glyphsFile table))], ⟨o1 ++ (b!"Writing glyphs to " ++ p2 ++ [10]), []⟩)

/-- main.cpp:209-253. -/
def headerSays {σ} (w : World σ) (x : Texts) (dir name : List Byte) (c : Config) (height : Int) (table : List GlyphData) :
    Res (Exit × Files × Console) :=
  let p := join dir (name ++ b!".h")
  let o := b!"Writing output to " ++ p ++ [10]
  if !w.canOpen p then .ok (.code 1, [], report [] (notOpened p))
  else if !w.iconvOpen c.encoding b!"UTF-8" then do
    let f ← headerBitmaps w.junk name table
    .ok (.code 1, [(p, w.kept p f)], report o (noConversion x c.encoding b!"UTF-8"))
  else do
    let f ← writeHeaderFile w.junk (w.label c.encoding) name c.encoding table c.firstChar c.lastChar height
    .ok (.code 0, [(p, w.kept p f)], ⟨o, []⟩)

/-- main.cpp:261-263. -/
def usage (x : Texts) : List Byte :=
  b!"Usage: " ++ fileName x.program ++
    b!" -f fontfile [-o outputfile] [-d DPI] [-s size] [-e 8-bit codepage, default ISO-8859-1] [-b] [-h]" ++ [10]

/-- main.cpp:255-373. -/
def mainSays {σ} (w : World σ) (x : Texts) (args : List (List Byte)) : Res (Exit × Files × Console) := do
  match ← Config.parse args with
  | none => .ok (.terminated, [], ⟨[], []⟩)
  | some c =>
    if c.printHelp || c.fontFileName.isEmpty then .ok (.code 1, [], ⟨usage x, []⟩)
    else if w.directoryError c.outputDirectory then .ok (.code 1, [], report [] x.directory)
    else do
      let width ← charWidth c.fontSize
      if !w.ftInit then ftError w (.code 1, [], report [] (b!"Failed to initialize FreeType library: " ++ x.ft))
      else if !w.ftFace c.fontFileName then ftError w (.code 1, [], report [] (b!"Failed to create FreeType face: " ++ x.ft))
      else if !w.ftSize c.fontFileName width c.dpi then
        ftError w (.code 1, [], report [] (b!"Failed to set FreeType face char size: " ++ x.ft))
      else if !w.iconvOpen c.encoding b!"UCS-4LE" then
        .ok (.code 1, [], report [] (noConversion x c.encoding b!"UCS-4LE"))
      else do
        match ← loopSays w x (w.iconv c.encoding) (w.render c.fontFileName width c.dpi) (codes c.firstChar c.lastChar)
            (Enc.new, w.iconvState) BitStream.new with
        | .error what => .ok (.code 1, [], report [] what)
        | .ok table =>
          match c.format with
          | .binary => .ok (binarySays w (outputDir w c) (fontName c) table)
          | .header => do
            let height ← headerHeight (w.metricHeight c.fontFileName width c.dpi)
            headerSays w x (outputDir w c) (fontName c) c height table

/-! ## Specification -/

/-- The files asked for, and what is in them. -/
def wanted {σ} (w : World σ) (c : Config) : List (List Byte × List Byte) :=
  match c.format with
  | .binary => [(b!"bitmaps", join (outputDir w c) (fontName c ++ b!"Bitmaps.bin")),
      (b!"glyphs", join (outputDir w c) (fontName c ++ b!"Glyphs.bin"))]
  | .header => [(b!"output", join (outputDir w c) (fontName c ++ b!".h"))]

/-- One line for each file. -/
def announced (ws : List (List Byte × List Byte)) : List Byte :=
  ws.flatMap fun f => b!"Writing " ++ f.1 ++ b!" to " ++ f.2 ++ [10]

/-- The conversions asked for. -/
def targets (c : Config) : List (List Byte) :=
  match c.format with
  | .binary => [b!"UCS-4LE"]
  | .header => [b!"UCS-4LE", b!"UTF-8"]

/-- The complaints about which the outside world leaves no doubt. -/
inductive Justified {σ} (w : World σ) (x : Texts) (c : Config) : List Byte → Prop where
  | directory : w.directoryError c.outputDirectory = true → Justified w x c x.directory
  | library : w.ftInit = false → Justified w x c (b!"Failed to initialize FreeType library: " ++ x.ft)
  | face : w.ftFace c.fontFileName = false → Justified w x c (b!"Failed to create FreeType face: " ++ x.ft)
  | size (width : Int) : charWidth c.fontSize = .ok width → w.ftSize c.fontFileName width c.dpi = false →
      Justified w x c (b!"Failed to set FreeType face char size: " ++ x.ft)
  | einval (target : List Byte) : target ∈ targets c → w.iconvOpen c.encoding target = false → x.errno = none →
      Justified w x c (b!"conversion from " ++ c.encoding ++ b!" to " ++ target ++ b!" not available")
  | errno (target : List Byte) (n : Int) : target ∈ targets c → w.iconvOpen c.encoding target = false → x.errno = some n →
      Justified w x c (b!"iconv_open filed, errno is " ++ intDec n)
  | load (width : Int) (v : Nat) : charWidth c.fontSize = .ok width → w.render c.fontFileName width c.dpi v = .error →
      x.loading = true → Justified w x c (b!"Failed to load FreeType face char code " ++ intDec v ++ b!": " ++ x.ft)
  | render (width : Int) (v : Nat) : charWidth c.fontSize = .ok width → w.render c.fontFileName width c.dpi v = .error →
      x.loading = false → Justified w x c (b!"Failed to render FreeType face char code " ++ intDec v ++ b!": " ++ x.ft)
  | glyph (width : Int) (v : Nat) : charWidth c.fontSize = .ok width → w.render c.fontFileName width c.dpi v = .noBitmap →
      x.got = false → Justified w x c (b!"Failed to get FreeType face glyph " ++ intDec v)
  | noBitmap (width : Int) (v : Nat) : charWidth c.fontSize = .ok width →
      w.render c.fontFileName width c.dpi v = .noBitmap → x.got = true → Justified w x c b!"FreeType glyph is not bitmap"
  | file (p : List Byte) : p ∈ (wanted w c).map Prod.snd → w.canOpen p = false →
      Justified w x c (b!"output file " ++ p ++ b!" was not opened")

/-! ## Proof -/

/-- Without the text of the exception it is the loop of MainModel.lean. -/
theorem loopSays_loop {σ} (w : World σ) (x : Texts) (iconv : σ → List Byte → Answer × σ) (render : Nat → Glyph?)
    (is : List Nat) : ∀ (st : Enc × σ) (s : BitStream),
      (loopSays w x iconv render is st s).bind (fun e => .ok e.toOption) = convertLoop w iconv render is st s := by
  induction is with
  | nil => intro st s; rfl
  | cons i is ih =>
    intro st s
    simp only [loopSays, convertLoop]
    generalize Enc.convertRaw iconv st (BitVec.ofNat 8 i) = r
    cases r with
    | ub => rfl
    | hang => rfl
    | ok r =>
      obtain ⟨v, st'⟩ := r
      simp only [Res.bind_ok]
      generalize render v = g
      cases g with
      | error => dsimp only; unfold ftError; split <;> rfl
      | noBitmap => rfl
      | bitmap r =>
        dsimp only
        generalize convertGlyph r s = y
        cases y with
        | ub => rfl
        | hang => rfl
        | ok y =>
          obtain ⟨d, s'⟩ := y
          simp only [Res.bind_ok, ← ih st' s']
          generalize loopSays w x iconv render is st' s' = z
          cases z with
          | ub => rfl
          | hang => rfl
          | ok e => cases e <;> rfl

/-- What the loop complains about. -/
theorem loopSays_error {σ} {w : World σ} {x : Texts} {iconv : σ → List Byte → Answer × σ} {render : Nat → Glyph?}
    {is : List Nat} {st : Enc × σ} {s : BitStream} {what : List Byte}
    (h : loopSays w x iconv render is st s = .ok (.error what)) :
    ∃ v, (render v = .error ∨ render v = .noBitmap) ∧ what = noGlyph x v (render v) := by
  induction is generalizing st s with
  | nil => simp [loopSays] at h
  | cons i is ih =>
    simp only [loopSays] at h
    generalize Enc.convertRaw iconv st (BitVec.ofNat 8 i) = r at h
    cases r with
    | ub => cases h
    | hang => cases h
    | ok r =>
      obtain ⟨v, st'⟩ := r
      simp only [Res.bind_ok] at h
      generalize hg : render v = g at h
      cases g with
      | error =>
        dsimp only at h
        unfold ftError at h
        split at h
        · cases h; exact ⟨v, .inl hg, by rw [hg]⟩
        · cases h
      | noBitmap => cases h; exact ⟨v, .inr hg, by rw [hg]⟩
      | bitmap r =>
        dsimp only at h
        generalize convertGlyph r s = y at h
        cases y with
        | ub => cases h
        | hang => cases h
        | ok y =>
          obtain ⟨d, s'⟩ := y
          simp only [Res.bind_ok] at h
          generalize hz : loopSays w x iconv render is st' s' = z at h
          cases z with
          | ub => cases h
          | hang => cases h
          | ok e =>
            cases e with
            | error what' => cases h; exact ih hz
            | ok t => cases h

/-- **C98**: the messages are those of the program: without them, what is left is `main`. -/
theorem mainSays_main {σ : Type} (w : World σ) (x : Texts) (args : List (List Byte)) :
    (mainSays w x args).bind (fun (e, fs, _) => .ok (e, fs)) = main w args := by
  unfold mainSays main
  generalize Config.parse args = r
  cases r with
  | ub => rfl
  | hang => rfl
  | ok oc =>
    cases oc with
    | none => rfl
    | some c =>
      simp only [Res.bind_ok]
      split
      · rfl
      split
      · rfl
      generalize charWidth c.fontSize = r
      cases r with
      | ub => rfl
      | hang => rfl
      | ok width =>
        simp only [Res.bind_ok]
        split
        · unfold ftError; split <;> rfl
        split
        · unfold ftError; split <;> rfl
        split
        · unfold ftError; split <;> rfl
        split
        · rfl
        rw [← loopSays_loop w x]
        generalize loopSays w x (w.iconv c.encoding) (w.render c.fontFileName width c.dpi) (codes c.firstChar c.lastChar)
          (Enc.new, w.iconvState) BitStream.new = r
        cases r with
        | ub => rfl
        | hang => rfl
        | ok e =>
          cases e with
          | error what => rfl
          | ok table =>
            change Res.bind (match c.format with | .binary => _ | .header => _) _ = match c.format with | .binary => _ | .header => _
            cases c.format with
            | binary =>
              simp only [binarySays, writeBinary]
              split
              · rfl
              · split <;> rfl
            | header =>
              dsimp only
              generalize headerHeight (w.metricHeight c.fontFileName width c.dpi) = r
              cases r with
              | ub => rfl
              | hang => rfl
              | ok height =>
                simp only [Res.bind_ok, headerSays, writeHeader]
                split
                · rfl
                · split
                  · generalize headerBitmaps w.junk (fontName c) table = r
                    cases r <;> rfl
                  · generalize writeHeaderFile w.junk (w.label c.encoding) (fontName c) c.encoding table c.firstChar
                      c.lastChar height = r
                    cases r <;> rfl

theorem noConversion_justified {σ} {w : World σ} {x : Texts} {c : Config} {target : List Byte} (ht : target ∈ targets c)
    (h : w.iconvOpen c.encoding target = false) : Justified w x c (noConversion x c.encoding target) := by
  unfold noConversion
  split
  · exact .einval target ht h (by assumption)
  · exact .errno target _ ht h (by assumption)

/-- **C98**: what the user is told, whatever the outside world answers.  Success: nothing on the standard error stream, the
standard output announces exactly the files written, and there was no obstacle.  Exit status 1: either the usage was asked
for and is all there is, or there is one message on the standard error stream, and it is justified; the standard output
announces the files which were opened before. -/
theorem says_exact {σ : Type} (w : World σ) (x : Texts) (args : List (List Byte)) (e : Exit) (fs : Files) (con : Console)
    (h : mainSays w x args = .ok (e, fs, con)) :
    (e = .terminated ∧ Config.parse args = .ok none ∧ fs = [] ∧ con = ⟨[], []⟩) ∨
    ∃ c, Config.parse args = .ok (some c) ∧
      (((c.printHelp = true ∨ c.fontFileName = []) ∧ e = .code 1 ∧ fs = [] ∧ con = ⟨usage x, []⟩) ∨
       (c.printHelp = false ∧ c.fontFileName ≠ [] ∧
        ∃ k, fs.map Prod.fst = ((wanted w c).take k).map Prod.snd ∧ con.out = announced ((wanted w c).take k) ∧
          ((e = .code 0 ∧ con.err = [] ∧ k = (wanted w c).length ∧ (∀ f ∈ wanted w c, w.canOpen f.2 = true) ∧
              ∀ t ∈ targets c, w.iconvOpen c.encoding t = true) ∨
           (e = .code 1 ∧ ∃ what, Justified w x c what ∧ con.err = b!"Error: " ++ what ++ [10])))) := by
  unfold mainSays at h
  generalize Config.parse args = r at h
  cases r with
  | ub => cases h
  | hang => cases h
  | ok oc =>
    cases oc with
    | none => cases h; exact .inl ⟨rfl, rfl, rfl, rfl⟩
    | some c =>
      refine .inr ⟨c, rfl, ?_⟩
      simp only [Res.bind_ok] at h
      split at h
      · rename_i hh
        cases h
        refine .inl ⟨?_, rfl, rfl, rfl⟩
        simpa using hh
      rename_i hh
      simp only [Bool.or_eq_true, not_or, List.isEmpty_iff, Bool.not_eq_true] at hh
      refine .inr ⟨hh.1, hh.2, ?_⟩
      have early : ∀ what, Justified w x c what → (Exit.code 1, ([] : Files), report [] what) = (e, fs, con) →
          ∃ k, fs.map Prod.fst = ((wanted w c).take k).map Prod.snd ∧ con.out = announced ((wanted w c).take k) ∧
          ((e = .code 0 ∧ con.err = [] ∧ k = (wanted w c).length ∧ (∀ f ∈ wanted w c, w.canOpen f.2 = true) ∧
              ∀ t ∈ targets c, w.iconvOpen c.encoding t = true) ∨
           (e = .code 1 ∧ ∃ what, Justified w x c what ∧ con.err = b!"Error: " ++ what ++ [10])) := by
        intro what hj he
        cases he
        exact ⟨0, rfl, rfl, .inr ⟨rfl, what, hj, rfl⟩⟩
      split at h
      · rename_i hd
        exact early _ (.directory hd) (Res.ok.inj h)
      generalize hw : charWidth c.fontSize = r at h
      cases r with
      | ub => cases h
      | hang => cases h
      | ok width =>
        simp only [Res.bind_ok] at h
        have ft : ∀ what, Justified w x c what → ftError w (Exit.code 1, ([] : Files), report [] what) = .ok (e, fs, con) →
            (Exit.code 1, ([] : Files), report [] what) = (e, fs, con) := by
          intro what _ he
          unfold ftError at he
          split at he
          · exact Res.ok.inj he
          · cases he
        split at h
        · rename_i h1
          have hj : Justified w x c _ := .library (by simpa using h1)
          exact early _ hj (ft _ hj h)
        split at h
        · rename_i h1
          have hj : Justified w x c _ := .face (by simpa using h1)
          exact early _ hj (ft _ hj h)
        split at h
        · rename_i h1
          have hj : Justified w x c _ := .size width hw (by simpa using h1)
          exact early _ hj (ft _ hj h)
        split at h
        · rename_i h1
          refine early _ (noConversion_justified ?_ (by simpa using h1)) (Res.ok.inj h)
          unfold targets; split <;> simp
        rename_i hu
        simp only [Bool.not_eq_true', Bool.not_eq_false] at hu
        generalize hr : loopSays w x (w.iconv c.encoding) (w.render c.fontFileName width c.dpi)
          (codes c.firstChar c.lastChar) (Enc.new, w.iconvState) BitStream.new = r at h
        cases r with
        | ub => cases h
        | hang => cases h
        | ok o =>
          cases o with
          | error what =>
            refine early what ?_ (Res.ok.inj h)
            obtain ⟨v, hv, rfl⟩ := loopSays_error hr
            rcases hv with hv | hv <;> rw [hv] <;> unfold noGlyph <;> dsimp only <;> split
            · exact .load width v hw hv (by assumption)
            · exact .render width v hw hv (by simp_all)
            · exact .noBitmap width v hw hv (by assumption)
            · exact .glyph width v hw hv (by simp_all)
          | ok table =>
            simp only [Res.bind_ok] at h
            generalize hf : c.format = f at h
            cases f with
            | binary =>
              have hwant : wanted w c = [(b!"bitmaps", join (outputDir w c) (fontName c ++ b!"Bitmaps.bin")),
                (b!"glyphs", join (outputDir w c) (fontName c ++ b!"Glyphs.bin"))] := by unfold wanted; rw [hf]
              have htar : targets c = [b!"UCS-4LE"] := by unfold targets; rw [hf]
              simp only [binarySays, Res.ok.injEq] at h
              split at h
              · rename_i h1
                exact early _ (.file _ (by rw [hwant]; simp) (by simpa using h1)) h
              rename_i h1
              simp only [Bool.not_eq_true', Bool.not_eq_false] at h1
              split at h
              · rename_i h2
                cases h
                refine ⟨1, by rw [hwant]; rfl, by rw [hwant]; simp [announced, report], .inr ⟨rfl, _, .file _ (by rw [hwant]; simp)
                  (by simpa using h2), rfl⟩⟩
              · rename_i h2
                simp only [Bool.not_eq_true', Bool.not_eq_false] at h2
                cases h
                refine ⟨2, by rw [hwant]; rfl, by rw [hwant]; simp [announced], .inl ⟨rfl, rfl, by rw [hwant]; rfl, ?_, ?_⟩⟩
                · rw [hwant]; simp only [List.mem_cons, List.not_mem_nil, or_false, forall_eq_or_imp, forall_eq]; exact ⟨h1, h2⟩
                · rw [htar]; simp only [List.mem_cons, List.not_mem_nil, or_false, forall_eq]; exact hu
            | header =>
              have hwant : wanted w c = [(b!"output", join (outputDir w c) (fontName c ++ b!".h"))] := by unfold wanted; rw [hf]
              have htar : targets c = [b!"UCS-4LE", b!"UTF-8"] := by unfold targets; rw [hf]
              dsimp only at h
              generalize headerHeight (w.metricHeight c.fontFileName width c.dpi) = r at h
              cases r with
              | ub => cases h
              | hang => cases h
              | ok height =>
                simp only [Res.bind_ok, headerSays] at h
                split at h
                · rename_i h1
                  exact early _ (.file _ (by rw [hwant]; simp) (by simpa using h1)) (Res.ok.inj h)
                rename_i h1
                simp only [Bool.not_eq_true', Bool.not_eq_false] at h1
                split at h
                · rename_i h2
                  generalize headerBitmaps w.junk (fontName c) table = r at h
                  cases r with
                  | ub => cases h
                  | hang => cases h
                  | ok f =>
                    cases h
                    refine ⟨1, by rw [hwant]; rfl, by rw [hwant]; simp [announced, report], .inr ⟨rfl, _,
                      noConversion_justified (by rw [htar]; simp) (by simpa using h2), rfl⟩⟩
                · rename_i h2
                  simp only [Bool.not_eq_true', Bool.not_eq_false] at h2
                  generalize writeHeaderFile w.junk (w.label c.encoding) (fontName c) c.encoding table c.firstChar
                      c.lastChar height = r at h
                  cases r with
                  | ub => cases h
                  | hang => cases h
                  | ok f =>
                    cases h
                    refine ⟨1, by rw [hwant]; rfl, by rw [hwant]; simp [announced], .inl ⟨rfl, rfl, by rw [hwant]; rfl, ?_, ?_⟩⟩
                    · rw [hwant]; simp only [List.mem_cons, List.not_mem_nil, or_false, forall_eq]; exact h1
                    · rw [htar]; simp only [List.mem_cons, List.not_mem_nil, or_false, forall_eq_or_imp, forall_eq]; exact ⟨hu, h2⟩

/-- Finding for **C98**: the usage names a default encoding which is not the default. -/
theorem usage_wrong_default (x : Texts) : (b!"default ISO-8859-1" <:+: usage x) ∧
    ∃ c, Config.parse [b!"-f", b!"a.ttf"] = .ok (some c) ∧ c.fontFileName = b!"a.ttf" ∧ c.encoding = b!"ASCII" := by
  refine ⟨?_, ?_⟩
  · refine ⟨b!"Usage: " ++ fileName x.program ++ b!" -f fontfile [-o outputfile] [-d DPI] [-s size] [-e 8-bit codepage, ",
      b!"] [-b] [-h]" ++ [10], ?_⟩
    simp [usage]
  · have h : (Config.parse [b!"-f", b!"a.ttf"]).bind (fun o => .ok (o.map fun c => (c.fontFileName, c.encoding))) =
        .ok (some (b!"a.ttf", b!"ASCII")) := by decide +kernel
    generalize Config.parse [b!"-f", b!"a.ttf"] = r at h
    cases r with
    | ub => cases h
    | hang => cases h
    | ok o =>
      cases o with
      | none => cases h
      | some c =>
        simp only [Res.bind, Option.map_some, Res.ok.injEq, Option.some.injEq, Prod.mk.injEq] at h
        exact ⟨c, rfl, h.1, h.2⟩

/-! ### Concrete cases -/

/-- The second file cannot be opened. -/
example : (mainSays { sample with canOpen := fun p => p != b!"out/Blob18pt7bGlyphs.bin" } ⟨b!"bin/conv", [], [], none, false, false⟩
      [b!"-ffonts/Blob.ttf", b!"-bs18", b!"-o", b!"out"]).bind (fun (e, fs, con) => .ok (e, fs.map Prod.fst, con)) =
    .ok (.code 1, [b!"out/Blob18pt7bBitmaps.bin"], ⟨b!"Writing bitmaps to out/Blob18pt7bBitmaps.bin" ++ [10],
      b!"Error: output file out/Blob18pt7bGlyphs.bin was not opened" ++ [10]⟩) := by decide +kernel

/-- No arguments: the usage, and exit status 1. -/
example : mainSays sample ⟨b!"bin/conv", [], [], none, false, false⟩ [] = .ok (.code 1, [],
    ⟨b!"Usage: conv -f fontfile [-o outputfile] [-d DPI] [-s size] [-e 8-bit codepage, default ISO-8859-1] [-b] [-h]" ++ [10],
      []⟩) := by decide +kernel

end Verif.Converter.Main
