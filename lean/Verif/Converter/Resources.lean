import Verif.Converter.MainProps
/-!
# C95: what the font converter holds of the outside world

The program of MainModel.lean once more, this time with the calls which obtain, use and give back a FreeType library,
face or glyph, an `iconv` descriptor or a file.  All of them are owned by local objects (`std::unique_ptr` in
FreeTypeLibrary.h:16, FreeTypeFace.h:18, FreeTypeGlyph.h:13, `EncodingConverter`, `std::ofstream`), whose destructors run
at the end of the block, also when it is left by an exception; every exception inside of the `try` block is caught
(main.cpp:370).  An exception outside of it ends the program without running destructors.
-/
namespace Verif.Converter.Main
open Verif Verif.Out Verif.Converter Verif.Converter.Config

/-- What the program can hold. -/
inductive Handle where
  | library
  | face
  | glyph
  /-- a conversion to the given encoding -/
  | iconv (target : List Byte)
  | file (path : List Byte)
deriving DecidableEq

/-- The calls concerning handles. -/
inductive Act where
  | acquire (h : Handle)
  | use (h : Handle)
  | release (h : Handle)
  /-- all that is ever written to an open file -/
  | write (path contents : List Byte)
deriving DecidableEq

/-- How a block ends: with a value or with an exception. -/
inductive End (α : Type) where
  | value (a : α)
  | thrown
deriving DecidableEq

/-- A block: how it ends and what it does on the way. -/
abbrev Block (α : Type) := Res (End α × List Act)

/-- Nothing but a result. -/
def Block.pure {α} (a : α) : Block α := .ok (.value a, [])

/-- `throw`. -/
def Block.throw {α} : Block α := .ok (.thrown, [])

/-- One call. -/
def Block.act (a : Act) : Block Unit := .ok (.value (), [a])

/-- Something without calls concerning handles. -/
def Block.lift {α} (x : Res α) : Block α := x.bind fun a => .ok (.value a, [])

/-- One statement after the other; an exception skips the rest. -/
def Block.seq {α β} (x : Block α) (f : α → Block β) : Block β :=
  x.bind fun
    | (.thrown, t) => .ok (.thrown, t)
    | (.value a, t) => (f a).bind fun (e, t') => .ok (e, t ++ t')

/-- A local object which owns a handle, and the rest of its block: the destructor runs however the block ends. -/
def Block.owning {α} (h : Handle) (body : Block α) : Block α :=
  body.bind fun (e, t) => .ok (e, .acquire h :: t ++ [.release h])

/-- `throw std::runtime_error(… + FT_Error_String(…))`. -/
def Block.ftThrow {σ α} (w : World σ) : Block α := if w.errorStrings then Block.throw else .ub

/-- main.cpp:294-314, `renderGlyph` (FreeTypeFace.cpp:18-37) and `getBitmapGlyph` (FreeTypeGlyph.cpp:5-12): one
character.  `got` tells whether `FT_Get_Glyph` succeeds where there is no bitmap in the end. -/
def glyphBlock {σ} (w : World σ) (got : Bool) (s : BitStream) : Glyph? → Block (GlyphData × BitStream)
  | .error => .seq (.act (.use .face)) fun _ => .ftThrow w
  | .noBitmap => .seq (.act (.use .face)) fun _ =>
      if got then .owning .glyph (.seq (.act (.use .glyph)) fun _ => .throw) else .throw
  | .bitmap r => .seq (.act (.use .face)) fun _ =>
      .owning .glyph (.seq (.act (.use .glyph)) fun _ => .lift (convertGlyph r s))

/-- main.cpp:292-316: the loop. -/
def loopBlock {σ} (w : World σ) (got : Nat → Bool) (iconv : σ → List Byte → Answer × σ) (render : Nat → Glyph?) :
    List Nat → Enc × σ → BitStream → Block (List GlyphData)
  | [], _, _ => .pure []
  | i :: is, st, s =>
    .seq (.act (.use (.iconv b!"UCS-4LE"))) fun _ =>
    .seq (.lift (Enc.convertRaw iconv st (BitVec.ofNat 8 i))) fun (v, st') =>
    .seq (glyphBlock w (got i) s (render v)) fun (d, s') =>
    .seq (loopBlock w got iconv render is st' s') fun rest => .pure (d :: rest)

/-- main.cpp:320-333 or 334-356: a binary file, opened, written and closed. -/
def fileBlock {σ} (w : World σ) (path contents : List Byte) : Block Unit :=
  if !w.canOpen path then .throw
  else .owning (.file path) (.act (.write path contents))

/-- main.cpp:318-357: the binary files. -/
def binaryBlock {σ} (w : World σ) (dir name : List Byte) (table : List GlyphData) : Block Unit :=
  .seq (fileBlock w (join dir (name ++ b!"Bitmaps.bin")) (bitmapsFile table)) fun _ =>
  fileBlock w (join dir (name ++ b!"Glyphs.bin")) (glyphsFile table)

/-- main.cpp:234-237: each glyph asks the conversion at most once (line 157) and writes to the file (line 172). -/
def labelBlock (p : List Byte) : List GlyphData → Block Unit
  | [] => .pure ()
  | _ :: gs =>
    .seq (.act (.use (.iconv b!"UTF-8"))) fun _ => .seq (.act (.use (.file p))) fun _ => labelBlock p gs

/-- main.cpp:209-253: the header file.  The constructor of `TextGlyphStream` throws if there is no conversion (line
121); its descriptor is given back before its base class writes the rest of its buffer (line 30). -/
def headerBlock {σ} (w : World σ) (dir name : List Byte) (c : Config) (height : Int) (table : List GlyphData) :
    Block Unit :=
  let p := join dir (name ++ b!".h")
  if !w.canOpen p then .throw
  else .owning (.file p) <|
    if !w.iconvOpen c.encoding b!"UTF-8" then
      .seq (.lift (headerBitmaps w.junk name table)) fun f => .seq (.act (.write p f)) fun _ => .throw
    else
      .seq (.lift (writeHeaderFile w.junk (w.label c.encoding) name c.encoding table c.firstChar c.lastChar height))
        fun f =>
      .seq (.act (.use (.file p))) fun _ =>
      .seq (.owning (.iconv b!"UTF-8") (labelBlock p table)) fun _ =>
      .act (.write p f)

/-- main.cpp:267-367, the `try` block. -/
def tryBlock {σ} (w : World σ) (got : Nat → Bool) (c : Config) : Block Unit :=
  if w.directoryError c.outputDirectory then .throw
  else .seq (.lift (charWidth c.fontSize)) fun width =>
    if !w.ftInit then .ftThrow w
    else .owning .library <|
      .seq (.act (.use .library)) fun _ =>
      if !w.ftFace c.fontFileName then .ftThrow w
      else .owning .face <|
        .seq (.act (.use .face)) fun _ =>
        if !w.ftSize c.fontFileName width c.dpi then .ftThrow w
        else
          .seq (if !w.iconvOpen c.encoding b!"UCS-4LE" then .throw
            else .owning (.iconv b!"UCS-4LE") (loopBlock w got (w.iconv c.encoding) (w.render c.fontFileName width c.dpi)
              (codes c.firstChar c.lastChar) (Enc.new, w.iconvState) BitStream.new)) fun table =>
          match c.format with
          | .binary => binaryBlock w (outputDir w c) (fontName c) table
          | .header =>
            .seq (.act (.use .face)) fun _ =>
            .seq (.lift (headerHeight (w.metricHeight c.fontFileName width c.dpi))) fun height =>
            headerBlock w (outputDir w c) (fontName c) c height table

/-- The files after the calls. -/
def files {σ} (w : World σ) : List Act → Files
  | [] => []
  | .write p f :: t => (p, w.kept p f) :: files w t
  | _ :: t => files w t

/-- main.cpp:255-373: how the program ends and what it has done. -/
def mainActs {σ} (w : World σ) (got : Nat → Bool) (args : List (List Byte)) : Res (Exit × List Act) := do
  match ← Config.parse args with
  | none => .ok (.terminated, [])
  | some c =>
    if c.printHelp || c.fontFileName.isEmpty then .ok (.code 1, [])
    else do
      match ← tryBlock w got c with
      | (.value _, t) => .ok (.code 0, t)
      | (.thrown, t) => .ok (.code 1, t)

/-! ## The discipline -/

/-- A handle can be used only while another one is held: a face and a glyph belong to a library. -/
def Handle.parent : Handle → Option Handle
  | .face => some .library
  | .glyph => some .library
  | _ => none

/-- One call, when `held` is held.  A handle is obtained while it is not held and what it belongs to is; it is used while
it is held; it is given back while it is held and nothing held belongs to it. -/
def Allowed (held : List Handle) : Act → Prop
  | .acquire h => h ∉ held ∧ ∀ p, h.parent = some p → p ∈ held
  | .use h => h ∈ held
  | .write p _ => .file p ∈ held
  | .release h => h ∈ held ∧ ∀ g ∈ held, g.parent ≠ some h

/-- What is held afterwards. -/
def after (held : List Handle) : Act → List Handle
  | .acquire h => h :: held
  | .release h => held.erase h
  | _ => held

/-- All calls are allowed and the handles `rest` are held in the end. -/
inductive Tidy : List Handle → List Act → List Handle → Prop
  | done (held : List Handle) : Tidy held [] held
  | step {held rest : List Handle} {a : Act} {t : List Act} : Allowed held a → Tidy (after held a) t rest →
      Tidy held (a :: t) rest

/-! ## Proofs -/

theorem Tidy.append {a b c : List Handle} {s t : List Act} (h : Tidy a s b) (h' : Tidy b t c) : Tidy a (s ++ t) c := by
  induction h with
  | done => exact h'
  | step h1 _ ih => exact .step h1 (ih h')

/-- A block leaves what is held as it was, however it ends. -/
def Block.Clean {α} (held : List Handle) (b : Block α) : Prop := ∀ e t, b = .ok (e, t) → Tidy held t held

theorem clean_pure {α} (held : List Handle) (a : α) : (Block.pure a).Clean held := by
  intro e t h; cases h; exact .done _

theorem clean_throw {α} (held : List Handle) : (Block.throw : Block α).Clean held := by
  intro e t h; cases h; exact .done _

theorem clean_ftThrow {σ α} (w : World σ) (held : List Handle) : (Block.ftThrow w : Block α).Clean held := by
  unfold Block.ftThrow
  split
  · exact clean_throw _
  · intro e t h; cases h

theorem clean_lift {α} (held : List Handle) (x : Res α) : (Block.lift x).Clean held := by
  intro e t h
  cases x with
  | ok a => cases h; exact .done _
  | ub => cases h
  | hang => cases h

theorem clean_use {held : List Handle} {x : Handle} (hx : x ∈ held) : (Block.act (.use x)).Clean held := by
  intro e t h; cases h; exact .step hx (.done _)

theorem clean_write {held : List Handle} {p f : List Byte} (hx : .file p ∈ held) : (Block.act (.write p f)).Clean held := by
  intro e t h; cases h; exact .step hx (.done _)

theorem clean_seq {α β} {held : List Handle} {x : Block α} {f : α → Block β} (hx : x.Clean held)
    (hf : ∀ a, (f a).Clean held) : (Block.seq x f).Clean held := by
  intro e t h
  cases x with
  | ub => cases h
  | hang => cases h
  | ok r =>
    obtain ⟨e1, t1⟩ := r
    have h1 := hx _ _ rfl
    cases e1 with
    | thrown => cases h; exact h1
    | value a =>
      have hf := hf a
      change (f a).bind _ = _ at h
      generalize f a = y at h hf
      cases y with
      | ub => cases h
      | hang => cases h
      | ok r2 =>
        obtain ⟨e2, t2⟩ := r2
        cases h
        exact h1.append (hf _ _ rfl)

theorem clean_owning {α} {held : List Handle} {x : Handle} {b : Block α} (hb : b.Clean (x :: held)) (hx : x ∉ held)
    (hp : ∀ p, x.parent = some p → p ∈ held) (hc : ∀ g ∈ held, g.parent ≠ some x) (hs : x.parent ≠ some x) :
    (Block.owning x b).Clean held := by
  intro e t h
  cases b with
  | ub => cases h
  | hang => cases h
  | ok r =>
    obtain ⟨e1, t1⟩ := r
    cases h
    rw [List.cons_append]
    refine .step ⟨hx, hp⟩ ((hb _ _ rfl).append (.step ⟨List.mem_cons_self, ?_⟩ ?_))
    · intro g hg
      rcases List.mem_cons.1 hg with rfl | hg
      · exact hs
      · exact hc g hg
    · simp only [after, List.erase_cons_head]
      exact .done _

theorem clean_file {σ} (w : World σ) {held : List Handle} (hh : ∀ h ∈ held, ∀ p, h ≠ .file p) (path contents : List Byte) :
    (fileBlock w path contents).Clean held := by
  unfold fileBlock
  split
  · exact clean_throw _
  · refine clean_owning (clean_write List.mem_cons_self) (fun h => hh _ h _ rfl) (fun p h => by cases h) ?_ (by simp [Handle.parent])
    intro g _
    cases g <;> simp [Handle.parent]

theorem parent_ne_leaf {g x : Handle} (hx : x ≠ .library) : g.parent ≠ some x := by
  intro h
  cases g <;> simp only [Handle.parent, reduceCtorEq, Option.some.injEq] at h <;> exact hx h.symm

theorem clean_glyph {σ} (w : World σ) {held : List Handle} (hl : .library ∈ held) (hf : .face ∈ held) (hg : .glyph ∉ held)
    (got : Bool) (s : BitStream) (g : Glyph?) : (glyphBlock w got s g).Clean held := by
  have own {α} {b : Block α} (hb : b.Clean (.glyph :: held)) : (Block.owning .glyph b).Clean held :=
    clean_owning hb hg (fun p h => by cases h; exact hl) (fun g _ => parent_ne_leaf (by simp)) (parent_ne_leaf (by simp))
  cases g with
  | error => exact clean_seq (clean_use hf) fun _ => clean_ftThrow _ _
  | noBitmap =>
    refine clean_seq (clean_use hf) fun _ => ?_
    split
    · exact own (clean_seq (clean_use List.mem_cons_self) fun _ => clean_throw _)
    · exact clean_throw _
  | bitmap r =>
    exact clean_seq (clean_use hf) fun _ => own (clean_seq (clean_use List.mem_cons_self) fun _ => clean_lift _ _)

theorem clean_loop {σ} (w : World σ) {held : List Handle} (hl : .library ∈ held) (hf : .face ∈ held) (hg : .glyph ∉ held)
    (hi : .iconv b!"UCS-4LE" ∈ held) (got : Nat → Bool) (iconv : σ → List Byte → Answer × σ) (render : Nat → Glyph?)
    (is : List Nat) : ∀ (st : Enc × σ) (s : BitStream), (loopBlock w got iconv render is st s).Clean held := by
  induction is with
  | nil => intro st s; exact clean_pure _ _
  | cons i is ih =>
    intro st s
    refine clean_seq (clean_use hi) fun _ => clean_seq (clean_lift _ _) fun (v, st') => ?_
    exact clean_seq (clean_glyph w hl hf hg _ _ _) fun (d, s') => clean_seq (ih _ _) fun _ => clean_pure _ _

theorem clean_label {held : List Handle} {p : List Byte} (hi : .iconv b!"UTF-8" ∈ held) (hp : .file p ∈ held)
    (gs : List GlyphData) : (labelBlock p gs).Clean held := by
  induction gs with
  | nil => exact clean_pure _ _
  | cons g gs ih => exact clean_seq (clean_use hi) fun _ => clean_seq (clean_use hp) fun _ => ih

theorem clean_header {σ} (w : World σ) (dir name : List Byte) (c : Config) (height : Int) (table : List GlyphData) :
    (headerBlock w dir name c height table).Clean [.face, .library] := by
  unfold headerBlock
  dsimp only
  split
  · exact clean_throw _
  · refine clean_owning ?_ (by simp) (fun p h => by cases h) (fun g _ => parent_ne_leaf (by simp)) (parent_ne_leaf (by simp))
    split
    · exact clean_seq (clean_lift _ _) fun f => clean_seq (clean_write List.mem_cons_self) fun _ => clean_throw _
    · refine clean_seq (clean_lift _ _) fun f => clean_seq (clean_use List.mem_cons_self) fun _ => ?_
      refine clean_seq ?_ fun _ => clean_write List.mem_cons_self
      exact clean_owning (clean_label (by simp) (by simp) _) (by simp) (fun p h => by cases h)
        (fun g _ => parent_ne_leaf (by simp)) (parent_ne_leaf (by simp))

theorem clean_try {σ} (w : World σ) (got : Nat → Bool) (c : Config) : (tryBlock w got c).Clean [] := by
  unfold tryBlock
  split
  · exact clean_throw _
  refine clean_seq (clean_lift _ _) fun width => ?_
  split
  · exact clean_ftThrow _ _
  refine clean_owning ?_ (by simp) (fun p h => by cases h) (by simp) (by simp [Handle.parent])
  refine clean_seq (clean_use List.mem_cons_self) fun _ => ?_
  split
  · exact clean_ftThrow _ _
  refine clean_owning ?_ (by simp) (fun p h => by cases h; simp) (fun g _ => parent_ne_leaf (by simp))
    (parent_ne_leaf (by simp))
  refine clean_seq (clean_use List.mem_cons_self) fun _ => ?_
  split
  · exact clean_ftThrow _ _
  refine clean_seq ?_ fun table => ?_
  · split
    · exact clean_throw _
    · exact clean_owning (clean_loop w (by simp) (by simp) (by simp) (by simp) _ _ _ _ _ _) (by simp)
        (fun p h => by cases h) (fun g _ => parent_ne_leaf (by simp)) (parent_ne_leaf (by simp))
  · split
    · exact clean_seq (clean_file w (by simp) _ _) fun _ => clean_file w (by simp) _ _
    · exact clean_seq (clean_use (by simp)) fun _ => clean_seq (clean_lift _ _) fun _ => clean_header _ _ _ _ _ _

/-! ## C95 -/

/-- **C95**: whatever the outside world answers and however the program ends, all its calls are allowed and it has given
back everything. -/
theorem handles_tidy {σ : Type} (w : World σ) (got : Nat → Bool) (args : List (List Byte)) (e : Exit) (t : List Act)
    (h : mainActs w got args = .ok (e, t)) : Tidy [] t [] := by
  unfold mainActs at h
  generalize Config.parse args = r at h
  cases r with
  | ub => cases h
  | hang => cases h
  | ok oc =>
    cases oc with
    | none => cases h; exact .done _
    | some c =>
      simp only [Res.bind_ok] at h
      split at h
      · cases h; exact .done _
      have hc := clean_try w got c
      generalize tryBlock w got c = b at h hc
      cases b with
      | ub => cases h
      | hang => cases h
      | ok r =>
        obtain ⟨e', t'⟩ := r
        cases e' <;> cases h <;> exact hc _ _ rfl

/-- Every handle is obtained and given back equally often. -/
theorem Tidy.balanced {held rest : List Handle} {t : List Act} (ht : Tidy held t rest) (h : Handle) :
    t.count (.acquire h) + held.count h = t.count (.release h) + rest.count h := by
  induction ht with
  | done held => simp
  | @step held rest a t hal _ ih =>
    cases a with
    | acquire x =>
      simp only [after, List.count_cons] at ih ⊢
      by_cases hx : x = h
      · subst hx; simp at ih ⊢; omega
      · simp [hx] at ih ⊢; omega
    | release x =>
      have hm : x ∈ held := hal.1
      simp only [after] at ih
      by_cases hx : x = h
      · subst hx
        have := List.count_pos_iff.2 hm
        rw [List.count_erase_self] at ih
        simp at ih ⊢
        omega
      · rw [List.count_erase_of_ne (by simpa using fun e => hx e.symm)] at ih
        simp [hx] at ih ⊢
        omega
    | use x => simpa [List.count_cons, after] using ih
    | write p f => simpa [List.count_cons, after] using ih

/-- **C95**: every handle is given back as often as it was obtained. -/
theorem handles_balanced {σ : Type} (w : World σ) (got : Nat → Bool) (args : List (List Byte)) (e : Exit) (t : List Act)
    (h : mainActs w got args = .ok (e, t)) (x : Handle) : t.count (.acquire x) = t.count (.release x) := by
  simpa using (handles_tidy w got args e t h).balanced x

/-! ## The calls belong to the program of MainModel.lean -/

/-- The result of a block and the files it leaves. -/
def Block.result {σ α} (w : World σ) (b : Block α) : Res (End α × Files) := b.bind fun (e, t) => .ok (e, files w t)

theorem files_append {σ} (w : World σ) (s t : List Act) : files w (s ++ t) = files w s ++ files w t := by
  induction s with
  | nil => rfl
  | cons a s ih => cases a <;> simp [files, ih]

theorem result_owning {σ α} (w : World σ) (h : Handle) (b : Block α) : (Block.owning h b).result w = b.result w := by
  cases b with
  | ub => rfl
  | hang => rfl
  | ok r =>
    obtain ⟨e, t⟩ := r
    simp only [Block.owning, Block.result, Res.bind, List.cons_append, files, files_append, List.append_nil]

/-- What follows a block whose result is known. -/
def thenResult {α β} (r : Res (End α × Files)) (f : α → Res (End β × Files)) : Res (End β × Files) :=
  r.bind fun
    | (.thrown, fs) => .ok (.thrown, fs)
    | (.value a, fs) => (f a).bind fun (e, fs') => .ok (e, fs ++ fs')

theorem result_seq {σ α β} (w : World σ) (x : Block α) (f : α → Block β) :
    (Block.seq x f).result w = thenResult (x.result w) fun a => (f a).result w := by
  cases x with
  | ub => rfl
  | hang => rfl
  | ok r =>
    obtain ⟨e, t⟩ := r
    cases e with
    | thrown => rfl
    | value a =>
      simp only [Block.seq, Block.result, Res.bind, thenResult]
      generalize f a = y
      cases y with
      | ub => rfl
      | hang => rfl
      | ok r2 => simp [files_append]

theorem result_pure {σ α} (w : World σ) (a : α) : (Block.pure a).result w = .ok (.value a, []) := rfl
theorem result_throw {σ α} (w : World σ) : (Block.throw : Block α).result w = .ok (.thrown, []) := rfl
theorem result_use {σ} (w : World σ) (h : Handle) : (Block.act (.use h)).result w = .ok (.value (), []) := rfl
theorem result_write {σ} (w : World σ) (p f : List Byte) :
    (Block.act (.write p f)).result w = .ok (.value (), [(p, w.kept p f)]) := rfl
theorem result_lift {σ α} (w : World σ) (x : Res α) : (Block.lift x).result w = x.bind fun a => .ok (.value a, []) := by
  cases x <;> rfl
theorem result_ftThrow {σ α} (w : World σ) : (Block.ftThrow w : Block α).result w = ftError w (.thrown, []) := by
  unfold Block.ftThrow ftError
  split <;> rfl

theorem then_nil {α β} (a : α) (f : α → Res (End β × Files)) : thenResult (.ok (.value a, [])) f = f a := by
  simp only [thenResult, Res.bind]
  cases f a <;> rfl

theorem then_lift {α β} (x : Res α) (f : α → Res (End β × Files)) :
    thenResult (x.bind fun a => .ok (.value a, [])) f = x.bind f := by
  cases x with
  | ub => rfl
  | hang => rfl
  | ok a => exact then_nil a f

theorem then_thrown {α β} (fs : Files) (f : α → Res (End β × Files)) :
    thenResult (.ok (.thrown, fs)) f = .ok (.thrown, fs) := rfl

/-- A table, or an exception. -/
def End.ofOption {α} : Option α → End α
  | none => .thrown
  | some a => .value a

theorem result_loop {σ} (w : World σ) (got : Nat → Bool) (iconv : σ → List Byte → Answer × σ) (render : Nat → Glyph?)
    (is : List Nat) : ∀ (st : Enc × σ) (s : BitStream), (loopBlock w got iconv render is st s).result w =
      (convertLoop w iconv render is st s).bind fun o => .ok (End.ofOption o, []) := by
  induction is with
  | nil => intro st s; rfl
  | cons i is ih =>
    intro st s
    simp only [loopBlock, result_seq, result_use, then_nil, result_lift, then_lift, convertLoop]
    generalize Enc.convertRaw iconv st (BitVec.ofNat 8 i) = r
    cases r with
    | ub => rfl
    | hang => rfl
    | ok r =>
      obtain ⟨v, st'⟩ := r
      simp only [Res.bind_ok]
      change thenResult _ _ = _
      generalize render v = g
      cases g with
      | error =>
        simp only [glyphBlock, result_seq, result_use, then_nil, result_ftThrow, ftError]
        split <;> rfl
      | noBitmap =>
        simp only [glyphBlock, result_seq, result_use, then_nil]
        split
        · simp only [result_owning, result_seq, result_use, then_nil, result_throw, then_thrown]; rfl
        · simp only [result_throw, then_thrown]; rfl
      | bitmap r =>
        simp only [glyphBlock, result_seq, result_use, then_nil, result_owning, result_lift, then_lift, ih]
        generalize convertGlyph r s = x
        cases x with
        | ub => rfl
        | hang => rfl
        | ok x =>
          obtain ⟨d, s'⟩ := x
          simp only [Res.bind_ok]
          change thenResult _ _ = _
          generalize convertLoop w iconv render is st' s' = y
          cases y with
          | ub => rfl
          | hang => rfl
          | ok o => cases o <;> rfl

theorem result_label {σ} (w : World σ) (p : List Byte) (gs : List GlyphData) :
    (labelBlock p gs).result w = .ok (.value (), []) := by
  induction gs with
  | nil => rfl
  | cons g gs ih => simp only [labelBlock, result_seq, result_use, then_nil, ih]

/-- The exit status. -/
def End.exit {α} : End α → Exit
  | .value _ => .code 0
  | .thrown => .code 1

theorem result_header {σ} (w : World σ) (dir name : List Byte) (c : Config) (height : Int) (table : List GlyphData) :
    ((headerBlock w dir name c height table).result w).bind (fun (e, fs) => .ok (e.exit, fs)) =
      writeHeader w dir name c height table := by
  unfold headerBlock writeHeader
  dsimp only
  split
  · rfl
  rw [result_owning]
  split
  · simp only [result_seq, result_lift, then_lift, result_write, result_throw]
    generalize headerBitmaps w.junk name table = r
    cases r <;> rfl
  · simp only [result_seq, result_lift, then_lift, result_write, result_owning, result_label, then_nil, result_use]
    generalize writeHeaderFile w.junk (w.label c.encoding) name c.encoding table c.firstChar c.lastChar height = r
    cases r <;> rfl

theorem result_binary {σ} (w : World σ) (dir name : List Byte) (table : List GlyphData) :
    ((binaryBlock w dir name table).result w).bind (fun (e, fs) => .ok (e.exit, fs)) =
      .ok (writeBinary w dir name table) := by
  unfold binaryBlock writeBinary fileBlock
  simp only [result_seq]
  split
  · rfl
  · simp only [result_owning, result_write]
    split
    · rfl
    · simp only [result_owning, result_write]; rfl

/-- **C95**: the calls are those of the program: without them, what is left is `main`. -/
theorem mainActs_main {σ : Type} (w : World σ) (got : Nat → Bool) (args : List (List Byte)) :
    (mainActs w got args).bind (fun (e, t) => .ok (e, files w t)) = main w args := by
  unfold mainActs main
  generalize Config.parse args = r
  cases r with
  | ub => rfl
  | hang => rfl
  | ok oc =>
    cases oc with
    | none => rfl
    | some c =>
      simp only [Res.bind_ok]
      split
      · rfl
      have key : ∀ b : Block Unit,
          (Res.bind (b >>= fun x => match x with
            | (End.value _, t) => Res.ok (Exit.code 0, t)
            | (End.thrown, t) => Res.ok (Exit.code 1, t)) fun (e, t) => .ok (e, files w t)) =
          (b.result w).bind fun (e, fs) => .ok (e.exit, fs) := by
        intro b
        cases b with
        | ub => rfl
        | hang => rfl
        | ok r => obtain ⟨e, t⟩ := r; cases e <;> rfl
      rw [key]
      unfold tryBlock
      split
      · rfl
      simp only [result_seq, result_lift, then_lift]
      generalize charWidth c.fontSize = r
      cases r with
      | ub => rfl
      | hang => rfl
      | ok width =>
        simp only [Res.bind_ok]
        change Res.bind (Block.result w _) _ = _
        split
        · rw [result_ftThrow]; unfold ftError; split <;> rfl
        simp only [result_owning, result_seq, result_use, then_nil]
        split
        · rw [result_ftThrow]; unfold ftError; split <;> rfl
        simp only [result_owning, result_seq, result_use, then_nil]
        split
        · rw [result_ftThrow]; unfold ftError; split <;> rfl
        simp only [result_seq]
        split
        · rfl
        simp only [result_owning, result_loop]
        generalize convertLoop w (w.iconv c.encoding) (w.render c.fontFileName width c.dpi) (codes c.firstChar c.lastChar)
          (Enc.new, w.iconvState) BitStream.new = r
        cases r with
        | ub => rfl
        | hang => rfl
        | ok o =>
          cases o with
          | none => rfl
          | some table =>
            simp only [Res.bind_ok]
            change Res.bind (thenResult (.ok (.value table, [])) _) _ = _
            rw [then_nil]
            cases c.format with
            | binary => exact result_binary _ _ _ _
            | header =>
              simp only [result_seq, result_use, then_nil, result_lift, then_lift]
              generalize headerHeight (w.metricHeight c.fontFileName width c.dpi) = r
              cases r with
              | ub => rfl
              | hang => rfl
              | ok height => exact result_header _ _ _ _ _ _

/-- A glyph which is no bitmap: everything obtained so far is given back, the last thing first. -/
example : mainActs { sample with render := fun _ _ _ _ => .noBitmap } (fun _ => true)
    [b!"-ffonts/Blob.ttf", b!"-bs18", b!"-o", b!"out"] = .ok (.code 1,
      [.acquire .library, .use .library, .acquire .face, .use .face, .acquire (.iconv b!"UCS-4LE"),
        .use (.iconv b!"UCS-4LE"), .use .face, .acquire .glyph, .use .glyph, .release .glyph,
        .release (.iconv b!"UCS-4LE"), .release .face, .release .library]) := by decide +kernel

/-- A font which is written: the calls after the last glyph. -/
example : ((mainActs sample (fun _ => true) [b!"-ffonts/Blob.ttf", b!"-bs18", b!"-o", b!"out"]).bind fun (e, t) =>
      .ok (e, t.length, (t.drop 479).map fun a => match a with
        | .write p _ => Act.use (.file p)
        | a => a)) = .ok (.code 0, 489, [.release .glyph, .release (.iconv b!"UCS-4LE"),
          .acquire (.file b!"out/Blob18pt7bBitmaps.bin"), .use (.file b!"out/Blob18pt7bBitmaps.bin"),
          .release (.file b!"out/Blob18pt7bBitmaps.bin"), .acquire (.file b!"out/Blob18pt7bGlyphs.bin"),
          .use (.file b!"out/Blob18pt7bGlyphs.bin"), .release (.file b!"out/Blob18pt7bGlyphs.bin"), .release .face,
          .release .library]) := by decide +kernel

/-- Giving back the library before the face, or using a face given back, is no tidy sequence of calls. -/
example : ¬ Tidy [] [.acquire .library, .acquire .face, .release .library, .release .face] [] := by
  rintro (_ | ⟨-, _ | ⟨-, _ | ⟨⟨-, h⟩, -⟩⟩⟩)
  exact h .face (by simp [after]) rfl

end Verif.Converter.Main
