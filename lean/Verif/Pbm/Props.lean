import Verif.Pbm.Model
import Verif.Converter.ConfigProps

/-!
# C79: the image files of the tests

Specification: the pixels of an ASCII image are the characters `0` and `1` of those lines which are not
comments, in order; an image is packed eight pixels to a byte, the first pixel in the highest bit.
-/

namespace Verif.Pbm

open Verif.Converter Verif.Converter.Config Verif.Out
open Verif.FrameBuffer (chk InInt)

/-! ### Specification -/

/-- Pixel `i` of a packed image. -/
def pixel? (img : List Byte) (i : Nat) : Option Bool := img[i / 8]?.map (·.getLsbD (7 - i % 8))

/-- The pixels among some characters. -/
def digits (l : List Byte) : List Bool :=
  l.filterMap fun c => if c = 0x30 then some false else if c = 0x31 then some true else none

/-- The pixels of the lines of an ASCII image. -/
def pixels (ls : List (List Byte)) : List Bool :=
  (ls.filter fun l => l.head? ≠ some 0x23).flatMap digits

/-- `img` holds the pixels `px`, followed by zeros, in `n` bytes. -/
def Holds (n : Nat) (px : List Bool) (img : List Byte) : Prop :=
  img.length = n ∧ ∀ i < 8 * n, pixel? img i = some (px[i]? == some true)

/-- A line starts with a pixel although the lines before have all pixels of the image. -/
def Surplus (n : Nat) (ls : List (List Byte)) : Prop :=
  ∃ a l b, ls = a ++ l :: b ∧ 8 * n ≤ (pixels a).length ∧ (l.head? = some 0x30 ∨ l.head? = some 0x31)

/-! ### Images are determined by their pixels -/

theorem byte_ext : ∀ a b : Byte, (∀ j : Fin 8, a.getLsbD (7 - j) = b.getLsbD (7 - j)) → a = b := by
  intro a b h
  apply BitVec.eq_of_getLsbD_eq
  intro i hi
  have := h ⟨7 - i, by omega⟩
  simpa [show 7 - (7 - i) = i by omega] using this

theorem holds_unique {n : Nat} {px : List Bool} {a b : List Byte} (ha : Holds n px a) (hb : Holds n px b) : a = b := by
  apply List.ext_getElem (by rw [ha.1, hb.1])
  intro k hk hk'
  apply byte_ext
  intro j
  have hn : k < n := by rw [← ha.1]; exact hk
  have e1 := ha.2 (8 * k + j) (by omega)
  have e2 := hb.2 (8 * k + j) (by omega)
  simp only [pixel?, show (8 * k + j.val) / 8 = k by omega, show (8 * k + j.val) % 8 = j.val by omega,
    List.getElem?_eq_getElem hk, List.getElem?_eq_getElem hk', Option.map_some, Option.some.injEq] at e1 e2
  rw [e1, e2]

theorem holds_zero (n : Nat) : Holds n [] (List.replicate n 0) := by
  refine ⟨by simp, fun i hi => ?_⟩
  simp [pixel?, show i / 8 < n by omega]

/-! ### Reading ASCII images -/

theorem or_bit : ∀ b : Byte, ∀ r j : Fin 8,
    (b ||| ((0x31 - 0x30 : Byte) <<< (7 - r.val))).getLsbD (7 - j.val) = (b.getLsbD (7 - j.val) || j == r) := by
  decide +kernel

theorem or_none : ∀ b : Byte, ∀ r : Fin 8, b ||| ((0x30 - 0x30 : Byte) <<< (7 - r.val)) = b := by
  decide +kernel

theorem holds_step {n : Nat} {px : List Bool} {img : List Byte} (h : Holds n px img) (hl : px.length < 8 * n) (c : Byte)
    (v : Bool) (hc : c = if v then 0x31 else 0x30) :
    ∃ b, img[px.length / 8]? = some b ∧
      Holds n (px ++ [v]) (img.set (px.length / 8) (b ||| ((c - 0x30) <<< (7 - px.length % 8)))) := by
  have hlt : px.length / 8 < img.length := by rw [h.1]; omega
  refine ⟨img[px.length / 8], List.getElem?_eq_getElem hlt, by simp [h.1], fun i hi => ?_⟩
  have hp := h.2 i hi
  by_cases hk : i / 8 = px.length / 8
  · rw [pixel?, hk, List.getElem?_set_self hlt]
    rw [pixel?, hk, List.getElem?_eq_getElem hlt] at hp
    simp only [Option.map_some, Option.some.injEq] at hp ⊢
    cases v with
    | false =>
      simp only [Bool.false_eq_true, if_false] at hc
      have := or_none img[px.length / 8] ⟨px.length % 8, by omega⟩
      simp only at this
      rw [hc, this, hp]
      by_cases hi' : i < px.length
      · rw [List.getElem?_append_left hi']
      · rw [List.getElem?_eq_none (by omega : px.length ≤ i)]
        rcases Nat.lt_or_ge i (px.length + 1) with h1 | h1
        · rw [show i = px.length by omega]; simp
        · rw [List.getElem?_eq_none (by simp; omega)]
    | true =>
      simp only [if_true] at hc
      have := or_bit img[px.length / 8] ⟨px.length % 8, by omega⟩ ⟨i % 8, by omega⟩
      simp only at this
      rw [hc, this, hp]
      by_cases hi' : i < px.length
      · rw [List.getElem?_append_left hi']
        have : ((⟨i % 8, by omega⟩ : Fin 8) == ⟨px.length % 8, by omega⟩) = false := by
          rw [beq_eq_false_iff_ne, ne_eq, Fin.mk.injEq]; omega
        rw [this, Bool.or_false]
      · rw [List.getElem?_eq_none (by omega : px.length ≤ i)]
        rcases Nat.lt_or_ge i (px.length + 1) with h1 | h1
        · have : i = px.length := by omega
          subst this
          simp
        · rw [List.getElem?_eq_none (by simp; omega)]
          have : ((⟨i % 8, by omega⟩ : Fin 8) == ⟨px.length % 8, by omega⟩) = false := by
            rw [beq_eq_false_iff_ne, ne_eq, Fin.mk.injEq]; omega
          rw [this]; rfl
  · rw [pixel?, List.getElem?_set_ne (Ne.symm hk)]
    rw [pixel?] at hp
    rw [hp]
    by_cases hi' : i < px.length
    · rw [List.getElem?_append_left hi']
    · have : i ≠ px.length := fun he => hk (by rw [he])
      rw [List.getElem?_eq_none (by omega : px.length ≤ i), List.getElem?_eq_none (by simp; omega)]

theorem holds_append {n : Nat} {px : List Bool} {img : List Byte} (h : Holds n px img) (hl : 8 * n ≤ px.length)
    (more : List Bool) : Holds n (px ++ more) img := by
  refine ⟨h.1, fun i hi => ?_⟩
  rw [h.2 i hi, List.getElem?_append_left (by omega)]

theorem asciiLine_room (n : Nat) (l : List Byte) (px : List Bool) (img : List Byte) (h : Holds n px img)
    (hl : px.length < 8 * n) :
    ∃ img', asciiLine n l (img, px.length) = .ok (img', min (px ++ digits l).length (8 * n)) ∧
      Holds n (px ++ digits l) img' := by
  induction l generalizing px img with
  | nil => exact ⟨img, by simp [asciiLine, digits]; omega, by simpa [digits] using h⟩
  | cons c cs ih =>
    by_cases hc : c = 0x30 ∨ c = 0x31
    · obtain ⟨v, hv, hd⟩ : ∃ v : Bool, (c = if v then 0x31 else 0x30) ∧ digits (c :: cs) = v :: digits cs := by
        rcases hc with rfl | rfl
        · exact ⟨false, by simp, by simp [digits]⟩
        · exact ⟨true, by simp, by simp [digits]⟩
      obtain ⟨b, hb, hh⟩ := holds_step h hl c v hv
      simp only [asciiLine, if_pos hc, hb, Res.ofOption_some, Res.bind_ok]
      rw [hd, show px ++ v :: digits cs = (px ++ [v]) ++ digits cs by simp]
      by_cases hfull : px.length + 1 ≥ n * 8
      · rw [if_pos hfull]
        refine ⟨_, ?_, holds_append hh (by simp; omega) _⟩
        simp; omega
      · rw [if_neg hfull]
        have := ih (px ++ [v]) _ hh (by simp; omega)
        simpa using this
    · have hd : digits (c :: cs) = digits cs := by
        have h1 : ¬c = 0x30 := fun e => hc (.inl e)
        have h2 : ¬c = 0x31 := fun e => hc (.inr e)
        simp only [digits, List.filterMap_cons, h1, h2, if_false]
      simp only [asciiLine, if_neg hc, Res.bind_ok, hd]
      rw [if_neg (by omega)]
      exact ih px img h hl

theorem asciiLine_full_ub (n : Nat) (l : List Byte) (img : List Byte) (di : Nat) (hi : img.length = n) (hl : 8 * n ≤ di)
    (hd : l.head? = some 0x30 ∨ l.head? = some 0x31) : asciiLine n l (img, di) = .ub := by
  cases l with
  | nil => simp at hd
  | cons c cs =>
    have : c = 0x30 ∨ c = 0x31 := by simpa using hd
    simp only [asciiLine, if_pos this, List.getElem?_eq_none (show img.length ≤ di / 8 by omega), Res.ofOption_none,
      Res.bind_ub]

theorem asciiLine_full (n : Nat) (l : List Byte) (img : List Byte) (di : Nat) (hl : 8 * n ≤ di)
    (hd : ¬(l.head? = some 0x30 ∨ l.head? = some 0x31)) : asciiLine n l (img, di) = .ok (img, di) := by
  cases l with
  | nil => rfl
  | cons c cs =>
    have : ¬(c = 0x30 ∨ c = 0x31) := by simpa using hd
    simp only [asciiLine, if_neg this, Res.bind_ok]
    rw [if_pos (by omega)]

theorem pixels_cons (l : List Byte) (a : List (List Byte)) (h : l.head? ≠ some 0x23) :
    pixels (l :: a) = digits l ++ pixels a := by
  unfold pixels
  rw [List.filter_cons_of_pos (by simpa using h), List.flatMap_cons]

theorem asciiLines_aux (n : Nat) (ls : List (List Byte)) (px : List Bool) (img : List Byte) (h : Holds n px img) :
    ((∃ a l b, ls = a ++ l :: b ∧ 8 * n ≤ px.length + (pixels a).length ∧
        (l.head? = some 0x30 ∨ l.head? = some 0x31)) →
      asciiLines n ls (img, min px.length (8 * n)) = .ub) ∧
    ((¬∃ a l b, ls = a ++ l :: b ∧ 8 * n ≤ px.length + (pixels a).length ∧
        (l.head? = some 0x30 ∨ l.head? = some 0x31)) →
      ∃ img', asciiLines n ls (img, min px.length (8 * n)) = .ok (img', min (px ++ pixels ls).length (8 * n)) ∧
        Holds n (px ++ pixels ls) img') := by
  induction ls generalizing px img with
  | nil =>
    refine ⟨fun ⟨a, l, b, e, _⟩ => by simp at e, fun _ => ⟨img, by simp [asciiLines, pixels], by simpa [pixels] using h⟩⟩
  | cons l ls ih =>
    -- what the remaining lines need
    have shift : ∀ px' : List Bool, px'.length = px.length + (pixels [l]).length →
        ((∃ a l' b, l :: ls = a ++ l' :: b ∧ 8 * n ≤ px.length + (pixels a).length ∧
          (l'.head? = some 0x30 ∨ l'.head? = some 0x31)) ↔
        (8 * n ≤ px.length ∧ (l.head? = some 0x30 ∨ l.head? = some 0x31)) ∨
        (∃ a l' b, ls = a ++ l' :: b ∧ 8 * n ≤ px'.length + (pixels a).length ∧
          (l'.head? = some 0x30 ∨ l'.head? = some 0x31))) := by
      intro px' hpx
      have hcons : ∀ a, (pixels (l :: a)).length = (pixels [l]).length + (pixels a).length := by
        intro a
        simp only [pixels, List.filter_cons]
        split <;> simp
      constructor
      · rintro ⟨a, l', b, e, h1, h2⟩
        cases a with
        | nil =>
          simp only [List.nil_append, List.cons.injEq] at e
          obtain ⟨rfl, rfl⟩ := e
          exact .inl ⟨by simpa [pixels] using h1, h2⟩
        | cons x a =>
          simp only [List.cons_append, List.cons.injEq] at e
          obtain ⟨rfl, rfl⟩ := e
          exact .inr ⟨a, l', b, rfl, by rw [hcons] at h1; omega, h2⟩
      · rintro (⟨h1, h2⟩ | ⟨a, l', b, rfl, h1, h2⟩)
        · exact ⟨[], l, ls, rfl, by simpa [pixels] using h1, h2⟩
        · exact ⟨l :: a, l', b, rfl, by rw [hcons]; omega, h2⟩
    by_cases hskip : l = [] ∨ l.head? = some 0x23
    · have hp : ∀ a, pixels (l :: a) = pixels a := by
        intro a
        rcases hskip with rfl | hh
        · simp [pixels, digits]
        · simp [pixels, hh]
      have hnd : ¬(l.head? = some 0x30 ∨ l.head? = some 0x31) := by
        rcases hskip with rfl | hh
        · simp
        · rw [hh]; simp
      have hs := shift px (by rw [hp]; simp [pixels])
      simp only [asciiLines, if_pos hskip, hp]
      rw [hs]
      simp only [hnd, and_false, false_or]
      exact ih px img h
    · have hp : ∀ a, pixels (l :: a) = digits l ++ pixels a := by
        intro a
        have : l.head? ≠ some 0x23 := fun e => hskip (.inr e)
        exact pixels_cons l a this
      have hs := shift (px ++ digits l) (by rw [hp]; simp [pixels])
      simp only [asciiLines, if_neg hskip, hp]
      rw [hs]
      by_cases hfull : 8 * n ≤ px.length
      · by_cases hd : l.head? = some 0x30 ∨ l.head? = some 0x31
        · refine ⟨fun _ => ?_, fun hh => absurd (.inl ⟨hfull, hd⟩) hh⟩
          rw [asciiLine_full_ub n l img _ h.1 (by omega) hd, Res.bind_ub]
        · simp only [hd, and_false, false_or]
          rw [asciiLine_full n l img _ (by omega) hd, Res.bind_ok]
          have := ih (px ++ digits l) img (holds_append h hfull _)
          rw [show min (px ++ digits l).length (8 * n) = min px.length (8 * n) by simp; omega] at this
          simpa only [List.append_assoc] using this
      · have hlt : px.length < 8 * n := by omega
        obtain ⟨img', h1, h2⟩ := asciiLine_room n l px img h hlt
        rw [show min px.length (8 * n) = px.length by omega, h1, Res.bind_ok]
        have := ih (px ++ digits l) img' h2
        simp only [show ¬(8 * n ≤ px.length) from hfull, false_and, false_or]
        simpa only [List.append_assoc] using this

/-- **C79**: the lines of an ASCII image.  If no line starts with a pixel after the image is complete, the result is the
image with the pixels of the file (the first `8 * n` of them, zeros where there are fewer). -/
theorem asciiLines_ok (n : Nat) (ls : List (List Byte)) (h : ¬Surplus n ls) :
    ∃ img di, asciiLines n ls (List.replicate n 0, 0) = .ok (img, di) ∧ Holds n (pixels ls) img := by
  have := (asciiLines_aux n ls [] _ (holds_zero n)).2 (by simpa [Surplus] using h)
  obtain ⟨img, h1, h2⟩ := this
  exact ⟨img, _, by simpa using h1, by simpa using h2⟩

/-- **C79**: otherwise it writes behind the image. -/
theorem asciiLines_ub (n : Nat) (ls : List (List Byte)) (h : Surplus n ls) :
    asciiLines n ls (List.replicate n 0, 0) = .ub := by
  have := (asciiLines_aux n ls [] _ (holds_zero n)).1 (by simpa [Surplus] using h)
  simpa using this

/-! ### The header -/

theorem digitEnd {c : Byte} (h : isSpaceC c = true) : isDigitC c = false := by
  cases hd : isDigitC c with
  | false => rfl
  | true => rw [(digit_facts c hd).1] at h; cases h

theorem extractInt_intDec (v : Int) (hv : InInt v) (ws rest : List Byte) (hws : ∀ c ∈ ws, isSpaceC c = true)
    (hr : ∀ c, rest.head? = some c → isSpaceC c = true) : extractInt (ws ++ intDec v ++ rest) = some (v, rest) := by
  have hp := intDec_parse v
  have hrd : ∀ c, rest.head? = some c → isDigitC c = false := fun c hc => digitEnd (hr c hc)
  have hdig : ∀ c ∈ natDec v.natAbs, isDigitC c = true := fun c hc => natDecF_isDigit _ _ c hc
  have hne : natDec v.natAbs ≠ [] := by
    obtain ⟨d, ds, h1, -⟩ := natDecF_head (v.natAbs + 1) v.natAbs (by omega)
    unfold natDec; rw [h1]; simp
  have hval : digitsValue (natDec v.natAbs) = v.natAbs := by
    have h1 := digitsValue_parse _ hdig 0
    have h2 := natDecF_parse (v.natAbs + 1) v.natAbs (by omega)
    unfold natDec at h1
    rw [h2] at h1
    exact (Option.some.inj h1).symm
  obtain ⟨c0, cs0, hc0⟩ : ∃ c cs, natDec v.natAbs = c :: cs := List.exists_cons_of_ne_nil hne
  have hf := digit_facts c0 (hdig c0 (by rw [hc0]; simp))
  have hdrop : (ws ++ intDec v ++ rest).dropWhile isSpaceC = intDec v ++ rest := by
    rw [List.append_assoc]
    apply dropWhile_stop _ _ hws
    intro c hc
    unfold intDec at hc
    split at hc
    · simp only [List.cons_append, List.head?_cons, Option.some.injEq] at hc
      rw [← hc]; decide
    · rw [hc0, List.cons_append, List.head?_cons, Option.some.injEq] at hc
      rw [← hc]; exact hf.1
  have hsplit : splitSign (intDec v ++ rest) = (decide (v < 0), natDec v.natAbs ++ rest) := by
    unfold intDec
    split
    · rename_i hneg
      simp [splitSign, hneg]
    · rename_i hneg
      rw [hc0, List.cons_append, splitSign, if_neg hf.2.1, if_neg hf.2.2]
      simp [hneg]
  unfold extractInt
  simp only [hdrop, hsplit, takeWhile_stop _ _ hdig hrd, dropWhile_stop _ _ hdig hrd, hne, if_false, hval]
  have e : (if decide (v < 0) = true then -(v.natAbs : Int) else (v.natAbs : Int)) = v := by
    by_cases hneg : v < 0
    · simp only [hneg, decide_true, if_true]; omega
    · simp only [hneg, decide_false, Bool.false_eq_true, if_false]; omega
  rw [e, if_pos hv]

/-- The text of a header; `binary` selects the magic number. -/
def headerText (binary : Bool) (w h : Int) : List Byte :=
  (if binary then b!"P4" else b!"P1") ++ b!"\n" ++ intDec w ++ b!" " ++ intDec h ++ b!"\n"

/-- **C79**: headers are read back, whatever white space separates their parts. -/
theorem header_general (binary : Bool) (w h : Int) (hw : InInt w) (hh : InInt h) (ws0 ws1 ws2 body : List Byte)
    (h0 : ∀ c ∈ ws0, isSpaceC c = true) (h1 : ∀ c ∈ ws1, isSpaceC c = true) (h2 : ∀ c ∈ ws2, isSpaceC c = true)
    (n1 : ws1 ≠ []) (n2 : ws2 ≠ []) :
    header (ws0 ++ (if binary then b!"P4" else b!"P1") ++ ws1 ++ intDec w ++ ws2 ++ intDec h ++ b!"\n" ++ body) =
      some (binary, w, h, body) := by
  have head_ws : ∀ (ws r : List Byte), ws ≠ [] → (∀ c ∈ ws, isSpaceC c = true) →
      ∀ c, (ws ++ r).head? = some c → isSpaceC c = true := by
    intro ws r hn hs c hc
    cases ws with
    | nil => exact absurd rfl hn
    | cons x xs =>
      simp only [List.cons_append, List.head?_cons, Option.some.injEq] at hc
      exact hs c (by simp [hc])
  have hm : ∀ c ∈ (if binary then b!"P4" else b!"P1"), (!isSpaceC c) = true := by
    cases binary <;> decide
  have e : ws0 ++ (if binary then b!"P4" else b!"P1") ++ ws1 ++ intDec w ++ ws2 ++ intDec h ++ b!"\n" ++ body =
      ws0 ++ ((if binary then b!"P4" else b!"P1") ++ (ws1 ++ intDec w ++ (ws2 ++ intDec h ++ (b!"\n" ++ body)))) := by
    simp only [List.append_assoc]
  have hd0 := dropWhile_stop (p := isSpaceC) ws0
    ((if binary then b!"P4" else b!"P1") ++ (ws1 ++ intDec w ++ (ws2 ++ intDec h ++ (b!"\n" ++ body)))) h0 (by
      intro c hc
      cases binary <;> simp at hc <;> rw [← hc] <;> decide)
  have stop : ∀ c, (ws1 ++ intDec w ++ (ws2 ++ intDec h ++ (b!"\n" ++ body))).head? = some c → (!isSpaceC c) = false := by
    intro c hc
    rw [List.append_assoc] at hc
    rw [head_ws ws1 _ n1 h1 c hc]; rfl
  have ht := takeWhile_stop (p := (!isSpaceC ·)) _ _ hm stop
  have hdr := dropWhile_stop (p := (!isSpaceC ·)) _ _ hm stop
  rw [e]
  unfold header
  simp only [hd0, ht, hdr]
  rw [extractInt_intDec w hw ws1 _ h1 (by
    intro c hc
    rw [List.append_assoc] at hc
    exact head_ws ws2 _ n2 h2 c hc)]
  simp only
  rw [extractInt_intDec h hh ws2 _ h2 (by
    intro c hc
    simp only [List.cons_append, List.head?_cons, Option.some.injEq] at hc
    rw [← hc]; decide)]
  cases binary <;> simp

/-- A number in a text: white space, an optional sign and digits. -/
def Numeral (v : Int) (t : List Byte) : Prop :=
  ∃ ws sign ds, t = ws ++ sign ++ ds ∧ (∀ c ∈ ws, isSpaceC c = true) ∧ (∀ c ∈ ds, isDigitC c = true) ∧ ds ≠ [] ∧ InInt v ∧
    (sign = [0x2D] ∧ v = -(digitsValue ds : Int) ∨ (sign = [] ∨ sign = [0x2B]) ∧ v = digitsValue ds)

theorem extractInt_sound {s r : List Byte} {v : Int} (h : extractInt s = some (v, r)) :
    ∃ t, s = t ++ r ∧ Numeral v t ∧ ∀ c, r.head? = some c → isDigitC c = false := by
  unfold extractInt at h
  dsimp only at h
  have hsplit := List.takeWhile_append_dropWhile (p := isSpaceC) (l := s)
  generalize s.dropWhile isSpaceC = u at *
  have hws : ∀ c ∈ s.takeWhile isSpaceC, isSpaceC c = true := fun c hc => List.all_eq_true.1 List.all_takeWhile c hc
  generalize s.takeWhile isSpaceC = ws at *
  obtain ⟨sign, hu, hsign⟩ : ∃ sign, u = sign ++ (splitSign u).2 ∧
      (sign = [0x2D] ∧ (splitSign u).1 = true ∨ (sign = [] ∨ sign = [0x2B]) ∧ (splitSign u).1 = false) := by
    cases u with
    | nil => exact ⟨[], rfl, .inr ⟨.inl rfl, rfl⟩⟩
    | cons c r =>
      simp only [splitSign]
      by_cases h1 : c = 0x2D
      · rw [if_pos h1]; exact ⟨[0x2D], by rw [h1]; rfl, .inl ⟨rfl, rfl⟩⟩
      · rw [if_neg h1]
        by_cases h2 : c = 0x2B
        · rw [if_pos h2]; exact ⟨[0x2B], by rw [h2]; rfl, .inr ⟨.inr rfl, rfl⟩⟩
        · rw [if_neg h2]; exact ⟨[], rfl, .inr ⟨.inl rfl, rfl⟩⟩
  generalize splitSign u = q at *
  obtain ⟨neg, x⟩ := q
  simp only at h hu hsign
  have hx := List.takeWhile_append_dropWhile (p := isDigitC) (l := x)
  have hds : ∀ c ∈ x.takeWhile isDigitC, isDigitC c = true := fun c hc => List.all_eq_true.1 List.all_takeWhile c hc
  have hdr : ∀ c, (x.dropWhile isDigitC).head? = some c → isDigitC c = false := by
    intro c hc
    cases hd : x.dropWhile isDigitC with
    | nil => rw [hd] at hc; simp at hc
    | cons y ys =>
      have := List.head_dropWhile_not (p := isDigitC) (l := x) (by rw [hd]; simp)
      rw [hd] at hc
      simp only [hd, List.head_cons] at this
      simp only [List.head?_cons, Option.some.injEq] at hc
      rw [← hc]; exact this
  generalize x.takeWhile isDigitC = ds at *
  generalize x.dropWhile isDigitC = r' at *
  by_cases hne : ds = []
  · rw [if_pos hne] at h; cases h
  · rw [if_neg hne] at h
    generalize hv : (if neg = true then -(digitsValue ds : Int) else digitsValue ds) = v' at h
    by_cases hin : -2147483648 ≤ v' ∧ v' ≤ 2147483647
    · rw [if_pos hin] at h
      simp only [Option.some.injEq, Prod.mk.injEq] at h
      obtain ⟨rfl, rfl⟩ := h
      refine ⟨ws ++ sign ++ ds, ?_, ⟨ws, sign, ds, rfl, hws, hds, hne, hin, ?_⟩, hdr⟩
      · rw [← hsplit, hu, ← hx]; simp
      · rcases hsign with ⟨a, b⟩ | ⟨a, b⟩
        · left; rw [b] at hv; exact ⟨a, hv.symm⟩
        · right; rw [b] at hv; exact ⟨a, hv.symm⟩
    · rw [if_neg hin] at h; cases h

/-- **C79**: a header is accepted only if it consists of one of the two magic numbers, two numbers separated by white
space and the end of the line; what follows is the body. -/
theorem header_sound {s body : List Byte} {binary : Bool} {w h : Int} (hh : header s = some (binary, w, h, body)) :
    ∃ ws nw nh, s = ws ++ (if binary then b!"P4" else b!"P1") ++ nw ++ nh ++ b!"\n" ++ body ∧
      (∀ c ∈ ws, isSpaceC c = true) ∧ Numeral w nw ∧ Numeral h nh ∧ (∀ c, nw.head? = some c → isSpaceC c = true) ∧
      (∀ c, nh.head? = some c → isDigitC c = false) := by
  unfold header at hh
  dsimp only at hh
  have h1 := List.takeWhile_append_dropWhile (p := isSpaceC) (l := s)
  have hws : ∀ c ∈ s.takeWhile isSpaceC, isSpaceC c = true := fun c hc => List.all_eq_true.1 List.all_takeWhile c hc
  generalize s.dropWhile isSpaceC = u at *
  generalize s.takeWhile isSpaceC = ws at *
  have h2 := List.takeWhile_append_dropWhile (p := (!isSpaceC ·)) (l := u)
  have hhead : ∀ c, (u.dropWhile (!isSpaceC ·)).head? = some c → isSpaceC c = true := by
    intro c hc
    cases hd : u.dropWhile (!isSpaceC ·) with
    | nil => rw [hd] at hc; simp at hc
    | cons y ys =>
      have := List.head_dropWhile_not (p := (!isSpaceC ·)) (l := u) (by rw [hd]; simp)
      rw [hd] at hc
      simp only [hd, List.head_cons] at this
      simp only [List.head?_cons, Option.some.injEq] at hc
      rw [← hc]; simpa using this
  generalize u.dropWhile (!isSpaceC ·) = x at *
  generalize u.takeWhile (!isSpaceC ·) = magic at *
  split at hh
  · cases hh
  · rename_i hm
    cases he1 : extractInt x with
    | none => rw [he1] at hh; cases hh
    | some q =>
      obtain ⟨w', y⟩ := q
      rw [he1] at hh
      simp only at hh
      cases he2 : extractInt y with
      | none => rw [he2] at hh; cases hh
      | some q2 =>
        obtain ⟨h', z⟩ := q2
        rw [he2] at hh
        simp only at hh
        split at hh
        · rename_i hz
          simp only [Option.some.injEq, Prod.mk.injEq] at hh
          obtain ⟨hbin, rfl, rfl, rfl⟩ := hh
          obtain ⟨t1, e1, n1, d1⟩ := extractInt_sound he1
          obtain ⟨t2, e2, n2, d2⟩ := extractInt_sound he2
          have hz2 : z = b!"\n" ++ z.tail := by
            cases z with
            | nil => simp at hz
            | cons c r =>
              simp only [List.head?_cons, Option.some.injEq] at hz
              rw [hz]; rfl
          have hmag : magic = if binary then b!"P4" else b!"P1" := by
            rw [← hbin]
            by_cases h4 : magic = b!"P4"
            · rw [h4]; rfl
            · have h5 : magic = b!"P1" := by
                by_cases h5 : magic = b!"P1"
                · exact h5
                · exact absurd ⟨h4, h5⟩ hm
              rw [h5]; rfl
          have nonempty : ∀ {v t}, Numeral v t → t ≠ [] := by
            rintro v t ⟨a, b, c, rfl, -, -, hc, -⟩ hnil
            simp only [List.append_eq_nil_iff] at hnil
            exact hc hnil.2
          have headOf : ∀ {t r : List Byte}, t ≠ [] → (t ++ r).head? = t.head? := by
            intro t r ht
            cases t with
            | nil => exact absurd rfl ht
            | cons a b => rfl
          refine ⟨ws, t1, t2, ?_, hws, n1, n2, ?_, ?_⟩
          · conv => lhs; rw [← h1, ← h2, e1, e2, hz2, hmag]
            simp only [List.append_assoc]
          · intro c hc
            apply hhead c
            rw [e1, headOf (nonempty n1)]; exact hc
          · intro c hc
            apply d1 c
            rw [e2, headOf (nonempty n2)]; exact hc
        · cases hh

/-- Other magic numbers, missing numbers and further characters in the header line are rejected. -/
example : header b!"P5 8 1\nx" = none ∧ header b!"P4 8\nx" = none ∧ header b!"P4 8 1 \nx" = none ∧
    header b!"P4 +8\t1\nx" = some (true, 8, 1, b!"x") := by decide

theorem header_text (binary : Bool) (w h : Int) (hw : InInt w) (hh : InInt h) (body : List Byte) :
    header (headerText binary w h ++ body) = some (binary, w, h, body) := by
  have := header_general binary w h hw hh [] b!"\n" b!" " body (by simp) (by decide) (by decide) (by simp) (by simp)
  simpa [headerText] using this

/-! ### Reading files -/

/-- The number of bytes of an image. -/
def imageBytes (w h : Int) : Nat := ((w * h + 7) / 8).toNat

theorem imageBytes_eq (w h : Int) (hp : 0 < w * h) : (w * h + 7).tdiv 8 = imageBytes w h ∧ 0 < imageBytes w h := by
  unfold imageBytes
  rw [Int.tdiv_eq_ediv_of_nonneg (by omega)]
  omega

/-- **C79**: binary files.  The image is what follows the header; missing bytes count as zero, surplus ones are ignored. -/
theorem read_binary (w h : Int) (hw : InInt w) (hh : InInt h) (hp : 0 < w * h) (hb : w * h + 7 ≤ 2147483647)
    (body : List Byte) :
    readPBM (some (headerText true w h ++ body)) =
      .ok (some (w, h, body.take (imageBytes w h) ++ List.replicate (imageBytes w h - body.length) 0)) := by
  obtain ⟨h1, h2⟩ := imageBytes_eq w h hp
  have c1 : chk (w * h) = .ok (w * h) := if_pos ⟨by omega, by omega⟩
  have c2 : chk (w * h + 7) = .ok (w * h + 7) := if_pos ⟨by omega, by omega⟩
  simp only [readPBM, header_text true w h hw hh body, c1, c2, Res.bind_ok, h1, if_true]
  rw [if_neg (by omega)]
  simp

/-- **C79**: ASCII files.  The image has the pixels of the file unless a line starts with a surplus pixel. -/
theorem read_ascii (w h : Int) (hw : InInt w) (hh : InInt h) (hp : 0 < w * h) (hb : w * h + 7 ≤ 2147483647)
    (body : List Byte) (hs : ¬Surplus (imageBytes w h) (lines body)) :
    ∃ img, readPBM (some (headerText false w h ++ body)) = .ok (some (w, h, img)) ∧
      Holds (imageBytes w h) (pixels (lines body)) img := by
  obtain ⟨h1, h2⟩ := imageBytes_eq w h hp
  have c1 : chk (w * h) = .ok (w * h) := if_pos ⟨by omega, by omega⟩
  have c2 : chk (w * h + 7) = .ok (w * h + 7) := if_pos ⟨by omega, by omega⟩
  obtain ⟨img, di, h3, h4⟩ := asciiLines_ok _ _ hs
  refine ⟨img, ?_, h4⟩
  simp only [readPBM, header_text false w h hw hh body, c1, c2, Res.bind_ok, h1, Bool.false_eq_true, if_false]
  rw [if_neg (by omega)]
  simp only [Int.toNat_natCast, h3, Res.bind_ok]

/-- **C79 (finding)**: a surplus pixel at the start of a line is written behind the image. -/
theorem read_ascii_ub (w h : Int) (hw : InInt w) (hh : InInt h) (hp : 0 < w * h) (hb : w * h + 7 ≤ 2147483647)
    (body : List Byte) (hs : Surplus (imageBytes w h) (lines body)) :
    readPBM (some (headerText false w h ++ body)) = .ub := by
  obtain ⟨h1, h2⟩ := imageBytes_eq w h hp
  have c1 : chk (w * h) = .ok (w * h) := if_pos ⟨by omega, by omega⟩
  have c2 : chk (w * h + 7) = .ok (w * h + 7) := if_pos ⟨by omega, by omega⟩
  simp only [readPBM, header_text false w h hw hh body, c1, c2, Res.bind_ok, h1, Bool.false_eq_true, if_false]
  rw [if_neg (by omega)]
  simp only [Int.toNat_natCast, asciiLines_ub _ _ hs, Res.bind_ub]

/-- **C79 (finding)**: dimensions whose product does not fit overflow. -/
theorem read_overflow (binary : Bool) (w h : Int) (hw : InInt w) (hh : InInt h) (hb : 2147483647 < w * h + 7)
    (body : List Byte) : readPBM (some (headerText binary w h ++ body)) = .ub := by
  simp only [readPBM, header_text binary w h hw hh body]
  by_cases h1 : InInt (w * h)
  · have c1 : chk (w * h) = .ok (w * h) := if_pos h1
    have c2 : chk (w * h + 7) = .ub := if_neg (by unfold InInt; omega)
    simp [c1, c2]
  · have c1 : chk (w * h) = .ub := if_neg h1
    simp [c1]

theorem tdiv8_nonpos {a : Int} (h : a ≤ 0) : a.tdiv 8 ≤ 0 := by
  have h1 := Int.neg_tdiv a 8
  have h2 := Int.tdiv_nonneg (a := -a) (b := 8) (by omega) (by omega)
  omega

/-- **C79**: an image without pixels is rejected. -/
theorem read_empty (binary : Bool) (w h : Int) (hw : InInt w) (hh : InInt h) (h0 : w * h ≤ 0) (h1 : -2147483648 ≤ w * h)
    (body : List Byte) : readPBM (some (headerText binary w h ++ body)) = .ok none := by
  simp only [readPBM, header_text binary w h hw hh body]
  have c1 : chk (w * h) = .ok (w * h) := if_pos ⟨h1, by omega⟩
  have c2 : chk (w * h + 7) = .ok (w * h + 7) := if_pos ⟨by omega, by omega⟩
  have c3 : (w * h + 7).tdiv 8 ≤ 0 := by
    generalize w * h = p at *
    by_cases hp : 0 ≤ p + 7
    · rw [Int.tdiv_eq_ediv_of_nonneg hp]; omega
    · exact tdiv8_nonpos (by omega)
  simp only [c1, c2, Res.bind_ok]
  rw [if_pos c3]

/-- **C79**: what `readPBM` delivers: the dimensions of the header and an image of exactly the size they ask for, which
is not empty. -/
theorem read_sound (s : List Byte) (w h : Int) (img : List Byte) (hr : readPBM (some s) = .ok (some (w, h, img))) :
    ∃ binary body, header s = some (binary, w, h, body) ∧ 0 < w * h ∧ img.length = imageBytes w h ∧
      (binary = true → img = body.take (imageBytes w h) ++ List.replicate (imageBytes w h - body.length) 0) ∧
      (binary = false → Holds (imageBytes w h) (pixels (lines body)) img) := by
  unfold readPBM at hr
  simp only at hr
  cases hh : header s with
  | none => rw [hh] at hr; cases hr
  | some q =>
    obtain ⟨binary, w', h', body⟩ := q
    rw [hh] at hr
    simp only at hr
    rw [Res.bind_eq_ok] at hr
    obtain ⟨p, e1, hr⟩ := hr
    rw [Res.bind_eq_ok] at hr
    obtain ⟨q, e2, hr⟩ := hr
    have chk_eq : ∀ {a b : Int}, chk a = .ok b → b = a := by
      intro a b hab
      unfold chk at hab
      split at hab
      · exact (Res.ok.inj hab).symm
      · cases hab
    rw [chk_eq e1] at e2
    rw [chk_eq e2] at hr
    by_cases h0 : (w' * h' + 7).tdiv 8 ≤ 0
    · rw [if_pos h0] at hr; cases hr
    · rw [if_neg h0] at hr
      have hpos : 0 < w' * h' := by
        generalize w' * h' = p at *
        by_cases hp : 0 ≤ p + 7
        · rw [Int.tdiv_eq_ediv_of_nonneg hp] at h0; omega
        · exact absurd (tdiv8_nonpos (a := p + 7) (by omega)) h0
      obtain ⟨i1, i2⟩ := imageBytes_eq w' h' hpos
      rw [i1] at hr
      simp only [Int.toNat_natCast] at hr
      cases binary with
      | true =>
        simp only [if_true, Res.ok.injEq, Option.some.injEq, Prod.mk.injEq] at hr
        obtain ⟨rfl, rfl, rfl⟩ := hr
        refine ⟨true, body, rfl, hpos, ?_, fun _ => rfl, fun h => by cases h⟩
        simp; omega
      | false =>
        simp only [Bool.false_eq_true, if_false] at hr
        by_cases hs : Surplus (imageBytes w' h') (lines body)
        · rw [asciiLines_ub _ _ hs] at hr; cases hr
        · obtain ⟨im, di, k1, k2⟩ := asciiLines_ok _ _ hs
          rw [k1] at hr
          simp only [Res.bind_ok, Res.ok.injEq, Option.some.injEq, Prod.mk.injEq] at hr
          obtain ⟨rfl, rfl, rfl⟩ := hr
          exact ⟨false, body, rfl, hpos, k2.1, fun h => (by cases h), fun _ => k2⟩

/-! ### Comparison -/

theorem zip_all_beq (a b : List Byte) (h : a.length = b.length) :
    ((a.zip b).all fun (x, y) => x == y) = true ↔ a = b := by
  induction a generalizing b with
  | nil => cases b with
    | nil => simp
    | cons y b => simp at h
  | cons x a ih => cases b with
    | nil => simp at h
    | cons y b =>
      simp only [List.length_cons, Nat.add_right_cancel_iff] at h
      simp only [List.zip_cons_cons, List.all_cons, Bool.and_eq_true, beq_iff_eq, ih b h, List.cons.injEq]

/-- **C79**: the comparison succeeds exactly when the file holds this image with these dimensions. -/
theorem compare_iff (file : Option (List Byte)) (data : List Byte) (w h : Int) :
    comparePBM file data w h = .ok true ↔ readPBM file = .ok (some (w, h, data)) := by
  unfold comparePBM
  cases hr : readPBM file with
  | ub => simp
  | hang => simp
  | ok r =>
    cases r with
    | none => simp
    | some r =>
      obtain ⟨fw, fh, img⟩ := r
      simp only [Res.bind_ok, Res.ok.injEq, Option.some.injEq, Prod.mk.injEq]
      by_cases hc : img.length ≠ data.length ∨ fw ≠ w ∨ fh ≠ h
      · rw [if_pos hc]
        constructor
        · intro e; simp at e
        · rintro ⟨rfl, rfl, rfl⟩; simp at hc
      · rw [if_neg hc]
        simp only [not_or, ne_eq, Decidable.not_not] at hc
        obtain ⟨h1, rfl, rfl⟩ := hc
        rw [Res.ok.injEq, zip_all_beq img data h1]
        simp

/-! ### Writing and reading back -/

/-- **C79**: binary files are read back. -/
theorem binary_roundtrip (data : List Byte) (w h : Int) (hw : InInt w) (hh : InInt h) (hp : 0 < w * h)
    (hb : w * h + 7 ≤ 2147483647) (hd : data.length = imageBytes w h) :
    ∃ f, writePBMBinary data w h = .ok (f, true) ∧ readPBM (some f) = .ok (some (w, h, data)) := by
  obtain ⟨h1, h2⟩ := imageBytes_eq w h hp
  have c1 : chk (w * h) = .ok (w * h) := if_pos ⟨by omega, by omega⟩
  have c2 : chk (w * h + 7) = .ok (w * h + 7) := if_pos ⟨by omega, by omega⟩
  refine ⟨headerText true w h ++ data, ?_, ?_⟩
  · simp only [writePBMBinary, c1, c2, Res.bind_ok, h1, headerText, if_true]
    rw [if_neg (by omega), List.take_of_length_le (by omega)]
    simp
  · rw [read_binary w h hw hh hp hb, List.take_of_length_le (by omega), hd]
    simp

/-- **C79**: the comparison with a written binary file accepts exactly the written image. -/
theorem compare_binary (data : List Byte) (w h : Int) (hw : InInt w) (hh : InInt h) (hp : 0 < w * h)
    (hb : w * h + 7 ≤ 2147483647) (hd : data.length = imageBytes w h) :
    ∃ f, writePBMBinary data w h = .ok (f, true) ∧ ∀ data' w' h',
      comparePBM (some f) data' w' h' = .ok true ↔ data' = data ∧ w' = w ∧ h' = h := by
  obtain ⟨f, h1, h2⟩ := binary_roundtrip data w h hw hh hp hb hd
  refine ⟨f, h1, fun data' w' h' => ?_⟩
  rw [compare_iff, h2]
  simp only [Res.ok.injEq, Option.some.injEq, Prod.mk.injEq]
  constructor
  · rintro ⟨rfl, rfl, rfl⟩; exact ⟨rfl, rfl, rfl⟩
  · rintro ⟨rfl, rfl, rfl⟩; exact ⟨rfl, rfl, rfl⟩

/-- **C79 (finding)**: a truncated binary file equals the image whose missing part is zero. -/
theorem compare_truncated (data : List Byte) (k : Nat) (w h : Int) (hw : InInt w) (hh : InInt h) (hp : 0 < w * h)
    (hb : w * h + 7 ≤ 2147483647) (hd : data.length = imageBytes w h) (hz : ∀ b ∈ data.drop k, b = 0) :
    comparePBM (some (headerText true w h ++ data.take k)) data w h = .ok true := by
  rw [compare_iff, read_binary w h hw hh hp hb]
  simp only [Res.ok.injEq, Option.some.injEq, Prod.mk.injEq, true_and]
  rw [List.take_take, List.length_take]
  conv => rhs; rw [← List.take_append_drop k data]
  by_cases hk : k ≤ imageBytes w h
  · rw [show min (imageBytes w h) k = k by omega]
    congr 1
    symm
    rw [List.eq_replicate_iff]
    exact ⟨by rw [List.length_drop]; omega, hz⟩
  · rw [show min (imageBytes w h) k = imageBytes w h by omega, List.take_of_length_le (by omega : data.length ≤ k),
      List.take_of_length_le (by omega : data.length ≤ imageBytes w h), List.drop_eq_nil_of_le (by omega)]
    rw [show imageBytes w h - min k data.length = 0 by omega]
    rfl

/-! ### ASCII files -/

/-- The pixels of a packed image, in order. -/
def unpack (data : List Byte) : List Bool := data.flatMap fun b => [7, 6, 5, 4, 3, 2, 1, 0].map b.getLsbD

theorem digits_asciiByte (b : Byte) : digits (asciiByte b) = [7, 6, 5, 4, 3, 2, 1, 0].map b.getLsbD := by
  have : ∀ b7 b6 b5 b4 b3 b2 b1 b0 : Bool,
      digits ([b7, b6, b5, b4, b3, b2, b1, b0].flatMap fun v => [if v then 0x31 else 0x30, 0x20]) =
        [b7, b6, b5, b4, b3, b2, b1, b0] := by decide +kernel
  exact this _ _ _ _ _ _ _ _

theorem asciiByte_no_lf (b : Byte) : ∀ c ∈ asciiByte b, c ≠ 0x0A := by
  intro c hc
  simp only [asciiByte, List.mem_flatMap] at hc
  obtain ⟨i, -, hc⟩ := hc
  simp only [List.mem_cons, List.not_mem_nil, or_false] at hc
  rcases hc with rfl | rfl
  · split <;> decide
  · decide

theorem asciiRow_spec (n : Nat) (data : List Byte) (h : n ≤ data.length) :
    asciiRow n data = ((data.take n).flatMap asciiByte, data.drop n, true) := by
  induction n generalizing data with
  | zero => simp [asciiRow]
  | succ n ih =>
    cases data with
    | nil => simp at h
    | cons b data =>
      simp only [List.length_cons] at h
      simp [asciiRow, ih data (by omega)]

/-- The text of the rows. -/
def rowsText (rb : Nat) : Nat → List Byte → List (List Byte)
  | 0, _ => []
  | h + 1, data => (data.take rb).flatMap asciiByte :: rowsText rb h (data.drop rb)

theorem asciiRows_spec (rb h : Nat) (data : List Byte) (hl : rb * h ≤ data.length) :
    asciiRows rb h data = ((rowsText rb h data).flatMap (· ++ [0x0A]), true) := by
  induction h generalizing data with
  | zero => simp [asciiRows, rowsText]
  | succ h ih =>
    rw [Nat.mul_succ] at hl
    rw [asciiRows, asciiRow_spec rb data (by omega)]
    simp only [ih (data.drop rb) (by rw [List.length_drop]; omega), rowsText, List.flatMap_cons]

theorem linesFrom_line (l acc rest : List Byte) (h : ∀ c ∈ l, c ≠ 0x0A) :
    linesFrom acc (l ++ 0x0A :: rest) = (acc ++ l) :: linesFrom [] rest := by
  induction l generalizing acc with
  | nil => simp [linesFrom]
  | cons c l ih =>
    rw [List.cons_append, linesFrom, if_neg (h c (by simp)), ih _ (fun c hc => h c (by simp [hc]))]
    simp

theorem lines_rows (ls : List (List Byte)) (h : ∀ l ∈ ls, ∀ c ∈ l, c ≠ 0x0A) :
    lines (ls.flatMap (· ++ [0x0A])) = ls := by
  unfold lines
  induction ls with
  | nil => rfl
  | cons l ls ih =>
    rw [List.flatMap_cons, List.append_assoc, List.cons_append, List.nil_append,
      linesFrom_line l [] _ (h l (by simp)), ih (fun l hl => h l (by simp [hl]))]
    simp

theorem rowsText_no_lf (rb h : Nat) (data : List Byte) : ∀ l ∈ rowsText rb h data, ∀ c ∈ l, c ≠ 0x0A := by
  induction h generalizing data with
  | zero => simp [rowsText]
  | succ h ih =>
    intro l hl
    rw [rowsText, List.mem_cons] at hl
    rcases hl with rfl | hl
    · intro c hc
      obtain ⟨b, -, hb⟩ := List.mem_flatMap.1 hc
      exact asciiByte_no_lf b c hb
    · exact ih _ l hl

theorem digits_flatMap (data : List Byte) : digits (data.flatMap asciiByte) = unpack data := by
  induction data with
  | nil => rfl
  | cons b data ih =>
    have e : digits (asciiByte b ++ data.flatMap asciiByte) = digits (asciiByte b) ++ digits (data.flatMap asciiByte) := by
      simp [digits]
    rw [List.flatMap_cons, e, digits_asciiByte, ih]
    rfl

theorem unpack_length (data : List Byte) : (unpack data).length = 8 * data.length := by
  induction data with
  | nil => rfl
  | cons b data ih =>
    have : unpack (b :: data) = [7, 6, 5, 4, 3, 2, 1, 0].map b.getLsbD ++ unpack data := rfl
    rw [this, List.length_append, ih, List.length_map]
    simp only [List.length_cons, List.length_nil]
    omega

theorem asciiByte_head (b : Byte) (r : List Byte) :
    (asciiByte b ++ r).head? = some 0x30 ∨ (asciiByte b ++ r).head? = some 0x31 := by
  have : (asciiByte b ++ r).head? = some (if b.getLsbD 7 then 0x31 else 0x30) := rfl
  rw [this]
  cases b.getLsbD 7 <;> simp

theorem pixels_rows (rb h : Nat) (data : List Byte) (hl : rb * h ≤ data.length) :
    pixels (rowsText rb h data) = unpack (data.take (rb * h)) := by
  induction h generalizing data with
  | zero => simp [rowsText, pixels, unpack]
  | succ h ih =>
    rw [Nat.mul_succ] at hl
    have hh : ((data.take rb).flatMap asciiByte).head? ≠ some 0x23 := by
      cases data.take rb with
      | nil => simp
      | cons b r =>
        rw [List.flatMap_cons]
        rcases asciiByte_head b (r.flatMap asciiByte) with e | e <;> rw [e] <;> decide
    have e : pixels (rowsText rb (h + 1) data) = digits ((data.take rb).flatMap asciiByte) ++
        pixels (rowsText rb h (data.drop rb)) := by
      rw [rowsText, pixels_cons _ _ hh]
    rw [e, digits_flatMap, ih (data.drop rb) (by rw [List.length_drop]; omega)]
    rw [Nat.mul_succ, Nat.add_comm, List.take_add]
    simp [unpack]

theorem holds_unpack (data : List Byte) : Holds data.length (unpack data) data := by
  refine ⟨rfl, ?_⟩
  induction data with
  | nil => simp
  | cons b data ih =>
    intro i hi
    have hu : unpack (b :: data) = [7, 6, 5, 4, 3, 2, 1, 0].map b.getLsbD ++ unpack data := rfl
    rw [hu]
    rcases Nat.lt_or_ge i 8 with h8 | h8
    · rw [List.getElem?_append_left (by simpa using h8)]
      rw [pixel?, show i / 8 = 0 by omega, show i % 8 = i by omega]
      have : i = 0 ∨ i = 1 ∨ i = 2 ∨ i = 3 ∨ i = 4 ∨ i = 5 ∨ i = 6 ∨ i = 7 := by omega
      rcases this with rfl | rfl | rfl | rfl | rfl | rfl | rfl | rfl <;> simp
    · rw [List.getElem?_append_right (by simpa using h8)]
      have := ih (i - 8) (by simp only [List.length_cons] at hi; omega)
      simp only [List.length_map, List.length_cons, List.length_nil, Nat.zero_add, Nat.reduceAdd]
      rw [← this, pixel?, pixel?]
      rw [show i / 8 = (i - 8) / 8 + 1 by omega, List.getElem?_cons_succ, show (i - 8) % 8 = i % 8 by omega]

theorem writePBM_ok (data : List Byte) (w h : Int) (rb : Nat) (hw : InInt (w + 7)) (hh : 0 < h)
    (hrb : (w + 7).tdiv 8 = rb) (hl : rb * h.toNat ≤ data.length) :
    writePBM data w h = .ok (headerText false w h ++ (rowsText rb h.toNat data).flatMap (· ++ [0x0A]), true) := by
  have c1 : chk (w + 7) = .ok (w + 7) := if_pos hw
  unfold writePBM
  simp only [show ¬(h ≤ 0) by omega, if_false, c1, Res.bind_ok, hrb, Int.toNat_natCast, asciiRows_spec _ _ _ hl]
  simp [headerText]

/-- The text of a row: every pixel is followed by a space. -/
def rowText (row : List Byte) : List Byte := (unpack row).flatMap fun p => [if p then 0x31 else 0x30, 0x20]

theorem asciiBytes_text (row : List Byte) : row.flatMap asciiByte = rowText row := by
  unfold rowText
  induction row with
  | nil => rfl
  | cons b row ih =>
    rw [List.flatMap_cons, ih, show unpack (b :: row) = [7, 6, 5, 4, 3, 2, 1, 0].map b.getLsbD ++ unpack row from rfl,
      List.flatMap_append]
    rfl

/-- The first `k` rows of `rb` bytes, every one followed by a line feed. -/
def imageText (rb k : Nat) (data : List Byte) : List Byte :=
  (List.range k).flatMap fun i => rowText ((data.drop (rb * i)).take rb) ++ [0x0A]

theorem imageText_succ (rb k : Nat) (data : List Byte) :
    imageText rb (k + 1) data = rowText (data.take rb) ++ [0x0A] ++ imageText rb k (data.drop rb) := by
  unfold imageText
  rw [List.range_succ_eq_map, List.flatMap_cons, List.flatMap_map]
  simp only [Nat.mul_zero, List.drop_zero, List.drop_drop]
  congr 1
  congr 1
  funext i
  rw [Nat.succ_eq_add_one, Nat.mul_add, Nat.mul_one, Nat.add_comm]

theorem asciiRow_short (n : Nat) (data : List Byte) (h : data.length < n) :
    asciiRow n data = (rowText data, [], false) := by
  rw [← asciiBytes_text]
  induction n generalizing data with
  | zero => simp at h
  | succ n ih =>
    cases data with
    | nil => rfl
    | cons b data =>
      simp only [List.length_cons] at h
      simp [asciiRow, ih data (by omega)]

theorem asciiRows_text (rb h : Nat) (data : List Byte) :
    asciiRows rb h data = if rb * h ≤ data.length then (imageText rb h data, true)
      else (imageText rb (data.length / rb) data ++ rowText (data.drop (rb * (data.length / rb))), false) := by
  induction h generalizing data with
  | zero => simp [asciiRows, imageText]
  | succ h ih =>
    rw [asciiRows, Nat.mul_succ]
    by_cases hr : rb ≤ data.length
    · rw [asciiRow_spec rb data hr]
      simp only [ih, asciiBytes_text, List.length_drop]
      by_cases hl : rb * h + rb ≤ data.length
      · rw [if_pos hl, if_pos (by omega), imageText_succ]
      · have h0 : 0 < rb := by
          rcases Nat.eq_zero_or_pos rb with rfl | h0
          · simp at hl
          · exact h0
        rw [if_neg hl, if_neg (by omega)]
        simp only [List.drop_drop]
        have e : data.length / rb = (data.length - rb) / rb + 1 := by
          rw [← Nat.add_div_right _ h0, show data.length - rb + rb = data.length by omega]
        rw [e, imageText_succ, Nat.mul_succ, Nat.add_comm rb]
        simp
    · rw [asciiRow_short rb data (by omega), if_neg (by omega), Nat.div_eq_of_lt (by omega)]
      simp [imageText]

/-- **C79**: what `writePBM` writes: the header, then every row with its pixels (filled up to whole bytes).  If the data
are too short, it fails and the file ends with the last byte there is. -/
theorem writePBM_file (data : List Byte) (w h : Int) (rb : Nat) (hw : InInt (w + 7)) (hh : 0 < h)
    (hrb : (w + 7).tdiv 8 = rb) :
    writePBM data w h = .ok (if rb * h.toNat ≤ data.length
      then (headerText false w h ++ imageText rb h.toNat data, true)
      else (headerText false w h ++ imageText rb (data.length / rb) data ++
        rowText (data.drop (rb * (data.length / rb))), false)) := by
  have c1 : chk (w + 7) = .ok (w + 7) := if_pos hw
  unfold writePBM
  simp only [show ¬(h ≤ 0) by omega, if_false, c1, Res.bind_ok, hrb, Int.toNat_natCast, asciiRows_text]
  split <;> simp [headerText]

/-- **C79**: without rows only the header is written. -/
theorem writePBM_no_rows (data : List Byte) (w h : Int) (hh : h ≤ 0) :
    writePBM data w h = .ok (headerText false w h, true) := by
  unfold writePBM
  rw [if_pos hh]
  simp [headerText]

/-- **C79**: what `writePBMBinary` writes: the header and the data, but no more than the image has. A product of the
dimensions down to -14 counts as an empty image. -/
theorem writePBMBinary_file (data : List Byte) (w h : Int) (hp : -15 < w * h) (hb : w * h + 7 ≤ 2147483647) :
    writePBMBinary data w h = .ok (headerText true w h ++ data.take (imageBytes w h), true) := by
  have c1 : chk (w * h) = .ok (w * h) := if_pos ⟨by omega, by omega⟩
  have c2 : chk (w * h + 7) = .ok (w * h + 7) := if_pos ⟨by omega, by omega⟩
  have h1 : (w * h + 7).tdiv 8 = imageBytes w h := by
    unfold imageBytes
    by_cases hn : 0 ≤ w * h + 7
    · rw [Int.tdiv_eq_ediv_of_nonneg hn]
      omega
    · rw [Int.tdiv_eq_ediv, show Int.sign 8 = 1 from rfl]
      omega
  simp only [writePBMBinary, c1, c2, Res.bind_ok, h1, headerText, if_true]
  rw [if_neg (by omega), show (min (imageBytes w h : Int) data.length).toNat = min (imageBytes w h) data.length by omega]
  rw [List.take_eq_take_iff.2 (show min (min (imageBytes w h) data.length) data.length = min (imageBytes w h) data.length by omega)]
  simp

/-- **C79 (finding)**: all other dimensions are undefined: the product overflows, or the number of bytes to write is
negative. -/
theorem writePBMBinary_undefined (data : List Byte) (w h : Int) (hp : ¬(-15 < w * h ∧ w * h + 7 ≤ 2147483647)) :
    writePBMBinary data w h = .ub := by
  simp only [writePBMBinary]
  by_cases c1 : InInt (w * h)
  · rw [show chk (w * h) = .ok (w * h) from if_pos c1]
    simp only [Res.bind_ok]
    by_cases c2 : InInt (w * h + 7)
    · rw [show chk (w * h + 7) = .ok (w * h + 7) from if_pos c2]
      simp only [Res.bind_ok]
      apply if_pos
      have := c2.2
      rw [Int.tdiv_eq_ediv, show Int.sign 8 = 1 from rfl]
      omega
    · rw [show chk (w * h + 7) = .ub from if_neg c2]
      rfl
  · rw [show chk (w * h) = .ub from if_neg c1]
    rfl

/-- Dimensions of both kinds which are not positive. -/
example : writePBMBinary [1, 2, 3] (-7) 2 = .ok (b!"P4\n-7 2\n", true) ∧ writePBMBinary [1, 2, 3] (-5) 3 = .ub := by
  decide +kernel

/-- Two rows asked for, one and a half there. -/
example : writePBM [0xA5, 0x01, 0xFF] 16 2 =
    .ok (b!"P1\n16 2\n1 0 1 0 0 1 0 1 0 0 0 0 0 0 0 1 \n1 1 1 1 1 1 1 1 ", false) := by decide +kernel
example : writePBMBinary [1, 2, 3] 8 2 = .ok (b!"P4\n8 2\n" ++ [1, 2], true) := by decide +kernel

/-- A line after the first `a` rows. -/
theorem rowsText_split (rb h a : Nat) (data : List Byte) (ha : a < h) :
    rowsText rb h data = rowsText rb a data ++ ((data.drop (rb * a)).take rb).flatMap asciiByte ::
      rowsText rb (h - a - 1) (data.drop (rb * (a + 1))) := by
  induction a generalizing h data with
  | zero =>
    obtain ⟨h, rfl⟩ : ∃ k, h = k + 1 := ⟨h - 1, by omega⟩
    simp [rowsText]
  | succ a ih =>
    obtain ⟨h, rfl⟩ : ∃ k, h = k + 1 := ⟨h - 1, by omega⟩
    rw [rowsText, ih h (data.drop rb) (by omega), rowsText, List.drop_drop, List.drop_drop,
      show rb + rb * a = rb * (a + 1) by rw [Nat.mul_succ]; omega,
      show rb + rb * (a + 1) = rb * (a + 1 + 1) by rw [Nat.mul_succ rb (a + 1)]; omega,
      show h + 1 - (a + 1) - 1 = h - a - 1 by omega]
    rfl

/-- Rows of the written file start with surplus pixels iff the last row starts behind the image. -/
theorem rows_surplus (rb h n : Nat) (data : List Byte) (hrb : 0 < rb) (hh : 0 < h) (hl : rb * h ≤ data.length) :
    Surplus n (rowsText rb h data) ↔ n ≤ rb * (h - 1) := by
  constructor
  · rintro ⟨a, l, b, e, h1, -⟩
    -- `a` is the text of the first rows
    have hlen : ∀ k d, (rowsText rb k d).length = k := by
      intro k
      induction k with
      | zero => intro d; rfl
      | succ k ih => intro d; rw [rowsText, List.length_cons, ih]
    have ha : a.length < h := by
      have := congrArg List.length e
      rw [hlen, List.length_append, List.length_cons] at this
      omega
    have hs := rowsText_split rb h a.length data ha
    have hae : a = rowsText rb a.length data := by
      have := congrArg (List.take a.length) (e.symm.trans hs)
      rw [List.take_left, List.take_left' (hlen _ _)] at this
      exact this
    have hle : rb * a.length ≤ rb * (h - 1) := Nat.mul_le_mul_left _ (by omega)
    have hle' : rb * (h - 1) ≤ rb * h := Nat.mul_le_mul_left _ (by omega)
    rw [hae, pixels_rows rb a.length data (by omega), unpack_length, List.length_take] at h1
    omega
  · intro hn
    have hle' : rb * (h - 1) ≤ rb * h := Nat.mul_le_mul_left _ (by omega)
    refine ⟨_, _, _, rowsText_split rb h (h - 1) data (by omega), ?_, ?_⟩
    · rw [pixels_rows rb (h - 1) data (by omega), unpack_length, List.length_take]
      omega
    · have hk : rb * (h - 1) < data.length := by
        have : rb * h = rb * (h - 1) + rb := by rw [← Nat.mul_succ]; congr 1; omega
        omega
      have : ((data.drop (rb * (h - 1))).take rb) ≠ [] := by
        intro he
        have := congrArg List.length he
        rw [List.length_take, List.length_drop, List.length_nil] at this
        omega
      obtain ⟨b, r, hb⟩ := List.exists_cons_of_ne_nil this
      rw [hb, List.flatMap_cons]
      exact asciiByte_head b _

/-- **C79**: ASCII files of images whose width is a multiple of eight are read back. -/
theorem ascii_roundtrip_partial (data : List Byte) (k : Nat) (h : Int) (hk : 0 < k) (hh : 0 < h)
    (hb : 8 * k * h + 7 ≤ 2147483647) (hd : (data.length : Int) = k * h) :
    ∃ f, writePBM data (8 * k) h = .ok (f, true) ∧ readPBM (some f) = .ok (some (8 * k, h, data)) := by
  obtain ⟨m, rfl⟩ : ∃ m : Nat, h = m := ⟨h.toNat, by omega⟩
  have hm : 0 < m := by omega
  have hd' : data.length = k * m := by rw [← Int.natCast_mul] at hd; omega
  have hkm : k ≤ k * m := Nat.le_mul_of_pos_right _ hm
  have hmk : m ≤ k * m := Nat.le_mul_of_pos_left _ hk
  have hb' : 8 * (k * m) + 7 ≤ 2147483647 := by
    have e : 8 * (k : Int) * m = ((8 * (k * m) : Nat) : Int) := by rw [Int.natCast_mul, Int.natCast_mul, Int.mul_assoc]; rfl
    omega
  have hwh : (8 * (k : Int) * m) = ((8 * (k * m) : Nat) : Int) := by rw [Int.natCast_mul, Int.natCast_mul, Int.mul_assoc]; rfl
  have hib : imageBytes (8 * k) m = k * m := by
    unfold imageBytes; rw [hwh]; omega
  refine ⟨_, writePBM_ok data (8 * k) m k ⟨by omega, by omega⟩ hh ?_ (by simp [hd']), ?_⟩
  · rw [Int.tdiv_eq_ediv_of_nonneg (by omega)]; omega
  · have hl : k * m ≤ data.length := by omega
    have hlines := lines_rows _ (rowsText_no_lf k m data)
    have hns : ¬Surplus (imageBytes (8 * k) m) (lines ((rowsText k m data).flatMap (· ++ [0x0A]))) := by
      rw [hlines, rows_surplus k m _ data hk hm hl, hib]
      have : k * (m - 1) < k * m := Nat.mul_lt_mul_of_pos_left (by omega) hk
      omega
    obtain ⟨img, h1, h2⟩ := read_ascii (8 * k) m ⟨by omega, by omega⟩ ⟨by omega, by omega⟩ (by rw [hwh]; omega)
      (by rw [hwh]; omega) _ hns
    simp only [Int.toNat_natCast]
    rw [h1]
    rw [hlines, pixels_rows k m data hl, List.take_of_length_le (by omega), hib, ← hd'] at h2
    rw [holds_unique h2 (holds_unpack data)]

/-- **C79 (finding)**: with any other width the written file may be unreadable.  If the last row starts behind the packed
image, reading the file writes behind the vector. -/
theorem ascii_unaligned_ub (data : List Byte) (w h : Nat) (hw : 0 < w) (hh : 0 < h) (hb : w * h + 7 ≤ 2147483647)
    (hd : data.length = (w + 7) / 8 * h) (hrow : (w * h + 7) / 8 ≤ (w + 7) / 8 * (h - 1)) :
    ∃ f, writePBM data w h = .ok (f, true) ∧ readPBM (some f) = .ub := by
  have hkm : w ≤ w * h := Nat.le_mul_of_pos_right _ hh
  have hmk : h ≤ w * h := Nat.le_mul_of_pos_left _ hw
  have hib : imageBytes w h = (w * h + 7) / 8 := by
    unfold imageBytes
    rw [← Int.natCast_mul]
    omega
  refine ⟨_, writePBM_ok data w h ((w + 7) / 8) ⟨by omega, by omega⟩ (by omega) ?_ (by simp [hd]), ?_⟩
  · rw [Int.tdiv_eq_ediv_of_nonneg (by omega)]; omega
  · simp only [Int.toNat_natCast]
    apply read_ascii_ub w h ⟨by omega, by omega⟩ ⟨by omega, by omega⟩ (by rw [← Int.natCast_mul]; omega)
      (by rw [← Int.natCast_mul]; omega)
    rw [lines_rows _ (rowsText_no_lf _ _ data), rows_surplus _ h _ data (by omega) hh (by omega), hib]
    exact hrow

/-! ### Examples -/

example : comparePBM (some (b!"P1\n# drawn by hand\n")) [] 1 1 = .ok false := by decide
example : comparePBM (some b!"P1 8\n 2\n# c 1\n0 1 1 0\n0001\n11110000\n") [0x61, 0xF0] 8 2 = .ok true := by decide
example : comparePBM (some b!"P4\n8 2\nab") b!"ab" 8 2 = .ok true := by decide
example : comparePBM (some b!"P4\n8 2\nab") b!"aa" 8 2 = .ok false := by decide
example : comparePBM (some b!"P4\n8 2\na") [97, 0] 8 2 = .ok true := by decide
example : writePBM [0xF0, 0x90, 0xF0] 4 3 =
  .ok (b!"P1\n4 3\n1 1 1 1 0 0 0 0 \n1 0 0 1 0 0 0 0 \n1 1 1 1 0 0 0 0 \n", true) := by decide +kernel
example : readPBM (some b!"P1\n4 3\n1 1 1 1 0 0 0 0 \n1 0 0 1 0 0 0 0 \n1 1 1 1 0 0 0 0 \n") = .ub := by decide +kernel
example : ∃ f, writePBM [0xF0, 0x90, 0xF0] 4 3 = .ok (f, true) ∧ readPBM (some f) = .ub :=
  ascii_unaligned_ub [0xF0, 0x90, 0xF0] 4 3 (by decide) (by decide) (by decide) (by decide) (by decide)
/-- Negative dimensions are accepted if their product is positive. -/
example : readPBM (some b!"P4\n-8 -1\na") = .ok (some (-8, -1, b!"a")) := by decide

end Verif.Pbm
