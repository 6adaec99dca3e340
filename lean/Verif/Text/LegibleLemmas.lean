import Verif.Text.Bounds
import Mathlib.Data.List.Pairwise
/-!
# Reading a row of glyphs back

A glyph is given by its advance and the set of its pixels, coded as a number: pixel `(x, y)` relative to the pen is bit
`32 * (x + 1) + (y + 24)`.  Glyphs which differ early enough can be told apart whatever follows.
-/
namespace Verif.Text
open Verif.Canvas Verif.FrameBuffer Verif.Font

/-- Advance and pixels. -/
abbrev Entry := Nat × Nat

/-- Pixel `(x, y)` of a glyph, relative to the pen. -/
def Ink (e : Entry) (x y : Int) : Prop :=
  -1 ≤ x ∧ (-24 ≤ y ∧ y < 8) ∧ e.2.testBit ((x + 1).toNat * 32 + (y + 24).toNat) = true

/-- The pixels of several glyphs one after the other. -/
def Inks : List Entry → Int → Int → Prop
  | [], _, _ => False
  | e :: es, x, y => Ink e x y ∨ Inks es (x - e.1) y

/-- The pixels with `1 ≤ x < hi`. -/
def window (d hi : Nat) : Nat := (d % 2 ^ (32 * (hi + 1))) >>> 64

/-- Two glyphs differ in the columns no other glyph of the text reaches. -/
def sepB (p q : Entry) : Bool := window (p.2 ^^^ q.2) (min p.1 q.1 - 1) != 0

/-- The (wider) glyph `p` cannot be mistaken for `q` and anything following it. -/
def lookB (tbl : List Entry) (p q : Entry) : Bool :=
  ((p.2 ^^^ (p.2 &&& q.2)) >>> 64 != 0) &&
    tbl.all fun c => window (p.2 ^^^ (q.2 ||| (c.2 <<< (32 * q.1)))) (min p.1 (q.1 + c.1) - 1) != 0

theorem exists_bit {n : Nat} (h : n ≠ 0) : ∃ k, n.testBit k = true := by
  by_contra hc
  apply h
  apply Nat.eq_of_testBit_eq
  intro i
  rw [Nat.zero_testBit]
  cases hi : n.testBit i with
  | false => rfl
  | true => exact absurd ⟨i, hi⟩ hc

/-- The pixel of a bit. -/
theorem pixel_of_bit (k : Nat) (h : 64 ≤ k) : ∃ x y : Int, 1 ≤ x ∧ x = (k / 32 : Nat) - 1 ∧ (-24 ≤ y ∧ y < 8) ∧
    (x + 1).toNat * 32 + (y + 24).toNat = k := by
  refine ⟨(k / 32 : Nat) - 1, (k % 32 : Nat) - 24, ?_, rfl, ?_, ?_⟩ <;> omega

theorem window_pixel {a b : Nat} (i j hi : Nat) (h : (window (a ^^^ b) hi != 0) = true) :
    ∃ x y : Int, 1 ≤ x ∧ x < hi ∧ (Ink (i, a) x y ↔ ¬ Ink (j, b) x y) := by
  obtain ⟨k, hk⟩ := exists_bit (n := window (a ^^^ b) hi) (by simpa using h)
  unfold window at hk
  rw [Nat.testBit_shiftRight, Nat.testBit_mod_two_pow, Bool.and_eq_true, decide_eq_true_eq, Nat.testBit_xor] at hk
  obtain ⟨x, y, h1, h2, h3, h4⟩ := pixel_of_bit (64 + k) (by omega)
  refine ⟨x, y, h1, by omega, ?_⟩
  unfold Ink
  simp only [h4]
  have h5 : -1 ≤ x := by omega
  simp only [h5, h3, and_self, true_and]
  have := hk.2
  revert this
  cases a.testBit (64 + k) <;> cases b.testBit (64 + k) <;> simp

/-- The pixels of two glyphs together. -/
theorem ink_union (q c : Entry) (i : Nat) (x y : Int) :
    Ink (i, q.2 ||| (c.2 <<< (32 * q.1))) x y ↔ Ink q x y ∨ Ink c (x - q.1) y := by
  unfold Ink
  simp only [Nat.testBit_or, Nat.testBit_shiftLeft, Bool.or_eq_true, Bool.and_eq_true, decide_eq_true_eq]
  constructor
  · rintro ⟨h1, h2, h3 | ⟨h3, h4⟩⟩
    · exact .inl ⟨h1, h2, h3⟩
    · refine .inr ⟨by omega, h2, ?_⟩
      rw [show (x - (q.1 : Int) + 1).toNat * 32 + (y + 24).toNat =
        (x + 1).toNat * 32 + (y + 24).toNat - 32 * q.1 by omega]
      exact h4
  · rintro (⟨h1, h2, h3⟩ | ⟨h1, h2, h3⟩)
    · exact ⟨h1, h2, .inl h3⟩
    · refine ⟨by omega, h2, .inr ⟨by omega, ?_⟩⟩
      rw [← show (x - (q.1 : Int) + 1).toNat * 32 + (y + 24).toNat =
        (x + 1).toNat * 32 + (y + 24).toNat - 32 * q.1 by omega]
      exact h3

theorem inks_lower (t : List Entry) (x y : Int) (h : Inks t x y) : -1 ≤ x := by
  induction t generalizing x with
  | nil => exact h.elim
  | cons e es ih =>
    rcases h with h | h
    · exact h.1
    · have := ih _ h
      omega

/-- What is known of a table of glyphs. -/
structure Readable (tbl : List Entry) (blank : Entry) : Prop where
  mem : blank ∈ tbl
  empty : blank.2 = 0
  /-- no pixel right of the advance -/
  right : ∀ e ∈ tbl, e.2 < 2 ^ (32 * (e.1 + 2))
  /-- every other glyph is visible -/
  visible : ∀ e ∈ tbl, e ≠ blank → e.2 >>> 64 ≠ 0
  apart : tbl.Pairwise fun p q => sepB p q = true ∨ lookB tbl p q = true ∨ lookB tbl q p = true

theorem ink_right {tbl : List Entry} {blank : Entry} (h : Readable tbl blank) {e : Entry} (he : e ∈ tbl) {x y : Int}
    (hi : Ink e x y) : x ≤ e.1 := by
  by_contra hc
  have h1 := hi.2.2
  have h2 := h.right e he
  have : e.2 < 2 ^ ((x + 1).toNat * 32 + (y + 24).toNat) :=
    Nat.lt_of_lt_of_le h2 (Nat.pow_le_pow_right (by decide) (by omega))
  rw [Nat.testBit_lt_two_pow this] at h1
  cases h1

theorem ink_visible {tbl : List Entry} {blank : Entry} (h : Readable tbl blank) {e : Entry} (he : e ∈ tbl)
    (hb : e ≠ blank) : ∃ x y, 1 ≤ x ∧ Ink e x y := by
  obtain ⟨k, hk⟩ := exists_bit (h.visible e he hb)
  rw [Nat.testBit_shiftRight] at hk
  obtain ⟨x, y, h1, -, h3, h4⟩ := pixel_of_bit (64 + k) (by omega)
  exact ⟨x, y, h1, by omega, h3, by rw [h4]; exact hk⟩

theorem ink_blank {tbl : List Entry} {blank : Entry} (h : Readable tbl blank) (x y : Int) : ¬ Ink blank x y := by
  rintro ⟨-, -, h3⟩
  rw [h.empty, Nat.zero_testBit] at h3
  cases h3

theorem inks_blanks {tbl : List Entry} {blank : Entry} (h : Readable tbl blank) (n : Nat) (x y : Int) :
    ¬ Inks (List.replicate n blank) x y := by
  induction n generalizing x with
  | zero => exact id
  | succ n ih =>
    rw [List.replicate_succ]
    rintro (h1 | h1)
    · exact ink_blank h _ _ h1
    · exact ih _ h1

/-- A text which is not blank shows something behind its start. -/
theorem inks_visible {tbl : List Entry} {blank : Entry} (h : Readable tbl blank) (t : List Entry) (ht : ∀ e ∈ t, e ∈ tbl) :
    (∃ n, t = List.replicate n blank) ∨ ∃ x y, 1 ≤ x ∧ Inks t x y := by
  induction t with
  | nil => exact .inl ⟨0, rfl⟩
  | cons e es ih =>
    by_cases he : e = blank
    · rcases ih (fun e' h' => ht e' (List.mem_cons_of_mem _ h')) with ⟨n, hn⟩ | ⟨x, y, h1, h2⟩
      · exact .inl ⟨n + 1, by rw [hn, he, List.replicate_succ]⟩
      · refine .inr ⟨x + e.1, y, by omega, .inr ?_⟩
        rwa [show x + (e.1 : Int) - e.1 = x by omega]
    · obtain ⟨x, y, h1, h2⟩ := ink_visible h (ht e (List.mem_cons_self ..)) he
      exact .inr ⟨x, y, h1, .inl h2⟩

/-- What is already there does not reach behind the pen. -/
def Behind (U : Int → Int → Prop) : Prop := ∀ x y, U x y → x ≤ 0

theorem sep_contra {p q : Entry} (h : sepB p q = true) (r s : List Entry) (U : Int → Int → Prop) (hU : Behind U)
    (he : ∀ x y, U x y ∨ Inks (p :: r) x y ↔ U x y ∨ Inks (q :: s) x y) : False := by
  obtain ⟨x, y, h1, h2, h3⟩ := window_pixel p.1 q.1 _ h
  have hu : ¬ U x y := fun hh => by have := hU x y hh; omega
  have hr : ¬ Inks r (x - p.1) y := fun hh => by have := inks_lower _ _ _ hh; omega
  have hs : ¬ Inks s (x - q.1) y := fun hh => by have := inks_lower _ _ _ hh; omega
  have := he x y
  simp only [Inks, hu, hr, hs, false_or, or_false] at this
  exact (iff_not_self (this.symm.trans h3)).elim

theorem look_contra {tbl : List Entry} {p q : Entry} (h : lookB tbl p q = true) (r s : List Entry) (hs : ∀ e ∈ s, e ∈ tbl)
    (U : Int → Int → Prop) (hU : Behind U)
    (he : ∀ x y, U x y ∨ Inks (p :: r) x y ↔ U x y ∨ Inks (q :: s) x y) : False := by
  unfold lookB at h
  rw [Bool.and_eq_true] at h
  cases s with
  | nil =>
    obtain ⟨k, hk⟩ := exists_bit (n := (p.2 ^^^ (p.2 &&& q.2)) >>> 64) (by simpa using h.1)
    rw [Nat.testBit_shiftRight, Nat.testBit_xor, Nat.testBit_and] at hk
    obtain ⟨x, y, h1, -, h3, h4⟩ := pixel_of_bit (64 + k) (by omega)
    have hu : ¬ U x y := fun hh => by have := hU x y hh; omega
    have hp : p.2.testBit (64 + k) = true := by
      revert hk; cases p.2.testBit (64 + k) <;> simp
    have hq : ¬ q.2.testBit (64 + k) = true := by
      revert hk; rw [hp]; cases q.2.testBit (64 + k) <;> simp
    have := he x y
    simp only [Inks, hu, false_or, or_false] at this
    have h5 := this.1 (.inl ⟨by omega, h3, by rw [h4]; exact hp⟩)
    exact hq (by have := h5.2.2; rwa [h4] at this)
  | cons c s =>
    have hc := List.all_eq_true.1 h.2 c (hs c (List.mem_cons_self ..))
    obtain ⟨x, y, h1, h2, h3⟩ := window_pixel p.1 0 _ hc
    rw [ink_union q c 0] at h3
    have hu : ¬ U x y := fun hh => by have := hU x y hh; omega
    have hr : ¬ Inks r (x - p.1) y := fun hh => by have := inks_lower _ _ _ hh; omega
    have hs : ¬ Inks s (x - q.1 - c.1) y := fun hh => by have := inks_lower _ _ _ hh; omega
    have := he x y
    simp only [Inks, hu, hr, hs, false_or, or_false] at this
    exact (iff_not_self (this.symm.trans h3)).elim

/-- Glyphs which show the same are the same, but for blanks at the end. -/
theorem inks_decode {tbl : List Entry} {blank : Entry} (h : Readable tbl blank) (s t : List Entry)
    (hs : ∀ e ∈ s, e ∈ tbl) (ht : ∀ e ∈ t, e ∈ tbl) (U : Int → Int → Prop) (hU : Behind U)
    (he : ∀ x y, U x y ∨ Inks s x y ↔ U x y ∨ Inks t x y) :
    ∃ u m n, s = u ++ List.replicate m blank ∧ t = u ++ List.replicate n blank := by
  induction s generalizing t U with
  | nil =>
    rcases inks_visible h t ht with ⟨n, hn⟩ | ⟨x, y, h1, h2⟩
    · exact ⟨[], 0, n, rfl, hn⟩
    · rcases (he x y).2 (.inr h2) with h3 | h3
      · have := hU x y h3; omega
      · exact h3.elim
  | cons a r ih =>
    cases t with
    | nil =>
      rcases inks_visible h (a :: r) hs with ⟨n, hn⟩ | ⟨x, y, h1, h2⟩
      · exact ⟨[], n, 0, hn, rfl⟩
      · rcases (he x y).1 (.inr h2) with h3 | h3
        · have := hU x y h3; omega
        · exact h3.elim
    | cons b s =>
      have ha := hs a (List.mem_cons_self ..)
      have hb := ht b (List.mem_cons_self ..)
      have hr := fun e h' => hs e (List.mem_cons_of_mem a h')
      have hs' := fun e h' => ht e (List.mem_cons_of_mem b h')
      by_cases hab : a = b
      · subst hab
        obtain ⟨u, m, n, h1, h2⟩ := ih s hr hs' (fun x y => U (x + a.1) y ∨ Ink a (x + a.1) y)
          (by
            intro x y hh
            rcases hh with hh | hh
            · have := hU _ _ hh; omega
            · have := ink_right h ha hh; omega)
          (by
            intro x y
            have := he (x + a.1) y
            simp only [Inks, show x + (a.1 : Int) - a.1 = x by omega] at this
            tauto)
        exact ⟨a :: u, m, n, by rw [h1]; rfl, by rw [h2]; rfl⟩
      · exfalso
        have : Std.Symm fun p q => sepB p q = true ∨ lookB tbl p q = true ∨ lookB tbl q p = true := by
          constructor
          intro p q hpq
          rcases hpq with h1 | h1 | h1
          · left; unfold sepB at *; rwa [Nat.xor_comm, Nat.min_comm]
          · exact .inr (.inr h1)
          · exact .inr (.inl h1)
        rcases h.apart.forall ha hb hab with h1 | h1 | h1
        · exact sep_contra h1 r s U hU he
        · exact look_contra h1 r s hs' U hU he
        · exact look_contra h1 s r hr U hU (fun x y => (he x y).symm)

end Verif.Text
