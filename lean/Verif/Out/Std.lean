import Verif.Out.Full
/-!
# C116: the text buffer compared with a standard string stream

The README says of `BufferedOut` that "it behaves like simplified std::string_stream".  The specification here is the
formatted output of a `std::ostringstream` in the C locale, for insertions in default alignment and `std::fixed` floats;
it is compared with the buffer operation by operation and for whole programs.
-/
namespace Verif.Out

/-! ## Specification: `std::ostringstream` -/

/-- Padding on the left up to the width. -/
def padded (fill : Byte) (width : Int) (s : List Byte) : List Byte := List.replicate (width - s.length).toNat fill ++ s

/-- `N` is `a / b` rounded to the nearest integer, ties to even. -/
def Rounded (N a b : Nat) : Prop :=
  2 * ((N * b : Int) - a).natAbs ≤ b ∧ (2 * ((N * b : Int) - a).natAbs = b → N % 2 = 0)

/-- The text of a float in `std::fixed` notation with `p` decimals: the sign bit, then the value rounded to `p` decimals. -/
def FixedText (bits : BitVec 32) (p : Nat) (s : List Byte) : Prop :=
  ∃ mag N d ds, magOfBits bits = some mag ∧ Rounded N (mag * 10 ^ p) (2 ^ 149) ∧ IsDec d (N / 10 ^ p : Nat) ∧
    ds.length = p ∧ parseNatAux 0 ds = some (N % 10 ^ p) ∧
    s = (if bits.msb then [45] else []) ++ d ++ (if p = 0 then [] else 46 :: ds)

/-- What an insertion does to the text and settings of a stream; every formatted insertion uses the width and resets it.
`byte` is the insertion of an `unsigned char`, a character for the standard; byte views have no counterpart; `clear` is
`str("")` with the settings of a new buffer.  A negative precision counts as 6. -/
def StdEffect (t t' : Shown) : FOp → Prop
  | .text p => t' = { t with text := t.text ++ padded t.fill t.width p.chars, width := 0 }
  | .int n => ∃ d, IsDec d n ∧ t' = { t with text := t.text ++ padded t.fill t.width d, width := 0 }
  | .byte b => t' = { t with text := t.text ++ padded t.fill t.width [b], width := 0 }
  | .bytes _ => False
  | .float bits => ∃ s, FixedText bits (if t.precision < 0 then 6 else t.precision.toNat) s ∧
      t' = { t with text := t.text ++ padded t.fill t.width s, width := 0 }
  | .precision p => t' = { t with precision := p }
  | .width w => t' = { t with width := w }
  | .fill c => t' = { t with fill := c }
  | .clear => t' = ⟨[], 0, 0, 32⟩

/-- The same text and the same settings; all widths which are not positive mean the same. -/
def Related (s t : Shown) : Prop :=
  s.text = t.text ∧ s.precision = t.precision ∧ s.fill = t.fill ∧ (s.width = t.width ∨ s.width ≤ 0 ∧ t.width ≤ 0)

/-- When a buffer of `cap` characters does the same as the stream: texts without a pending width which fit; integers
not longer than the pending width which fit with it; floats without a pending width which are rounded down by the stream,
are not negative with an integer part of 0, and fit (all for at most 21 binary places, as all floats from 4 on have). -/
def Alike (cap : Nat) (t : Shown) : FOp → Prop
  | .text p => t.width ≤ 0 ∧ t.text.length + p.chars.length ≤ cap
  | .int n => ∃ d, IsDec d n ∧ (t.width ≤ 0 ∨ d.length ≤ t.width) ∧ t.text.length + d.length ≤ cap ∧
      t.text.length + t.width ≤ cap
  | .byte _ => False
  | .bytes _ => False
  | .float bits => t.width ≤ 0 ∧ 0 ≤ t.precision ∧ t.precision < 2 ^ 31 ∧ ∃ mag d, magOfBits bits = some mag ∧
      2 ^ 128 ∣ mag % 2 ^ 149 ∧
      Rounded (mag * 10 ^ t.precision.toNat / 2 ^ 149) (mag * 10 ^ t.precision.toNat) (2 ^ 149) ∧
      (bits.msb = true → 2 ^ 149 ≤ mag) ∧
      -(2 ^ 31) ≤ intPart bits.msb mag ∧ intPart bits.msb mag < 2 ^ 31 ∧ IsDec d (intPart bits.msb mag) ∧
      t.text.length + d.length + (if t.precision = 0 then 0 else t.precision.toNat + 1) ≤ cap
  | _ => True

/-- A program during which the buffer is like the stream all the time. -/
inductive AlikeRun (cap : Nat) : Shown → List FOp → Shown → Prop where
  | nil (t : Shown) : AlikeRun cap t [] t
  | step (t t1 t2 : Shown) (op : FOp) (ops : List FOp) : Alike cap t op → StdEffect t t1 op → AlikeRun cap t1 ops t2 →
      AlikeRun cap t (op :: ops) t2

/-! ## Proofs -/

theorem padded_nonpos {fill : Byte} {w : Int} (h : w ≤ 0) (s : List Byte) : padded fill w s = s := by
  unfold padded
  rw [show (w - s.length).toNat = 0 by omega]
  rfl

theorem padded_length (fill : Byte) (w : Int) (s : List Byte) : ((padded fill w s).length : Int) = max w s.length := by
  simp only [padded, List.length_append, List.length_replicate]
  omega

theorem digits_unique {acc acc' v : Nat} {cs ds : List Byte} (hl : cs.length = ds.length)
    (h1 : parseNatAux acc cs = some v) (h2 : parseNatAux acc' ds = some v) : acc = acc' ∧ cs = ds := by
  induction cs generalizing acc acc' ds with
  | nil =>
    cases ds with
    | nil => simp only [parseNatAux, Option.some.injEq] at h1 h2; exact ⟨by omega, rfl⟩
    | cons => simp at hl
  | cons c cs ih =>
    cases ds with
    | nil => simp at hl
    | cons e ds =>
      rw [parseNatAux] at h1 h2
      cases hc : digitVal c with
      | none => rw [hc] at h1; cases h1
      | some x =>
        cases he : digitVal e with
        | none => rw [he] at h2; cases h2
        | some y =>
          rw [hc] at h1
          rw [he] at h2
          obtain ⟨i1, i2⟩ := ih (by simpa using hl) h1 h2
          obtain ⟨x1, x2⟩ := digitVal_inv hc
          obtain ⟨y1, y2⟩ := digitVal_inv he
          have : x = y := by omega
          exact ⟨by omega, by rw [x1, y1, this, i2]⟩

theorem isDec_eq {s t : List Byte} {n : Int} (h : IsDec s n) (h' : IsDec t n) : s = t := by
  rw [isDec_unique h, isDec_unique h']

theorem isDec_neg {d d' : List Byte} {k : Nat} (hk : 0 < k) (h : IsDec d (k : Int)) (h' : IsDec d' (-(k : Int))) :
    d' = 45 :: d := by
  rw [isDec_unique h, isDec_unique h']
  unfold intDec
  rw [if_pos (by omega), if_neg (by omega)]
  simp


/-! ## The specification determines the text -/

theorem rounded_unique {N M a b : Nat} (hb : 0 < b) (h1 : Rounded N a b) (h2 : Rounded M a b) : N = M := by
  obtain ⟨n1, n2⟩ := h1
  obtain ⟨m1, m2⟩ := h2
  by_contra hne
  wlog hlt : N < M generalizing N M
  · exact this m1 m2 n1 n2 (Ne.symm hne) (by omega)
  have e : (M : Int) * b - N * b = (M - N : Nat) * b := by rw [Nat.cast_sub hlt.le]; ring
  have h1 : b ≤ (M - N) * b := Nat.le_mul_of_pos_left b (by omega)
  have h3 : (((M - N : Nat) * b : Nat) : Int) = (M - N : Nat) * b := by push_cast; rfl
  rw [← h3] at e
  by_cases h2 : M - N = 1
  · have := n2 (by rw [h2] at e; omega)
    have := m2 (by rw [h2] at e; omega)
    omega
  · have : 2 * b ≤ (M - N) * b := Nat.mul_le_mul_right _ (by omega)
    omega

theorem rounded_exists (a b : Nat) (hb : 0 < b) : ∃ N, Rounded N a b := by
  have e := Nat.div_add_mod a b
  have hr := Nat.mod_lt a hb
  have e1 : ((a / b : Nat) : Int) * b = (b * (a / b) : Nat) := by push_cast; ring
  have e2 : ((a / b + 1 : Nat) : Int) * b = (b * (a / b) : Nat) + b := by push_cast; ring
  by_cases h : 2 * (a % b) < b ∨ 2 * (a % b) = b ∧ a / b % 2 = 0
  · refine ⟨a / b, ?_, ?_⟩ <;> rw [e1]
    · omega
    · intro _; omega
  · refine ⟨a / b + 1, ?_, ?_⟩ <;> rw [e2]
    · omega
    · intro _; omega

/-- A float has one text with `p` decimals. -/
theorem fixedText_unique {bits : BitVec 32} {p : Nat} {s s' : List Byte} (h : FixedText bits p s) (h' : FixedText bits p s') :
    s = s' := by
  obtain ⟨mag, N, d, ds, h1, h2, h3, h4, h5, rfl⟩ := h
  obtain ⟨mag', N', d', ds', g1, g2, g3, g4, g5, rfl⟩ := h'
  rw [h1] at g1
  cases g1
  cases rounded_unique (by positivity) h2 g2
  rw [isDec_eq h3 g3, (digits_unique (h4.trans g4.symm) h5 g5).2]

theorem digits_exist (p N : Nat) (h : N < 10 ^ p) : ∃ ds : List Byte, ds.length = p ∧ parseNatAux 0 ds = some N := by
  induction p generalizing N with
  | zero => exact ⟨[], rfl, by simp at h; simp [parseNatAux, h]⟩
  | succ p ih =>
    obtain ⟨ds, h1, h2⟩ := ih (N / 10) (by rw [Nat.pow_succ] at h; omega)
    refine ⟨ds ++ [BitVec.ofNat 8 (48 + N % 10)], by simp [h1], ?_⟩
    rw [parseNatAux_append, h2]
    simp only [Option.bind_some, parseNatAux]
    rw [digitVal_ofNat _ (by omega)]
    simp only [Option.some.injEq]
    omega

theorem fixedText_exists {bits : BitVec 32} {mag : Nat} (h : magOfBits bits = some mag) (p : Nat) : ∃ s, FixedText bits p s := by
  obtain ⟨N, hN⟩ := rounded_exists (mag * 10 ^ p) (2 ^ 149) (by positivity)
  obtain ⟨ds, h1, h2⟩ := digits_exist p (N % 10 ^ p) (Nat.mod_lt _ (by positivity))
  exact ⟨_, mag, N, intDec (N / 10 ^ p : Nat), ds, h, hN, isDec_intDec _, h1, h2, rfl⟩

/-- The specification says what the stream shows after every insertion except byte views and infinite floats, and it
says it uniquely. -/
theorem stdEffect_unique {t t1 t2 : Shown} {op : FOp} (h1 : StdEffect t t1 op) (h2 : StdEffect t t2 op) : t1 = t2 := by
  cases op with
  | int n =>
    obtain ⟨d, hd, rfl⟩ := h1
    obtain ⟨d', hd', rfl⟩ := h2
    rw [isDec_eq hd hd']
  | float bits =>
    obtain ⟨s, hs, rfl⟩ := h1
    obtain ⟨s', hs', rfl⟩ := h2
    rw [fixedText_unique hs hs']
  | bytes bs => exact h1.elim
  | _ => exact h1.trans h2.symm

theorem stdEffect_exists (t : Shown) (op : FOp) (hb : ∀ bs, op ≠ .bytes bs)
    (hf : ∀ bits, op = .float bits → magOfBits bits ≠ none) : ∃ t', StdEffect t t' op := by
  cases op with
  | int n => exact ⟨_, intDec n, isDec_intDec n, rfl⟩
  | float bits =>
    obtain ⟨mag, hm⟩ := Option.ne_none_iff_exists'.1 (hf bits rfl)
    obtain ⟨s, hs⟩ := fixedText_exists hm (if t.precision < 0 then 6 else t.precision.toNat)
    exact ⟨_, s, hs, rfl⟩
  | bytes bs => exact absurd rfl (hb bs)
  | _ => exact ⟨_, rfl⟩

/-! ## Operation by operation -/

theorem split_mag (mag p : Nat) :
    mag * 10 ^ p / 2 ^ 149 / 10 ^ p = mag / 2 ^ 149 ∧
    mag * 10 ^ p / 2 ^ 149 % 10 ^ p = mag % 2 ^ 149 * 10 ^ p / 2 ^ 149 := by
  have hsplit : mag * 10 ^ p = 2 ^ 149 * (mag / 2 ^ 149 * 10 ^ p) + mag % 2 ^ 149 * 10 ^ p := by
    conv_lhs => rw [← Nat.div_add_mod mag (2 ^ 149)]
    ring
  have hlt : mag % 2 ^ 149 * 10 ^ p / 2 ^ 149 < 10 ^ p := by
    rw [Nat.div_lt_iff_lt_mul (by positivity), Nat.mul_comm]
    exact Nat.mul_lt_mul_of_pos_left (Nat.mod_lt _ (by positivity)) (by positivity)
  have hN : mag * 10 ^ p / 2 ^ 149 = mag / 2 ^ 149 * 10 ^ p + mag % 2 ^ 149 * 10 ^ p / 2 ^ 149 := by
    conv_lhs => rw [hsplit]
    rw [Nat.mul_add_div (by positivity)]
  rw [hN]
  constructor
  · rw [Nat.mul_comm, Nat.mul_add_div (by positivity), Nat.div_eq_of_lt hlt, Nat.add_zero]
  · rw [Nat.mul_comm, Nat.mul_add_mod, Nat.mod_eq_of_lt hlt]

theorem isDec_head {d : List Byte} {k : Nat} (h : IsDec d (k : Int)) : ∀ r, d ≠ 45 :: r := by
  rintro r rfl
  have hp := h.1
  simp only [parseInt, if_true] at hp
  split at hp
  · cases hp
  · obtain ⟨v, hv, hv'⟩ := Option.map_eq_some_iff.1 hp
    have hk : k = 0 := by omega
    subst hk
    have := isDec_unique h
    rw [show intDec ((0 : Nat) : Int) = [48] by decide] at this
    exact absurd (List.cons.inj this).1 (by decide)

/-- The float printed by the buffer is the one of the stream iff the stream rounds it down and the sign is printed. -/
theorem float_same_iff {bits : BitVec 32} {p mag : Nat} {d ds s : List Byte}
    (hmag : magOfBits bits = some mag) (h21 : 2 ^ 128 ∣ mag % 2 ^ 149)
    (hd : IsDec d (intPart bits.msb mag)) (hds : Decimals (mag % 2 ^ 149) p ds) (hs : FixedText bits p s) :
    d ++ (if p = 0 then [] else 46 :: ds) = s ↔
      Rounded (mag * 10 ^ p / 2 ^ 149) (mag * 10 ^ p) (2 ^ 149) ∧ (bits.msb = true → 2 ^ 149 ≤ mag) := by
  obtain ⟨mag', N, e, es, h1, h2, h3, h4, h5, rfl⟩ := hs
  rw [hmag] at h1
  cases h1
  obtain ⟨hdiv, hmod⟩ := split_mag mag p
  obtain ⟨hl, M, hM, -, -, hMe⟩ := hds
  rw [hMe h21, ← hmod] at hM
  constructor
  · intro heq
    have hll : (if p = 0 then ([] : List Byte) else 46 :: ds).length = (if p = 0 then ([] : List Byte) else 46 :: es).length := by
      split <;> simp [hl, h4]
    obtain ⟨e1, e2⟩ := List.append_inj' heq hll
    have hdig : ds = es := by
      by_cases hp : p = 0
      · subst hp
        rw [List.length_eq_zero_iff.1 hl, List.length_eq_zero_iff.1 h4]
      · rw [if_neg hp, if_neg hp] at e2
        exact (List.cons.inj e2).2
    subst hdig
    rw [hM] at h5
    have hm : N % 10 ^ p = mag * 10 ^ p / 2 ^ 149 % 10 ^ p := (Option.some.inj h5).symm
    unfold intPart at hd
    cases hb : bits.msb with
    | false =>
      rw [hb] at hd e1
      simp only [Bool.false_eq_true, if_false, List.nil_append] at hd e1
      subst e1
      have hq : N / 10 ^ p = mag * 10 ^ p / 2 ^ 149 / 10 ^ p := by
        have := hd.1.symm.trans h3.1
        rw [hdiv]
        simp only [Option.some.injEq] at this
        omega
      have hN : N = mag * 10 ^ p / 2 ^ 149 := by
        rw [← Nat.div_add_mod N (10 ^ p), hq, hm, Nat.div_add_mod]
      rw [← hN]
      exact ⟨h2, by simp⟩
    | true =>
      rw [hb] at hd e1
      simp only [if_true] at hd e1
      have hq0 : 0 < mag / 2 ^ 149 := by
        rcases Nat.eq_zero_or_pos (mag / 2 ^ 149) with h0 | h0
        · rw [h0] at hd
          exact absurd e1 (isDec_head (k := 0) (by simpa using hd) _)
        · exact h0
      have hq : N / 10 ^ p = mag * 10 ^ p / 2 ^ 149 / 10 ^ p := by
        have h6 := isDec_neg hq0 (isDec_intDec _) hd
        rw [e1] at h6
        have h7 := (List.cons.inj h6).2
        simp only [List.append_eq, List.nil_append] at h7
        rw [h7] at h3
        have := h3.1.symm.trans (isDec_intDec _).1
        rw [hdiv]
        simp only [Option.some.injEq] at this
        omega
      have hN : N = mag * 10 ^ p / 2 ^ 149 := by
        rw [← Nat.div_add_mod N (10 ^ p), hq, hm, Nat.div_add_mod]
      rw [← hN]
      refine ⟨h2, fun _ => ?_⟩
      exact (Nat.div_pos_iff.1 hq0).2
  · rintro ⟨hr, hneg⟩
    have hN := rounded_unique (by positivity) h2 hr
    subst hN
    have hdig := (digits_unique (hl.trans h4.symm) hM h5).2
    rw [hdiv] at h3
    congr 1
    · unfold intPart at hd
      cases hb : bits.msb with
      | false =>
        rw [hb] at hd
        simp only [Bool.false_eq_true, if_false, List.nil_append] at hd ⊢
        exact isDec_eq hd h3
      | true =>
        rw [hb] at hd
        simp only [if_true] at hd ⊢
        exact isDec_neg (Nat.div_pos (hneg hb) (by positivity)) h3 hd
    · rw [hdig]

theorem precision_mod {p : Int} (h0 : 0 ≤ p) (h1 : p < 2 ^ 31) : p % 2 ^ 32 = p := by omega

theorem alike_step {cap : Nat} {s t : Shown} {op : FOp} (hr : Related s t) (h : Alike cap t op) :
    ¬ Undefined cap s op ∧ ∀ s' t', Effect cap s s' op → StdEffect t t' op → Related s' t' := by
  obtain ⟨ht, hp, hf, hw⟩ := hr
  cases op with
  | text p =>
    refine ⟨fun hu => hu, ?_⟩
    rintro s' t' rfl rfl
    obtain ⟨h1, h2⟩ := h
    refine ⟨?_, hp, hf, Or.inr ⟨?_, Int.le_refl _⟩⟩
    · simp only
      rw [padded_nonpos h1, List.take_of_length_le (by rw [ht, List.length_append]; exact h2), ht]
    · simp only; omega
  | int n =>
    obtain ⟨d, hd, h1, h2, h3⟩ := h
    have hwle : s.width ≤ 0 ∨ s.width = t.width := by rcases hw with h | h; exacts [Or.inr h, Or.inl h.1]
    constructor
    · rintro ⟨e, he, h4, h5, h6⟩
      rw [isDec_eq he hd] at h4 h5
      rw [ht] at h6
      rcases hwle with h | h <;> omega
    · rintro s' t' ⟨e, he, hs'⟩ ⟨e', he', rfl⟩
      rw [isDec_eq he hd, ht, if_neg (by omega)] at hs'
      rw [isDec_eq he' hd]
      by_cases hs0 : s.width ≤ 0
      · have ht0 : t.width ≤ 0 := by omega
        rw [if_pos hs0] at hs'
        subst hs'
        refine ⟨?_, hp, hf, Or.inr ⟨hs0, Int.le_refl _⟩⟩
        simp only
        rw [padded_nonpos ht0]
      · have hwe : s.width = t.width := by omega
        rw [if_neg hs0] at hs'
        rw [hwe] at hs' hs0
        by_cases hle : t.width ≤ d.length
        · rw [if_pos hle] at hs'
          subst hs'
          refine ⟨?_, hp, hf, Or.inl rfl⟩
          simp only
          rw [List.take_of_length_le (by omega), padded, show (t.width - d.length).toNat = 0 by omega]
          rfl
        · rw [if_neg hle] at hs'
          subst hs'
          refine ⟨?_, hp, hf, Or.inl rfl⟩
          simp only
          rw [padded, hf, List.append_assoc, show (t.width - d.length).toNat = t.width.toNat - d.length by omega]
  | byte b => exact h.elim
  | bytes bs => exact h.elim
  | float bits =>
    obtain ⟨h1, h2, h3, mag, d, h4, h5, h6, h6', h7, h8, h9, h10⟩ := h
    constructor
    · intro hu
      exact hu mag h4 ⟨h7, h8⟩
    · rintro s' t' ⟨mag', d', a1, a2, a3⟩ ⟨x, hx, rfl⟩
      rw [h4] at a1
      cases a1
      rw [if_neg (by omega)] at hx
      rw [isDec_eq a2 h9, ht, if_pos (by split at h10 <;> omega), hp, precision_mod h2 h3] at a3
      obtain ⟨ds, hds, rfl⟩ := a3
      have key := (float_same_iff h4 h5 h9 hds hx).2 ⟨h6, h6'⟩
      have hif : (if t.precision.toNat = 0 then ([] : List Byte) else 46 :: ds) = (if t.precision = 0 then [] else 46 :: ds) := by
        by_cases hz : t.precision = 0
        · rw [if_pos hz, if_pos (by omega)]
        · rw [if_neg hz, if_neg (by omega)]
      rw [hif] at key
      refine ⟨?_, rfl, hf, Or.inr ⟨?_, Int.le_refl _⟩⟩
      · simp only
        rw [padded_nonpos h1, List.append_assoc, key, List.take_of_length_le]
        rw [← key]
        have := hds.1
        by_cases hz : t.precision = 0
        · rw [if_pos hz] at h10
          simp only [hz, if_true, List.append_nil, List.length_append]; omega
        · rw [if_neg hz] at h10
          simp only [hz, if_false, List.length_append, List.length_cons]; omega
      · simp only; omega
  | precision p => exact ⟨fun hu => hu, by rintro s' t' rfl rfl; exact ⟨ht, rfl, hf, hw⟩⟩
  | width w => exact ⟨fun hu => hu, by rintro s' t' rfl rfl; exact ⟨ht, hp, hf, Or.inl rfl⟩⟩
  | fill c => exact ⟨fun hu => hu, by rintro s' t' rfl rfl; exact ⟨ht, hp, rfl, hw⟩⟩
  | clear => exact ⟨fun hu => hu, by rintro s' t' rfl rfl; exact ⟨rfl, rfl, rfl, Or.inl rfl⟩⟩

theorem natDecF_length_mono (f a b : Nat) (h : a ≤ b) (hf : b < f) : (natDecF f a).length ≤ (natDecF f b).length := by
  induction f generalizing a b with
  | zero => omega
  | succ f ih =>
    rw [natDecF, natDecF]
    by_cases hb : b < 10
    · rw [if_pos hb, if_pos (by omega)]; rfl
    · rw [if_neg hb]
      by_cases ha : a < 10
      · rw [if_pos ha]; simp
      · rw [if_neg ha]
        have := ih (a / 10) (b / 10) (by omega) (by omega)
        simp only [List.length_append, List.length_singleton]
        omega

theorem natDec_length_mono {a b : Nat} (h : a ≤ b) : (natDec a).length ≤ (natDec b).length := by
  unfold natDec
  rw [natDecF_fuel (a + 1) (b + 1) a (by omega) (by omega)]
  exact natDecF_length_mono _ _ _ h (by omega)

theorem rounded_ge {N a b : Nat} (hb : 0 < b) (h : Rounded N a b) : a / b ≤ N := by
  obtain ⟨h1, -⟩ := h
  have e := Nat.div_add_mod a b
  have hr := Nat.mod_lt a hb
  by_contra hc
  have : (N + 1) * b ≤ a / b * b := Nat.mul_le_mul_right b (by omega)
  have e1 : (N + 1) * b = N * b + b := by ring
  have e2 : a / b * b = b * (a / b) := Nat.mul_comm _ _
  have e3 : ((N : Int) * b) = (N * b : Nat) := by push_cast; rfl
  rw [e3] at h1
  omega

/-- The text of the stream is at least as long as the integer part and the decimals. -/
theorem fixedText_length {bits : BitVec 32} {p mag : Nat} {d s : List Byte} (hmag : magOfBits bits = some mag)
    (hd : IsDec d (intPart bits.msb mag)) (hs : FixedText bits p s) :
    d.length + (if p = 0 then 0 else p + 1) ≤ s.length := by
  obtain ⟨mag', N, e, es, h1, h2, h3, h4, h5, rfl⟩ := hs
  rw [hmag] at h1
  cases h1
  have hge : mag / 2 ^ 149 ≤ N / 10 ^ p := by
    rw [← (split_mag mag p).1]
    exact Nat.div_le_div_right (rounded_ge (by positivity) h2)
  have hle := natDec_length_mono hge
  have hdl : d.length ≤ (if bits.msb then [(45 : Byte)] else []).length + (natDec (mag / 2 ^ 149)).length := by
    rw [isDec_unique hd]
    unfold intDec intPart
    cases bits.msb with
    | false => simp only [Bool.false_eq_true, if_false, Int.natAbs_natCast]; rw [if_neg (by omega)]; simp
    | true =>
      simp only [if_true, Int.natAbs_neg, Int.natAbs_natCast]
      split
      · simp; omega
      · simp
  have hel : e.length = (natDec (N / 10 ^ p)).length := by
    rw [isDec_unique h3]
    unfold intDec
    rw [if_neg (by omega), Int.natAbs_natCast]
  have : (if p = 0 then ([] : List Byte) else 46 :: es).length = if p = 0 then 0 else p + 1 := by
    split <;> simp [h4]
  simp only [List.length_append, this, hel]
  omega

/-- Except for floats of many binary places and byte views nothing else is alike: the operation is undefined, or text or
settings differ. -/
theorem not_alike {cap : Nat} {s t : Shown} {op : FOp} (hr : Related s t) (hcap : t.text.length ≤ cap)
    (hop : ∀ bits, op = .float bits → 0 ≤ t.precision ∧ t.precision < 2 ^ 31 ∧
      ∀ mag, magOfBits bits = some mag → 2 ^ 128 ∣ mag % 2 ^ 149)
    (h : ¬ Alike cap t op) (hu : ¬ Undefined cap s op) {s' t' : Shown} (he : Effect cap s s' op) (hs : StdEffect t t' op) :
    ¬ Related s' t' := by
  obtain ⟨ht, hp, hf, hw⟩ := hr
  rintro ⟨gt, gp, gf, gw⟩
  cases op with
  | text p =>
    subst he hs
    simp only at gt gw
    apply h
    have hw0 : t.width ≤ 0 := by omega
    refine ⟨hw0, ?_⟩
    rw [padded_nonpos hw0] at gt
    have := congrArg List.length gt
    simp only [List.length_take, List.length_append] at this
    omega
  | int n =>
    obtain ⟨d, hd, hs'⟩ := he
    obtain ⟨d', hd', rfl⟩ := hs
    cases isDec_eq hd' hd
    have hlen := congrArg (fun l => (List.length l : Int)) gt
    simp only [List.length_append, Int.natCast_add, padded_length] at hlen
    have hdpos : 0 < d.length := by rw [isDec_unique hd]; exact intDec_length_pos n
    have htl : s.text.length = t.text.length := by rw [ht]
    by_cases hroom : cap < s.text.length + d.length
    · rw [if_pos hroom] at hs'
      subst hs'
      omega
    · rw [if_neg hroom] at hs'
      by_cases hs0 : s.width ≤ 0
      · exact h ⟨d, hd, Or.inl (by omega), by omega, by omega⟩
      · rw [if_neg hs0] at hs'
        by_cases hle : s.width ≤ d.length
        · rw [if_pos hle] at hs'
          subst hs'
          simp only [List.length_append, List.length_take] at hlen
          exact h ⟨d, hd, Or.inr (by omega), by omega, by omega⟩
        · by_cases hcap : (cap : Int) < s.text.length + s.width
          · exact hu ⟨d, hd, by omega, by omega, hcap⟩
          · exact h ⟨d, hd, Or.inr (by omega), by omega, by omega⟩
  | byte b =>
    obtain ⟨x, -, hx, rfl⟩ := he
    subst hs
    simp only at gt gw
    have hlen := congrArg (fun l => (List.length l : Int)) gt
    have htl : s.text.length = t.text.length := by rw [ht]
    simp only [List.length_append, Int.natCast_add, padded_length, List.length_singleton] at hlen
    omega
  | bytes bs => exact hs
  | float bits =>
    obtain ⟨hp0, hp1, h21⟩ := hop bits rfl
    obtain ⟨mag, d, h1, h2, h3⟩ := he
    obtain ⟨x, hx, rfl⟩ := hs
    rw [if_neg (by omega)] at hx
    have hfl := fixedText_length h1 h2 hx
    have hpif : (if t.precision.toNat = 0 then 0 else t.precision.toNat + 1) = (if t.precision = 0 then 0 else t.precision.toNat + 1) := by
      by_cases hz : t.precision = 0
      · rw [if_pos hz, if_pos (by omega)]
      · rw [if_neg hz, if_neg (by omega)]
    rw [hpif] at hfl
    have hlen := congrArg (fun l => (List.length l : Int)) gt
    simp only [List.length_append, Int.natCast_add, padded_length] at hlen
    have hcl : s'.text.length ≤ cap ∧ s'.width = s.width := by
      split at h3
      · obtain ⟨ds, -, rfl⟩ := h3
        exact ⟨by simp only [List.length_take]; omega, rfl⟩
      · obtain ⟨g, hg, rfl⟩ := h3
        have htl : s.text.length = t.text.length := by rw [ht]
        exact ⟨by simp only [List.length_append]; omega, rfl⟩
    have hw0 : t.width ≤ 0 := by
      have := hcl.2
      simp only at gw
      omega
    have hroom : t.text.length + d.length + (if t.precision = 0 then 0 else t.precision.toNat + 1) ≤ cap := by omega
    have hdl : s.text.length + d.length ≤ cap := by rw [ht]; omega
    rw [if_pos hdl, hp, precision_mod hp0 hp1] at h3
    obtain ⟨ds, hds, rfl⟩ := h3
    simp only at gt
    have hpl : (if t.precision = 0 then ([] : List Byte) else 46 :: ds).length = if t.precision = 0 then 0 else t.precision.toNat + 1 := by
      split <;> simp [hds.1]
    rw [padded_nonpos hw0, ht, List.take_of_length_le (by simp only [List.length_append, hpl]; omega), List.append_assoc] at gt
    have gt := List.append_cancel_left gt
    have hif : (if t.precision = 0 then ([] : List Byte) else 46 :: ds) = (if t.precision.toNat = 0 then [] else 46 :: ds) := by
      by_cases hz : t.precision = 0
      · rw [if_pos hz, if_pos (by omega)]
      · rw [if_neg hz, if_neg (by omega)]
    rw [hif] at gt
    obtain ⟨k1, k2⟩ := (float_same_iff h1 (h21 mag h1) h2 hds hx).1 gt
    have hr : -(2 ^ 31) ≤ intPart bits.msb mag ∧ intPart bits.msb mag < 2 ^ 31 := by
      by_contra hc
      apply hu
      intro m hm
      rw [h1] at hm
      cases hm
      exact hc
    exact h ⟨hw0, hp0, hp1, mag, d, h1, h21 mag h1, k1, k2, hr.1, hr.2, h2, hroom⟩
  | precision p => exact h trivial
  | width w => exact h trivial
  | fill c => exact h trivial
  | clear => exact h trivial

/-- **C116**: a program during which every operation is alike leaves the same text and the same settings in the buffer
as in a standard string stream, without undefined behaviour.  Missing: the operations which are not alike, where the
claim is false (`std_step_iff`, `std_differs`). -/
theorem like_stream_partial (junk : Nat → Byte) (o : BOut) (hwf : o.WF) (ops : List FOp) (hv : ∀ op ∈ ops, op.Valid)
    (t t' : Shown) (hr : Related o.shown t) (h : AlikeRun o.capacity t ops t') :
    ∃ o', o.ops junk ops = .ok o' ∧ o'.WF ∧ o'.text = t'.text ∧ Related o'.shown t' := by
  induction ops generalizing o t with
  | nil => cases h; exact ⟨o, rfl, hwf, hr.1, hr⟩
  | cons op ops ih =>
    cases h with
    | step _ t1 _ _ _ ha hs hrest =>
      obtain ⟨hu, hrel⟩ := alike_step hr ha
      obtain ⟨o1, h1, h2, h3, h4⟩ := (op_exact junk o hwf op (hv op (by simp))).2 hu
      rw [← h3] at hrest
      obtain ⟨o', g1, g2, g3, g4⟩ := ih o1 h2 (fun x hx => hv x (by simp [hx])) t1 (hrel _ _ h4 hs) hrest
      refine ⟨o', ?_, g2, g3, g4⟩
      rw [BOut.ops, h1]
      exact g1

/-- **C116**, exactly: for texts, integers, single bytes, settings and floats of at most 21 binary places the buffer does
what the stream does if and only if the operation is alike. -/
theorem std_step_iff (junk : Nat → Byte) (o : BOut) (hwf : o.WF) (op : FOp) (hv : op.Valid)
    (t t' : Shown) (hr : Related o.shown t) (hs : StdEffect t t' op)
    (hop : ∀ bits, op = .float bits → 0 ≤ t.precision ∧ t.precision < 2 ^ 31 ∧
      ∀ mag, magOfBits bits = some mag → 2 ^ 128 ∣ mag % 2 ^ 149) :
    (∃ o', o.op junk op = .ok o' ∧ Related o'.shown t') ↔ Alike o.capacity t op := by
  have hcap : t.text.length ≤ o.capacity := by
    rw [← hr.1]
    simp only [BOut.shown, BOut.text, List.length_take, BOut.capacity]
    omega
  constructor
  · rintro ⟨o', h1, h2⟩
    by_contra hna
    by_cases hu : Undefined o.capacity o.shown op
    · rw [(op_exact junk o hwf op hv).1 hu] at h1
      cases h1
    · obtain ⟨o2, g1, -, -, g4⟩ := (op_exact junk o hwf op hv).2 hu
      rw [g1] at h1
      cases h1
      exact not_alike hr hcap hop hna hu g4 hs h2
  · intro h
    obtain ⟨hu, hrel⟩ := alike_step hr h
    obtain ⟨o2, g1, -, -, g4⟩ := (op_exact junk o hwf op hv).2 hu
    exact ⟨o2, g1, hrel _ _ g4 hs⟩

/-- Floats from 4 on have at most 21 binary places. -/
theorem places_of_ge_four {bits : BitVec 32} {mag : Nat} (h : magOfBits bits = some mag) (h4 : 4 * 2 ^ 149 ≤ mag) :
    2 ^ 128 ∣ mag % 2 ^ 149 := by
  unfold magOfBits at h
  simp only at h
  split at h
  · cases h
  · split at h
    · cases h
      have := Nat.mod_lt bits.toNat (show 0 < 2 ^ 23 by norm_num)
      exfalso
      omega
    · cases h
      have hm := Nat.mod_lt bits.toNat (show 0 < 2 ^ 23 by norm_num)
      generalize bits.toNat / 2 ^ 23 % 256 - 1 = k at h4 ⊢
      have hk : 128 ≤ k := by
        by_contra hc
        have h1 : (2 : Nat) ^ k ≤ 2 ^ 127 := Nat.pow_le_pow_right (by norm_num) (by omega)
        have h2 : (2 ^ 23 + bits.toNat % 2 ^ 23) * 2 ^ k ≤ (2 ^ 24 - 1) * 2 ^ 127 :=
          Nat.mul_le_mul (by omega) h1
        omega
      have hd : 2 ^ 128 ∣ (2 ^ 23 + bits.toNat % 2 ^ 23) * 2 ^ k := Dvd.dvd.mul_left (Nat.pow_dvd_pow 2 hk) _
      exact (Nat.dvd_mod_iff (Nat.pow_dvd_pow 2 (by norm_num))).2 hd

/-- -0.5 with one decimal, and 2.75 with one decimal, a tie rounded to the even digit. -/
theorem fixedText_minusHalf : FixedText 0xBF000000 1 [45, 48, 46, 53] :=
  ⟨2 ^ 148, 5, [48], [53], by decide +kernel, by unfold Rounded; decide +kernel, isDec_intDec 0, rfl, rfl, by decide +kernel⟩

theorem fixedText_twoThreeQuarters : FixedText 0x40300000 1 [50, 46, 56] :=
  ⟨11 * 2 ^ 147, 28, [50], [56], by decide +kernel, by unfold Rounded; decide +kernel, isDec_intDec 2, rfl, rfl, by decide +kernel⟩

/-- **C116 is false** in general.  In a new buffer of 16 characters, compared with a new stream: a width is ignored by
texts ("ab" instead of "  ab") and cuts longer numbers ("12" instead of "123"); bytes are printed in hexadecimal ("41"
instead of "A"); the sign of -0.5 is lost; 2.75 is cut to 2.7 instead of rounded to 2.8. -/
theorem std_differs (t1 t2 t3 : Shown) :
    ((BOut.new (List.replicate 16 0)).ops (fun _ => 0) [.width 4, .text (.str [97, 98])]).bind (fun o => .ok o.text) = .ok [97, 98] ∧
    (StdEffect ⟨[], 0, 0, 32⟩ t1 (.width 4) → StdEffect t1 t2 (.text (.str [97, 98])) → t2.text = [32, 32, 97, 98]) ∧
    ((BOut.new (List.replicate 16 0)).ops (fun _ => 0) [.width 2, .int 123]).bind (fun o => .ok o.text) = .ok [49, 50] ∧
    (StdEffect ⟨[], 0, 0, 32⟩ t1 (.width 2) → StdEffect t1 t2 (.int 123) → t2.text = [49, 50, 51]) ∧
    ((BOut.new (List.replicate 16 0)).ops (fun _ => 0) [.byte 0x41]).bind (fun o => .ok o.text) = .ok [0x34, 0x31] ∧
    (StdEffect ⟨[], 0, 0, 32⟩ t3 (.byte 0x41) → t3.text = [0x41]) ∧
    ((BOut.new (List.replicate 16 0)).ops (fun _ => 0) [.precision 1, .float 0xBF000000]).bind (fun o => .ok o.text) = .ok [48, 46, 53] ∧
    (StdEffect ⟨[], 0, 0, 32⟩ t1 (.precision 1) → StdEffect t1 t2 (.float 0xBF000000) → t2.text = [45, 48, 46, 53]) ∧
    ((BOut.new (List.replicate 16 0)).ops (fun _ => 0) [.precision 1, .float 0x40300000]).bind (fun o => .ok o.text) = .ok [50, 46, 55] ∧
    (StdEffect ⟨[], 0, 0, 32⟩ t1 (.precision 1) → StdEffect t1 t2 (.float 0x40300000) → t2.text = [50, 46, 56]) := by
  refine ⟨by decide +kernel, ?_, by decide +kernel, ?_, by decide +kernel, ?_, by decide +kernel, ?_, by decide +kernel, ?_⟩
  · rintro rfl rfl; decide
  · rintro rfl ⟨d, hd, rfl⟩
    rw [isDec_unique hd]
    decide
  · rintro rfl; decide
  · rintro rfl ⟨s, hs, rfl⟩
    rw [fixedText_unique (p := 1) hs fixedText_minusHalf]
    decide
  · rintro rfl ⟨s, hs, rfl⟩
    rw [fixedText_unique (p := 1) hs fixedText_twoThreeQuarters]
    decide

/-- "t=", then 7 in columns of 3 filled with zeros, then 20.5 with one decimal: "t=00720.5" on both. -/
example : AlikeRun 16 ⟨[], 0, 0, 32⟩ [.text (.str [116, 61]), .fill 48, .width 3, .int 7, .precision 1, .float 0x41A40000]
    ⟨[116, 61, 48, 48, 55, 50, 48, 46, 53], 1, 0, 48⟩ := by
  refine .step _ _ _ _ _ (by simp [Alike, Piece.chars]) rfl (.step _ _ _ _ _ trivial rfl (.step _ _ _ _ _ trivial rfl
    (.step _ ⟨[116, 61, 48, 48, 55], 0, 0, 48⟩ _ _ _ ⟨[55], isDec_intDec 7, by decide⟩ ⟨[55], isDec_intDec 7, by decide⟩
    (.step _ _ _ _ _ trivial rfl (.step _ _ _ _ _ ?_ ⟨[50, 48, 46, 53], ?_, by decide⟩ (.nil _))))))
  · exact ⟨by decide, by decide, by decide, 41 * 2 ^ 148, [50, 48], by decide +kernel, by decide +kernel,
      by unfold Rounded; decide +kernel, by decide, by decide +kernel, by decide +kernel,
      by rw [show intPart (BitVec.msb (0x41A40000 : BitVec 32)) (41 * 2 ^ 148) = 20 by decide +kernel]; exact isDec_intDec 20, by decide⟩
  · exact ⟨41 * 2 ^ 148, 205, [50, 48], [53], by decide +kernel, by unfold Rounded; decide +kernel, isDec_intDec 20, rfl, rfl,
      by decide +kernel⟩

end Verif.Out
