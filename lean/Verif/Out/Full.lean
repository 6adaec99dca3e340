import Verif.Out.Float
/-!
# C82: everything the text buffer does

A specification of all operations of `BufferedOut` on the text seen by the caller, with the cases in which the behaviour
is undefined, and the proof that the code does exactly this for every sequence of operations.
-/
namespace Verif.Out

/-! ## Specification -/

/-- What the caller knows: the text and the formatting settings. -/
structure Shown where
  text : List Byte
  precision : Int
  width : Int
  fill : Byte
deriving DecidableEq, Repr

/-- The operations of the class. -/
inductive FOp where
  | text (p : Piece)
  | int (n : Int)
  | byte (b : Byte)
  | bytes (bs : List Byte)
  | float (bits : BitVec 32)
  | precision (p : Int)
  | width (w : Int)
  | fill (c : Byte)
  | clear
deriving Repr

/-- C strings are terminated. -/
def FOp.Valid : FOp → Prop
  | .text p => p.Valid
  | _ => True

/-- `s` is the decimal text of `n` (there is just one, `canonical_text_unique`). -/
def IsDec (s : List Byte) (n : Int) : Prop := parseInt s = some n ∧ Canonical s

/-- The integer part of a finite float with the given sign bit and magnitude (in units of 2^-149). -/
def intPart (neg : Bool) (mag : Nat) : Int := if neg then -((mag / 2 ^ 149 : Nat) : Int) else ((mag / 2 ^ 149 : Nat) : Int)

/-- The `p` decimals `ds` printed for a float whose fraction is `frac` (in units of 2^-149): within
`2^-21·(10^p-1)/9` units of the last place (plus truncation), and exact for fractions with at most 21 bits. -/
def Decimals (frac p : Nat) (ds : List Byte) : Prop :=
  ds.length = p ∧ ∃ N, parseNatAux 0 ds = some N ∧
    9 * (N * 2 ^ 149) ≤ 9 * (frac * 10 ^ p) + 2 ^ 128 * (10 ^ p - 1) ∧
    9 * (frac * 10 ^ p) < 9 * (N * 2 ^ 149) + 9 * 2 ^ 149 + 2 ^ 128 * (10 ^ p - 1) ∧
    (2 ^ 128 ∣ frac → N = frac * 10 ^ p / 2 ^ 149)

/-- Does this operation go out of the bounds of a buffer of `cap` characters, or convert a float without a value as
`int`?  A padded number of fewer digits than columns for which the columns do not fit though the digits do; a single
byte with less than two characters left; a float which is no number or whose integer part is no `int`. -/
def Undefined (cap : Nat) (s : Shown) : FOp → Prop
  | .int n => ∃ d, IsDec d n ∧ s.text.length + d.length ≤ cap ∧ (d.length : Int) < s.width ∧
      (cap : Int) < s.text.length + s.width
  | .byte _ => cap < s.text.length + 2
  | .float bits => ∀ mag, magOfBits bits = some mag → ¬(-(2 ^ 31) ≤ intPart bits.msb mag ∧ intPart bits.msb mag < 2 ^ 31)
  | _ => False

/-- The effect of an operation on the text in a buffer of `cap` characters. -/
def Effect (cap : Nat) (s : Shown) (s' : Shown) : FOp → Prop
  | .text p => s' = { s with text := (s.text ++ p.chars).take cap }
  | .int n => ∃ d, IsDec d n ∧ s' =
      if cap < s.text.length + d.length then s
      else if s.width ≤ 0 then { s with text := s.text ++ d }
      else if s.width ≤ d.length then { s with text := s.text ++ d.take s.width.toNat, width := 0 }
      else { s with text := s.text ++ List.replicate (s.width.toNat - d.length) s.fill ++ d, width := 0 }
  | .byte b => ∃ h, unhex h = some [b] ∧ h.length = 2 ∧ s' = { s with text := s.text ++ h }
  | .bytes bs => ∃ h, unhex h = some (bs.take ((cap - s.text.length) / 2)) ∧
      h.length = 2 * min bs.length ((cap - s.text.length) / 2) ∧ s' = { s with text := s.text ++ h }
  | .float bits => ∃ mag d, magOfBits bits = some mag ∧ IsDec d (intPart bits.msb mag) ∧
      if s.text.length + d.length ≤ cap then
        ∃ ds, Decimals (mag % 2 ^ 149) (s.precision % 2 ^ 32).toNat ds ∧
          s' = { s with text := (s.text ++ d ++ (if s.precision % 2 ^ 32 = 0 then [] else 46 :: ds)).take cap }
      else ∃ garbage, garbage.length = cap - s.text.length ∧ s' = { s with text := s.text ++ garbage }
  | .precision p => s' = { s with precision := p }
  | .width w => s' = { s with width := w }
  | .fill c => s' = { s with fill := c }
  | .clear => s' = ⟨[], 0, 0, 32⟩

/-- A sequence of operations: either some operation is undefined in the state it is reached in (`none`), or all of them
take their effect. -/
inductive Effects (cap : Nat) : Shown → List FOp → Option Shown → Prop where
  | nil (s : Shown) : Effects cap s [] (some s)
  | undef (s : Shown) (op : FOp) (ops : List FOp) : Undefined cap s op → Effects cap s (op :: ops) none
  | step (s s1 : Shown) (op : FOp) (ops : List FOp) (r : Option Shown) : ¬ Undefined cap s op → Effect cap s s1 op →
      Effects cap s1 ops r → Effects cap s (op :: ops) r

/-! ## The code -/

/-- One operation (BufferedOut.h:25-77, the operators modelled in Model.lean). -/
def BOut.op (junk : Nat → Byte) (o : BOut) : FOp → Res BOut
  | .text p => o.put p
  | .int n => o.putInt junk n
  | .byte b => o.putByte b
  | .bytes bs => o.putBytes bs
  | .float bits => o.putFloat junk bits
  | .precision p => .ok (o.setPrecision p)
  | .width w => .ok (o.setWidth w)
  | .fill c => .ok (o.setFill c)
  | .clear => .ok o.clear

/-- A sequence of operations. -/
def BOut.ops (junk : Nat → Byte) (o : BOut) : List FOp → Res BOut
  | [] => .ok o
  | p :: ps => do
    let o' ← o.op junk p
    o'.ops junk ps

/-- What a buffer shows to the caller. -/
def BOut.shown (o : BOut) : Shown := ⟨o.text, o.floatPrecision, o.integerWidth, o.fillChar⟩

/-! ## Proof -/

theorem writeAll_length {m m' bs : List Byte} {p : Nat} (h : writeAll m p bs = .ok m') : m'.length = m.length := by
  unfold writeAll at h
  split at h
  · rename_i hp; cases h; exact splice_length _ _ _ hp
  · cases h

theorem write_length {m m' : List Byte} {p : Nat} {b : Byte} (h : write m p b = .ok m') : m'.length = m.length := by
  unfold write at h
  split at h
  · cases h; simp
  · cases h

theorem padLoop_length {m m' : List Byte} {p : Nat} {c : Byte} {k : Nat} (h : padLoop m p c k = .ok m') :
    m'.length = m.length := by
  induction k generalizing m p with
  | zero => cases h; rfl
  | succ k ih =>
    rw [padLoop, Res.bind_eq_ok] at h
    obtain ⟨m1, h1, h2⟩ := h
    rw [ih h2, write_length h1]

theorem memmove_length {m m' : List Byte} {d s n : Nat} (h : memmove m d s n = .ok m') : m'.length = m.length := by
  unfold memmove at h
  split at h
  · exact writeAll_length h
  · cases h

theorem scramble_length (junk : Nat → Byte) (m : List Byte) (p : Nat) : (scramble junk m p).length = m.length := by
  simp [scramble]

theorem putInt_frame {junk : Nat → Byte} {o o' : BOut} {n : Int} (h : o.putInt junk n = .ok o') :
    o'.mem.length = o.mem.length ∧ o'.floatPrecision = o.floatPrecision ∧ o'.fillChar = o.fillChar := by
  unfold BOut.putInt at h
  rw [Res.bind_eq_ok] at h
  obtain ⟨⟨m, p, ok⟩, h1, h2⟩ := h
  have hm : m.length = o.mem.length := by
    unfold toCharsInt at h1
    split at h1
    · rw [Res.bind_eq_ok] at h1
      obtain ⟨m1, h3, h4⟩ := h1
      cases h4
      exact writeAll_length h3
    · cases h1; exact scramble_length _ _ _
  simp only at h2
  cases ok with
  | false => cases h2; exact ⟨hm, rfl, rfl⟩
  | true =>
    simp only [if_true] at h2
    unfold BOut.adjustPos at h2
    split at h2
    · rw [Res.bind_eq_ok] at h2
      obtain ⟨o1, h3, h4⟩ := h2
      unfold BOut.addPadding at h3
      simp only at h3
      rw [Res.bind_eq_ok] at h3
      obtain ⟨m2, h5, h6⟩ := h3
      cases h6
      cases h4
      refine ⟨?_, rfl, rfl⟩
      simp only
      rw [← hm]
      split at h5
      · rw [Res.bind_eq_ok] at h5
        obtain ⟨m3, h7, h8⟩ := h5
        rw [padLoop_length h8, memmove_length h7]
      · cases h5; rfl
    · cases h2; exact ⟨hm, rfl, rfl⟩

theorem putFloat_frame {junk : Nat → Byte} {o o' : BOut} {bits : BitVec 32} (h : o.putFloat junk bits = .ok o') :
    o'.floatPrecision = o.floatPrecision ∧ o'.fillChar = o.fillChar ∧ o'.integerWidth = o.integerWidth := by
  unfold BOut.putFloat at h
  rw [Res.bind_eq_ok] at h
  obtain ⟨⟨m, p⟩, h1, h2⟩ := h
  cases h2
  exact ⟨rfl, rfl, rfl⟩

theorem isDec_unique {s : List Byte} {n : Int} (h : IsDec s n) : s = intDec n := canonical_unique s n h.2 h.1

theorem isDec_intDec (n : Int) : IsDec (intDec n) n := ⟨intDec_parse n, intDec_canonical n⟩

theorem shown_of_appended {o o' : BOut} {s : List Byte} (h : Appended o o' s) :
    o'.shown = { o.shown with text := o.text ++ s } := by
  unfold BOut.shown; rw [h.text, h.prec, h.width, h.fillc]

/-- **C82**, one operation: undefined exactly when the specification says so, otherwise with the specified effect. -/
theorem op_exact (junk : Nat → Byte) (o : BOut) (h : o.WF) (op : FOp) (hv : op.Valid) :
    (Undefined o.capacity o.shown op → o.op junk op = .ub) ∧
    (¬ Undefined o.capacity o.shown op → ∃ o', o.op junk op = .ok o' ∧ o'.WF ∧ o'.capacity = o.capacity ∧
      Effect o.capacity o.shown o'.shown op) := by
  have htl := text_length h
  have hwf : o.pos ≤ o.mem.length := h
  cases op with
  | text p =>
    refine ⟨fun hu => hu.elim, fun _ => ?_⟩
    obtain ⟨o', h1, h2⟩ : ∃ o', o.put p = .ok o' ∧ Appended o o' (p.chars.take (o.capacity - o.size)) := by
      cases p with
      | str s => exact putStr_spec h s
      | cstr s rest => exact putCstr_spec h s rest hv
      | char c => exact addChar_spec h c
    refine ⟨o', h1, h2.wf, h2.len, ?_⟩
    simp only [Effect]
    rw [shown_of_appended h2]
    simp only [BOut.shown, BOut.capacity, BOut.size]
    rw [List.take_append, List.take_of_length_le (l := o.text) (by omega), htl]
  | int n =>
    constructor
    · rintro ⟨d, hd, h1, h2, h3⟩
      rw [isDec_unique hd] at h1 h2
      simp only [BOut.shown, htl, BOut.capacity] at h1 h2 h3
      have hw : o.integerWidth = (o.integerWidth.toNat : Nat) := by omega
      exact width_out_of_bounds junk o n o.integerWidth.toNat hw (by omega) h1
        (by simp only [BOut.size, BOut.capacity]; omega)
    · intro hu
      simp only [Undefined, not_exists, not_and] at hu
      have hu := hu _ (isDec_intDec n)
      simp only [BOut.shown, htl, BOut.capacity] at hu
      simp only [Effect]
      by_cases hroom : o.capacity < o.size + (intDec n).length
      · obtain ⟨o', h1, h2, h3⟩ := width_kept_when_no_room junk o h n hroom
        obtain ⟨f1, f2, f3⟩ := putInt_frame h1
        refine ⟨o', h1, ?_, f1, _, isDec_intDec n, ?_⟩
        · have := congrArg List.length h2
          have hpos : o'.pos = o.pos := by
            simp only [BOut.putInt, toCharsInt] at h1
            simp only [BOut.capacity, BOut.size] at hroom
            rw [if_neg (by omega)] at h1
            cases h1; rfl
          unfold BOut.WF; omega
        · rw [if_pos (show o.capacity < o.shown.text.length + (intDec n).length by
            show _ < o.text.length + _
            rw [htl]; exact hroom)]
          simp only [BOut.shown]
          rw [h2, h3, f2, f3]
      · simp only [BOut.capacity, BOut.size] at hroom
        have hroom' : ¬ o.capacity < o.shown.text.length + (intDec n).length := by
          show ¬ o.mem.length < o.text.length + _
          rw [htl]; exact hroom
        by_cases hw : o.integerWidth ≤ 0
        · obtain ⟨o', h1, h2⟩ := putInt_spec junk h hw n
          refine ⟨o', h1, h2.wf, h2.len, _, isDec_intDec n, ?_⟩
          rw [shown_of_appended h2]
          rw [if_neg hroom', if_pos (show o.shown.width ≤ 0 from hw), if_pos (by simp only [BOut.capacity, BOut.size]; omega)]
          rfl
        · have hwn : o.integerWidth = (o.integerWidth.toNat : Nat) := by omega
          by_cases hlong : o.integerWidth < (intDec n).length
          · obtain ⟨o', h1, h2, -⟩ := width_drops_digits junk o n o.integerWidth.toNat hwn (by omega) (by omega)
              (by simp only [BOut.capacity, BOut.size]; omega)
            obtain ⟨f1, f2, f3⟩ := putInt_frame h1
            have hrest : o'.integerWidth = 0 ∧ o'.pos = o.pos + o.integerWidth.toNat := by
              simp only [BOut.putInt, toCharsInt] at h1
              rw [if_pos (by omega)] at h1
              simp only [writeAll] at h1
              rw [if_pos (by omega)] at h1
              simp only [Res.bind_ok, if_true, BOut.adjustPos] at h1
              rw [if_pos (by omega)] at h1
              simp only [BOut.addPadding] at h1
              rw [if_neg (by omega)] at h1
              cases h1
              exact ⟨rfl, rfl⟩
            refine ⟨o', h1, ?_, f1, _, isDec_intDec n, ?_⟩
            · unfold BOut.WF; omega
            · rw [if_neg hroom', if_neg (show ¬ o.shown.width ≤ 0 from hw),
                if_pos (show o.shown.width ≤ (intDec n).length by show o.integerWidth ≤ _; omega)]
              simp only [BOut.shown]
              rw [h2, hrest.1, f2, f3]
          · have hfits : o.pos + o.integerWidth.toNat ≤ o.mem.length := by
              by_cases he : o.integerWidth = (intDec n).length
              · omega
              · have := hu (by omega) (by omega); omega
            obtain ⟨o', s, h1, h2, h3, h4, h5, h6, h7, h8, h9⟩ := width_pads_left_partial junk o h n o.integerWidth.toNat hwn
              (by omega) hfits
            obtain ⟨f1, f2, f3⟩ := putInt_frame h1
            rw [isDec_unique ⟨h2, h3⟩] at h5
            refine ⟨o', h1, h9, f1, _, isDec_intDec n, ?_⟩
            rw [if_neg hroom', if_neg (show ¬ o.shown.width ≤ 0 from hw)]
            split
            · rename_i he
              have he : o.integerWidth ≤ (intDec n).length := he
              have he' : o.integerWidth.toNat = (intDec n).length := by omega
              simp only [BOut.shown]
              rw [h5, h6, f2, f3, he', List.take_of_length_le (Nat.le_refl _)]
              simp
            · simp only [BOut.shown]
              rw [h5, h6, f2, f3]
  | byte b =>
    simp only [Undefined, Effect, BOut.shown, htl, BOut.op]
    refine ⟨fun hu => byte_out_of_bounds o h b hu, fun hu => ?_⟩
    obtain ⟨o', h1, h2⟩ := putByte_spec (o := o) b (by simp only [BOut.capacity] at hu; omega)
    exact ⟨o', h1, h2.wf, h2.len, hexPair b, (hexPair_table b).2.2, rfl, shown_of_appended h2⟩
  | bytes bs =>
    refine ⟨fun hu => hu.elim, fun _ => ?_⟩
    obtain ⟨o1, h1, h2⟩ := putBytes_spec h bs
    obtain ⟨o2, s, g1, g2, g3, g4, g5, g6⟩ := bytes_printed_as_hex o h bs
    rw [h1] at g1; cases g1
    refine ⟨o1, h1, h2.wf, h2.len, s, ?_, ?_, ?_⟩
    · simp only [BOut.shown, htl]; exact g3
    · simp only [BOut.shown, htl]; exact g4
    · rw [shown_of_appended h2]
      have := h2.text
      rw [g2] at this
      rw [List.append_cancel_left this]
      rfl
  | float bits =>
    constructor
    · intro hu
      simp only [Undefined] at hu
      simp only [BOut.op, BOut.putFloat, toCharsFloat]
      cases hm : magOfBits bits with
      | none => rfl
      | some mag =>
        have := hu mag hm
        have ht : truncToInt (negOfBits bits) mag = .ub := by
          unfold truncToInt negOfBits
          simp only
          rw [show scale = 2 ^ 149 from rfl]
          exact if_neg this
        simp only [Res.ofOption_some, Res.bind_ok, ht]
        rfl
    · intro hu
      simp only [Undefined, Classical.not_forall, Classical.not_not] at hu
      obtain ⟨mag, hmag, hr⟩ := hu
      simp only [Effect]
      by_cases hfit : o.size + (intDec (intPart bits.msb mag)).length ≤ o.capacity
      · obtain ⟨o', s, ds, N, h1, h2, h3, h4, h5, h6, h7, h8, h9, h10, h11, h12, h13⟩ :=
          float_printed_partial junk o h bits mag _ hmag rfl hr hfit
        obtain ⟨f1, f2, f3⟩ := putFloat_frame h1
        refine ⟨o', h1, h11, h12, mag, _, hmag, isDec_intDec _, ?_⟩
        rw [if_pos (show o.shown.text.length + _ ≤ _ by
          show o.text.length + _ ≤ _
          rw [htl]; exact hfit)]
        refine ⟨ds, ⟨h4, N, h5, h7, h8, h9⟩, ?_⟩
        have hs : s = intDec (intPart bits.msb mag) := isDec_unique ⟨h2, h3⟩
        have hp : precisionOf o = 0 ↔ o.floatPrecision % 2 ^ 32 = 0 := by unfold precisionOf; omega
        simp only [BOut.shown]
        rw [h6, f1, f2, f3, hs]
        simp only [hp]
        congr 3
      · obtain ⟨o', h1, h2, h3⟩ := float_too_long_garbage junk o bits mag _ hmag rfl hr
          (by unfold intPart at hfit; omega)
        obtain ⟨f1, f2, f3⟩ := putFloat_frame h1
        have hmem : o'.mem = scramble junk o.mem o.pos ∧ o'.pos = o.mem.length := by
          have htr : truncToInt (negOfBits bits) mag = .ok (intPart bits.msb mag) := by
            unfold truncToInt negOfBits
            simp only
            rw [show scale = 2 ^ 149 from rfl]
            exact if_pos hr
          simp only [BOut.size, BOut.capacity] at hfit
          simp only [BOut.putFloat, toCharsFloat, hmag, htr, Res.ofOption_some, Res.bind_ok, toCharsInt] at h1
          rw [if_neg hfit] at h1
          simp only [Res.bind_ok, Bool.false_eq_true, false_and, if_false] at h1
          cases h1
          exact ⟨rfl, rfl⟩
        have hlen : o'.mem.length = o.mem.length := by rw [hmem.1, scramble_length]
        refine ⟨o', h1, by unfold BOut.WF; omega, hlen, mag, _, hmag, isDec_intDec _, ?_⟩
        rw [if_neg (show ¬ o.shown.text.length + _ ≤ _ by
          show ¬ o.text.length + _ ≤ _
          rw [htl]; exact hfit)]
        simp only [BOut.shown, htl]
        refine ⟨o'.text.drop o.pos, ?_, ?_⟩
        · rw [List.length_drop, text_length (by unfold BOut.WF; omega), hmem.2]
        · rw [f1, f2, f3]
          have : o.text = o'.text.take o.pos := by
            unfold BOut.text
            rw [hmem.1, hmem.2, List.take_take, Nat.min_eq_left hwf]
            apply List.ext_getElem?
            intro i
            rw [List.getElem?_take, List.getElem?_take]
            split
            · rename_i hi
              simp only [scramble, List.getElem?_mapIdx]
              cases hg : o.mem[i]? with
              | none => rfl
              | some b => simp only [Option.map_some]; rw [if_neg (by omega)]
            · rfl
          rw [this, List.take_append_drop]
  | precision p => exact ⟨fun hu => hu.elim, fun _ => ⟨_, rfl, h, rfl, rfl⟩⟩
  | width w => exact ⟨fun hu => hu.elim, fun _ => ⟨_, rfl, h, rfl, rfl⟩⟩
  | fill c => exact ⟨fun hu => hu.elim, fun _ => ⟨_, rfl, h, rfl, rfl⟩⟩
  | clear =>
    refine ⟨fun hu => hu.elim, fun _ => ⟨_, rfl, ?_, rfl, rfl⟩⟩
    simp [BOut.WF, BOut.clear]

/-- **C82**: for every sequence of operations the code does what the specification says: it runs into undefined
behaviour exactly when an operation is undefined in the state it is reached in, and otherwise the text and the settings
are the specified ones, inside of the buffer. -/
theorem ops_exact (junk : Nat → Byte) (o : BOut) (h : o.WF) (ops : List FOp) (hv : ∀ op ∈ ops, op.Valid) :
    (o.ops junk ops = .ub ∧ Effects o.capacity o.shown ops none) ∨
    ∃ o', o.ops junk ops = .ok o' ∧ o'.WF ∧ o'.capacity = o.capacity ∧
      Effects o.capacity o.shown ops (some o'.shown) := by
  induction ops generalizing o with
  | nil => exact .inr ⟨o, rfl, h, rfl, .nil _⟩
  | cons op ops ih =>
    simp only [List.mem_cons, forall_eq_or_imp] at hv
    obtain ⟨h1, h2⟩ := op_exact junk o h op hv.1
    by_cases hu : Undefined o.capacity o.shown op
    · exact .inl ⟨by simp [BOut.ops, h1 hu], .undef _ _ _ hu⟩
    · obtain ⟨o1, h3, h4, h5, h6⟩ := h2 hu
      rcases ih o1 h4 hv.2 with ⟨g1, g2⟩ | ⟨o2, g1, g2, g3, g4⟩
      · exact .inl ⟨by simp [BOut.ops, h3, g1], .step _ _ _ _ _ hu h6 (h5 ▸ g2)⟩
      · exact .inr ⟨o2, by simp [BOut.ops, h3, g1], g2, g3.trans h5, .step _ _ _ _ _ hu h6 (h5 ▸ g4)⟩

/-- What the specification allows for an operation other than a float is unique. -/
theorem effect_unique {cap : Nat} {s s1 s2 : Shown} {op : FOp} (hop : ∀ bits, op ≠ .float bits)
    (h1 : Effect cap s s1 op) (h2 : Effect cap s s2 op) : s1 = s2 := by
  have hinj : ∀ {a b l : List Byte}, unhex a = some l → unhex b = some l → a = b := by
    intro a b l ha hb
    have key : ∀ (a l : List Byte), unhex a = some l → a = l.flatMap hexPair := by
      intro a
      induction a using unhex.induct with
      | case1 => intro l h; simp [unhex] at h; subst h; rfl
      | case2 x => intro l h; simp [unhex] at h
      | case3 x y cs ih =>
        intro l h
        simp only [unhex, Option.bind_eq_bind, Option.bind_eq_some_iff] at h
        obtain ⟨u, hu, v, hv, r, hr, h⟩ := h
        cases h
        rw [List.flatMap_cons, ← ih r hr]
        have hx : ∀ c : Byte, ∀ u, hexVal c = some u → u < 16 ∧ hexDigits.getD u 0 = c := by
          intro c
          have : ∀ c : Fin 256, ∀ u, hexVal (BitVec.ofFin c) = some u → u < 16 ∧ hexDigits.getD u 0 = BitVec.ofFin c := by
            intro c u hu
            have hc : ∀ c : Fin 256, (hexVal (BitVec.ofFin c)).all (fun u => decide (u < 16 ∧ hexDigits.getD u 0 = BitVec.ofFin c)) = true := by
              decide +kernel
            have hc := hc c
            rw [hu] at hc
            simpa using hc
          exact this c.toFin
        obtain ⟨u1, u2⟩ := hx x u hu
        obtain ⟨v1, v2⟩ := hx y v hv
        simp only [hexPair]
        rw [show (BitVec.ofNat 8 (16 * u + v)).toNat = 16 * u + v by
          rw [BitVec.toNat_ofNat]; omega, show (16 * u + v) / 16 = u by omega, show (16 * u + v) % 16 = v by omega, u2, v2]
        rfl
    rw [key a l ha, key b l hb]
  cases op with
  | text p => exact h1.trans h2.symm
  | int n =>
    obtain ⟨d1, e1, rfl⟩ := h1
    obtain ⟨d2, e2, rfl⟩ := h2
    rw [isDec_unique e1, isDec_unique e2]
  | byte b =>
    obtain ⟨a, a1, a2, rfl⟩ := h1
    obtain ⟨b', b1, b2, rfl⟩ := h2
    rw [hinj a1 b1]
  | bytes bs =>
    obtain ⟨a, a1, a2, rfl⟩ := h1
    obtain ⟨b', b1, b2, rfl⟩ := h2
    rw [hinj a1 b1]
  | float bits => exact absurd rfl (hop bits)
  | precision p => exact h1.trans h2.symm
  | width w => exact h1.trans h2.symm
  | fill c => exact h1.trans h2.symm
  | clear => exact h1.trans h2.symm

/-- Formatted output in a buffer of 24 characters: "x=", then 7 in columns of 4 filled with zeros, then -2.5 with two
decimals, then the byte 0xAB; the width is used up by the first number. -/
example : ∃ o', (BOut.new (List.replicate 24 0)).ops (fun _ => 0) [.text (.str [0x78, 0x3D]), .width 4, .fill 48, .int 7,
    .precision 2, .float 0xC0200000, .int 9, .byte 0xAB] = .ok o' ∧
    o'.shown = ⟨[0x78, 0x3D, 48, 48, 48, 55, 45, 50, 46, 53, 48, 57, 0x41, 0x42], 2, 0, 48⟩ := by
  refine ⟨_, rfl, ?_⟩; decide +kernel

end Verif.Out
