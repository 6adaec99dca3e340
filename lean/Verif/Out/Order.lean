import Verif.Out.Float
/-!
# C108: printed floats are in the order of their values
-/
namespace Verif.Out

/-! ## Specification -/

/-- The text `s` is a number with `p` decimals; `v` is its value in units of the last decimal. -/
def Fixed (p : Nat) (s : List Byte) (v : Int) : Prop :=
  ∃ ip ds i N, s = ip ++ (if p = 0 then [] else 46 :: ds) ∧ ds.length = p ∧ parseInt ip = some i ∧
    parseNatAux 0 ds = some N ∧ v = if ip.head? = some 45 then i * 10 ^ p - N else i * 10 ^ p + N

/-- The value of a finite float in units of 2^-149. -/
def valOf (bits : BitVec 32) : Option Int := (magOfBits bits).map fun m : Nat => if bits.msb then -(m : Int) else m

/-- A text is read in one way only. -/
theorem fixed_unique {p : Nat} {s : List Byte} {v w : Int} (h1 : Fixed p s v) (h2 : Fixed p s w) : v = w := by
  obtain ⟨ip, ds, i, N, a1, a2, a3, a4, a5⟩ := h1
  obtain ⟨ip', ds', i', N', b1, b2, b3, b4, b5⟩ := h2
  rw [a1] at b1
  have hl : (if p = 0 then [] else (46 : Byte) :: ds).length = (if p = 0 then [] else (46 : Byte) :: ds').length := by
    split <;> simp [a2, b2]
  obtain ⟨e1, e2⟩ := List.append_inj' b1 hl
  have e3 : ds = ds' := by
    by_cases hp : p = 0
    · subst hp
      rw [List.length_eq_zero_iff.1 a2, List.length_eq_zero_iff.1 b2]
    · rw [if_neg hp, if_neg hp] at e2
      exact (List.cons.inj e2).2
  subst e1 e3
  rw [a3] at b3
  rw [a4] at b4
  cases b3; cases b4
  rw [a5, b5]

/-! ## Rounding and digits are monotone -/

theorem rnd_mono {m n : Nat} (h : m ≤ n) : rnd m ≤ rnd n := by
  by_contra hc
  have h1 := (rnd_nearest m (rnd n) (rnd_repr n)).1
  have h2 := (rnd_nearest n (rnd m) (rnd_repr m)).1
  have : m ≠ n := by rintro rfl; exact hc (Nat.le_refl _)
  omega

theorem fval_lt {f : Nat} (h : Rep24 f) (hf : f < scale) (p : Nat) : fval f p < 10 ^ p := by
  induction p generalizing f with
  | zero => simp [fval, fdigits]
  | succ p ih =>
    obtain ⟨-, h2, -, h4, h5⟩ := loop_step h hf
    rw [fval_succ, Nat.pow_succ]
    have := ih h4 h5
    have : rnd (f * 10) / scale * 10 ^ p ≤ 9 * 10 ^ p := Nat.mul_le_mul_right _ (by omega)
    omega

theorem fval_mono {f f' : Nat} (h : Rep24 f) (h' : Rep24 f') (hle : f ≤ f') (hf : f' < scale) (p : Nat) :
    fval f p ≤ fval f' p := by
  induction p generalizing f f' with
  | zero => simp [fval, fdigits]
  | succ p ih =>
    obtain ⟨-, h2, -, h4, h5⟩ := loop_step h (by omega)
    obtain ⟨-, k2, -, k4, k5⟩ := loop_step h' hf
    have hg := rnd_mono (Nat.mul_le_mul_right 10 hle)
    rw [fval_succ, fval_succ]
    have hd : rnd (f * 10) / scale ≤ rnd (f' * 10) / scale := Nat.div_le_div_right hg
    rcases Nat.lt_or_eq_of_le hd with hd | hd
    · have := fval_lt h4 h5 p
      have : (rnd (f * 10) / scale + 1) * 10 ^ p ≤ rnd (f' * 10) / scale * 10 ^ p := Nat.mul_le_mul_right _ hd
      rw [Nat.add_mul] at this
      omega
    · rw [hd]
      have e1 := Nat.div_add_mod (rnd (f * 10)) scale
      have e2 := Nat.div_add_mod (rnd (f' * 10)) scale
      rw [hd] at e1
      have := ih h4 k4 (by omega) k5
      omega

/-- The magnitude printed for a float, in units of the last decimal. -/
def magPrinted (mag p : Nat) : Nat := mag / scale * 10 ^ p + fval (mag % scale) p

theorem magPrinted_mono {m m' : Nat} (h : Rep24 m) (h' : Rep24 m') (hle : m ≤ m') (p : Nat) :
    magPrinted m p ≤ magPrinted m' p := by
  have hs : 0 < scale := Nat.two_pow_pos _
  unfold magPrinted
  have hd : m / scale ≤ m' / scale := Nat.div_le_div_right hle
  rcases Nat.lt_or_eq_of_le hd with hd | hd
  · have := fval_lt (h.mod 149) (Nat.mod_lt _ hs) p
    have e : (m / scale + 1) * 10 ^ p ≤ m' / scale * 10 ^ p := Nat.mul_le_mul_right _ hd
    rw [Nat.add_mul] at e
    rw [show (2 : Nat) ^ 149 = scale from rfl] at this
    omega
  · rw [hd]
    have e1 := Nat.div_add_mod m scale
    have e2 := Nat.div_add_mod m' scale
    rw [hd] at e1
    have := fval_mono (h.mod 149) (h'.mod 149) (show m % 2 ^ 149 ≤ m' % 2 ^ 149 by
      rw [show (2 : Nat) ^ 149 = scale from rfl]; omega) (Nat.mod_lt _ hs) p
    rw [show (2 : Nat) ^ 149 = scale from rfl] at this
    omega

/-- Magnitudes a little more than a unit of the last decimal apart are printed differently. -/
theorem magPrinted_strict {m m' : Nat} (h : Rep24 m) (h' : Rep24 m') (p : Nat)
    (hle : 9 * (m * 10 ^ p) + 9 * 2 ^ 149 + 2 * (2 ^ 128 * (10 ^ p - 1)) ≤ 9 * (m' * 10 ^ p)) :
    magPrinted m p < magPrinted m' p := by
  have hs : 0 < scale := Nat.two_pow_pos _
  have e1 := (fval_err (h.mod 149) (Nat.mod_lt _ hs) p).1
  have e2 := (fval_err (h'.mod 149) (Nat.mod_lt _ hs) p).2
  have d1 := Nat.div_add_mod m scale
  have d2 := Nat.div_add_mod m' scale
  unfold magPrinted
  rw [show (2 : Nat) ^ 149 = scale from rfl] at *
  generalize m % scale = r at *
  generalize m' % scale = r' at *
  generalize m / scale = q at *
  generalize m' / scale = q' at *
  generalize fval r p = a at *
  generalize fval r' p = b at *
  generalize 2 ^ 128 * (10 ^ p - 1) = E at *
  generalize 10 ^ p = T at *
  subst d1 d2
  by_contra hc
  have hc : q' * T + b ≤ q * T + a := Nat.le_of_not_lt hc
  have := Nat.mul_le_mul_left (9 * scale) hc
  nlinarith

/-! ## C108 -/

theorem parseNatAux_some_head {a N : Nat} {c : Byte} {cs : List Byte} (h : parseNatAux a (c :: cs) = some N) : c ≠ 45 := by
  rintro rfl
  simp [parseNatAux, digitVal] at h

theorem intDec_head (n : Int) : (intDec n).head? = some 45 ↔ n < 0 := by
  unfold intDec
  split
  · simp_all
  · obtain ⟨d, ds, h1, h2, -⟩ := natDecF_head (n.natAbs + 1) n.natAbs (by omega)
    unfold natDec
    rw [h1]
    simp only [List.head?_cons, Option.some.injEq]
    constructor
    · intro h
      have := congrArg BitVec.toNat h
      rw [BitVec.toNat_ofNat] at this
      simp at this
      omega
    · omega

/-- What is printed for a float with room for it. -/
theorem float_fixed (junk : Nat → Byte) (o : BOut) (hwf : o.WF) (bits : BitVec 32) (mag : Nat) (n : Int)
    (hmag : magOfBits bits = some mag) (hn : n = if bits.msb then -((mag / 2 ^ 149 : Nat) : Int) else ((mag / 2 ^ 149 : Nat) : Int))
    (hrange : -(2 ^ 31) ≤ n ∧ n < 2 ^ 31) (hfit : o.size + (intDec n).length + 1 + precisionOf o ≤ o.capacity) :
    ∃ o' s, o.putFloat junk bits = .ok o' ∧ o'.text = o.text ++ s ∧
      Fixed (precisionOf o) s (if n < 0 then -(magPrinted mag (precisionOf o) : Int) else magPrinted mag (precisionOf o)) := by
  have hs : 0 < scale := Nat.two_pow_pos _
  obtain ⟨o', h1, h2⟩ := float_text junk o hwf bits mag n hmag hn hrange (by omega)
  have hfr := (magOfBits_repr hmag).mod 149
  have hfl : mag % scale < scale := Nat.mod_lt _ hs
  generalize hp : precisionOf o = p at *
  refine ⟨o', intDec n ++ (if p = 0 then [] else 46 :: (fdigits (mag % scale) p).map fun d => BitVec.ofNat 8 (48 + d)), h1, ?_,
    intDec n, (fdigits (mag % scale) p).map fun d => BitVec.ofNat 8 (48 + d), n, fval (mag % scale) p, rfl, ?_, intDec_parse n,
    parse_digits 0 _ (fdigits_lt hfr hfl _), ?_⟩
  · rw [h2.text, List.take_of_length_le]
    rw [List.length_append]
    split
    · simp; omega
    · simp [fdigits_length]; omega
  · rw [List.length_map, fdigits_length]
  · have hq : (n.natAbs : Int) = ((mag / scale : Nat) : Int) := by
      rw [hn, show scale = 2 ^ 149 from rfl]
      split
      · rw [Int.natAbs_neg, Int.natAbs_natCast]
      · rw [Int.natAbs_natCast]
    by_cases hneg : n < 0
    · rw [if_pos hneg, if_pos ((intDec_head n).2 hneg)]
      have : n = -((mag / scale : Nat) : Int) := by omega
      rw [this]
      unfold magPrinted
      push_cast
      ring
    · rw [if_neg hneg, if_neg (fun h => hneg ((intDec_head n).1 h))]
      have : n = ((mag / scale : Nat) : Int) := by omega
      rw [this]
      unfold magPrinted
      push_cast
      ring

theorem natDecF_digits (fuel n : Nat) : ∀ b ∈ natDecF fuel n, 48 ≤ b.toNat ∧ b.toNat ≤ 57 := by
  induction fuel generalizing n with
  | zero => intro b hb; cases hb
  | succ f ih =>
    intro b hb
    rw [natDecF] at hb
    split at hb
    · simp only [List.mem_singleton] at hb
      subst hb
      rw [BitVec.toNat_ofNat]; omega
    · rcases List.mem_append.1 hb with h | h
      · exact ih _ b h
      · simp only [List.mem_singleton] at h
        subst h
        rw [BitVec.toNat_ofNat]; omega

theorem natDecF_length (fuel n k : Nat) (h : n < 10 ^ (k + 1)) : (natDecF fuel n).length ≤ k + 1 := by
  induction fuel generalizing n k with
  | zero => exact Nat.zero_le _
  | succ f ih =>
    rw [natDecF]
    split
    · simp
    · cases k with
      | zero => omega
      | succ k =>
        have := ih (n / 10) k (by rw [Nat.pow_succ] at h; omega)
        simp only [List.length_append, List.length_singleton]
        omega

theorem intDec_length (n : Int) (h : -(2 ^ 31) ≤ n ∧ n < 2 ^ 31) : (intDec n).length ≤ 11 := by
  have := natDecF_length (n.natAbs + 1) n.natAbs 9 (by omega)
  unfold intDec natDec
  split
  · rw [List.length_cons]; omega
  · omega

/-- A float which is printed with its sign: no value between -1 and 0, with an integer part in the range of `int`. -/
structure Printable (bits : BitVec 32) (v : Int) : Prop where
  val : valOf bits = some v
  sign : ¬(-(2 ^ 149) < v ∧ v < 0)
  range : -((2 ^ 31 + 1) * 2 ^ 149) < v ∧ v < 2 ^ 31 * 2 ^ 149

theorem printable_fixed (junk : Nat → Byte) (o : BOut) (hwf : o.WF) (hfit : o.size + 12 + precisionOf o ≤ o.capacity)
    {bits : BitVec 32} {v : Int} (h : Printable bits v) :
    ∃ o' s, o.putFloat junk bits = .ok o' ∧ o'.text = o.text ++ s ∧
      Fixed (precisionOf o) s (if v < 0 then -(magPrinted v.natAbs (precisionOf o) : Int)
        else magPrinted v.natAbs (precisionOf o)) ∧ Rep24 v.natAbs := by
  obtain ⟨h1, h2, h3⟩ := h
  unfold valOf at h1
  rw [Option.map_eq_some_iff] at h1
  obtain ⟨mag, hm, hv⟩ := h1
  have hS : (0 : Int) < 2 ^ 149 := by decide
  have hq := Nat.div_add_mod mag (2 ^ 149)
  have hr := Nat.mod_lt mag (Nat.two_pow_pos 149)
  have hva : v.natAbs = mag := by
    rw [← hv]; split
    · rw [Int.natAbs_neg, Int.natAbs_natCast]
    · rw [Int.natAbs_natCast]
  generalize hn : (if bits.msb then -((mag / 2 ^ 149 : Nat) : Int) else ((mag / 2 ^ 149 : Nat) : Int)) = n
  have hnr : -(2 ^ 31) ≤ n ∧ n < 2 ^ 31 := by
    generalize mag / 2 ^ 149 = q at *
    split at hn <;> simp_all <;> omega
  have hneg : n < 0 ↔ v < 0 := by
    generalize mag / 2 ^ 149 = q at *
    split at hn <;> simp_all <;> omega
  have hl := intDec_length n hnr
  obtain ⟨o', s, k1, k2, k3⟩ := float_fixed junk o hwf bits mag n hm hn.symm hnr (by omega)
  refine ⟨o', s, k1, k2, ?_, by rw [hva]; exact magOfBits_repr hm⟩
  rw [hva]
  by_cases hc : n < 0
  · rw [if_pos hc] at k3; rw [if_pos (hneg.1 hc)]; exact k3
  · rw [if_neg hc] at k3; rw [if_neg (fun hh => hc (hneg.2 hh))]; exact k3

/-- **C108**: of two floats the smaller one is never printed as the larger number; if they differ by a little more than a
unit of the last decimal, the smaller one is printed as a smaller number.  Missing: values between -1 and 0, for which it
is false (`fractions_reversed`). -/
theorem floats_ordered_partial (junk : Nat → Byte) (o : BOut) (hwf : o.WF) (hfit : o.size + 12 + precisionOf o ≤ o.capacity)
    (a b : BitVec 32) (v w : Int) (ha : Printable a v) (hb : Printable b w) (hle : v ≤ w) :
    ∃ oa ob s t x y, o.putFloat junk a = .ok oa ∧ oa.text = o.text ++ s ∧ Fixed (precisionOf o) s x ∧
      o.putFloat junk b = .ok ob ∧ ob.text = o.text ++ t ∧ Fixed (precisionOf o) t y ∧ x ≤ y ∧
      (9 * (v * 10 ^ precisionOf o) + 9 * 2 ^ 149 + 2 * (2 ^ 128 * (10 ^ precisionOf o - 1)) ≤ 9 * (w * 10 ^ precisionOf o) →
        x < y) := by
  obtain ⟨oa, s, a1, a2, a3, a4⟩ := printable_fixed junk o hwf hfit ha
  obtain ⟨ob, t, b1, b2, b3, b4⟩ := printable_fixed junk o hwf hfit hb
  refine ⟨oa, ob, s, t, _, _, a1, a2, a3, b1, b2, b3, ?_, ?_⟩
  · by_cases hv : v < 0
    · rw [if_pos hv]
      by_cases hw : w < 0
      · rw [if_pos hw]
        have := magPrinted_mono b4 a4 (by omega) (precisionOf o)
        omega
      · rw [if_neg hw]; omega
    · rw [if_neg hv, if_neg (by omega)]
      have := magPrinted_mono a4 b4 (by omega) (precisionOf o)
      omega
  · intro hd
    generalize precisionOf o = p at *
    have hT : 0 < 10 ^ p := Nat.pow_pos (by decide)
    have hE : ((2 ^ 128 * (10 ^ p - 1) : Nat) : Int) = 2 ^ 128 * (10 ^ p - 1) := by push_cast [hT]; rfl
    rw [← hE] at hd
    have hTc : ((10 ^ p : Nat) : Int) = 10 ^ p := by push_cast; rfl
    rw [← hTc] at hd
    by_cases hv : v < 0
    · rw [if_pos hv]
      by_cases hw : w < 0
      · rw [if_pos hw]
        have := magPrinted_strict b4 a4 p (by
          zify
          rw [show (|v| : Int) = -v by rw [abs_of_neg hv], show (|w| : Int) = -w by rw [abs_of_neg hw]]
          push_cast at hd ⊢
          linarith)
        omega
      · rw [if_neg hw]
        have : 0 < magPrinted v.natAbs p := by
          unfold magPrinted
          have h1 : 0 < v.natAbs / scale := Nat.div_pos (by
            have := ha.sign
            rw [show scale = 2 ^ 149 from rfl]; omega) (Nat.two_pow_pos _)
          have := Nat.mul_pos h1 hT
          omega
        omega
    · rw [if_neg hv, if_neg (by omega)]
      have := magPrinted_strict a4 b4 p (by
        zify
        rw [show (|v| : Int) = v by rw [abs_of_nonneg (by omega)], show (|w| : Int) = w by rw [abs_of_nonneg (by omega)]]
        push_cast at hd ⊢
        linarith)
      omega

/-- The absolute value. -/
def absBits (b : BitVec 32) : BitVec 32 := b &&& 0x7FFFFFFF

theorem absBits_mag (b : BitVec 32) : magOfBits (absBits b) = magOfBits b ∧ (absBits b).msb = false := by
  have h : (absBits b).toNat = b.toNat % 2 ^ 31 := by
    unfold absBits
    rw [BitVec.toNat_and, show (0x7FFFFFFF : BitVec 32).toNat = 2 ^ 31 - 1 from rfl, Nat.and_two_pow_sub_one_eq_mod]
  have h1 : (absBits b).toNat / 2 ^ 23 % 256 = b.toNat / 2 ^ 23 % 256 := by rw [h]; omega
  have h2 : (absBits b).toNat % 2 ^ 23 = b.toNat % 2 ^ 23 := by rw [h]; omega
  constructor
  · unfold magOfBits
    simp only [h1, h2]
  · rw [BitVec.msb_eq_decide, h]
    simp only [decide_eq_false_iff_not]
    omega

theorem absBits_val {b : BitVec 32} {v : Int} (h : valOf b = some v) : valOf (absBits b) = some (v.natAbs : Int) := by
  unfold valOf at *
  rw [Option.map_eq_some_iff] at *
  obtain ⟨m, h1, h2⟩ := h
  obtain ⟨k1, k2⟩ := absBits_mag b
  refine ⟨m, by rw [k1, h1], ?_⟩
  rw [k2, ← h2]
  simp only [Bool.false_eq_true, if_false]
  split
  · rw [Int.natAbs_neg, Int.natAbs_natCast]
  · rw [Int.natAbs_natCast]

/-- **C108**: a value between -1 and 0 is printed as its absolute value, whatever the state of the buffer. -/
theorem fraction_without_sign (junk : Nat → Byte) (o : BOut) (b : BitVec 32) (v : Int) (hv : valOf b = some v)
    (h : -(2 ^ 149) < v ∧ v ≤ 0) : o.putFloat junk b = o.putFloat junk (absBits b) := by
  obtain ⟨k1, k2⟩ := absBits_mag b
  unfold valOf at hv
  rw [Option.map_eq_some_iff] at hv
  obtain ⟨m, h1, h2⟩ := hv
  have hm : m / scale = 0 := Nat.div_eq_of_lt (by
    rw [show scale = 2 ^ 149 from rfl]; split at h2 <;> omega)
  have ht : ∀ n, truncToInt n m = .ok 0 := by
    intro n
    unfold truncToInt
    simp [hm]
  unfold BOut.putFloat toCharsFloat
  simp only [k1, h1, Res.ofOption_some, Res.bind_ok, ht]

/-- **C108**: a value of -1 or below is printed as a minus sign and its absolute value. -/
theorem negative_mirrored (junk : Nat → Byte) (o : BOut) (hwf : o.WF) (hfit : o.size + 12 + precisionOf o ≤ o.capacity)
    (b : BitVec 32) (v : Int) (hv : valOf b = some v) (h : -(2 ^ 31 * 2 ^ 149) < v ∧ v ≤ -(2 ^ 149)) :
    ∃ o1 o2 s, o.putFloat junk b = .ok o1 ∧ o.putFloat junk (absBits b) = .ok o2 ∧ o1.text = o.text ++ 45 :: s ∧
      o2.text = o.text ++ s := by
  obtain ⟨k1, k2⟩ := absBits_mag b
  unfold valOf at hv
  rw [Option.map_eq_some_iff] at hv
  obtain ⟨m, h1, h2⟩ := hv
  have hmsb : b.msb = true := by
    by_contra hc
    rw [if_neg hc] at h2
    omega
  rw [if_pos hmsb] at h2
  have hq := Nat.div_add_mod m (2 ^ 149)
  have hr := Nat.mod_lt m (Nat.two_pow_pos 149)
  generalize hQ : m / 2 ^ 149 = q at *
  have hq1 : 0 < q ∧ q < 2 ^ 31 := by omega
  have l1 := intDec_length (-(q : Int)) (by omega)
  have l2 := intDec_length (q : Int) (by omega)
  obtain ⟨o1, a1, a2⟩ := float_text junk o hwf b m (-(q : Int)) h1 (by rw [hmsb, hQ]; rfl) (by omega) (by omega)
  obtain ⟨o2, b1, b2⟩ := float_text junk o hwf (absBits b) m q (by rw [k1, h1]) (by rw [k2, hQ]; rfl) (by omega) (by omega)
  refine ⟨o1, o2, _, a1, b1, ?_, b2.text⟩
  have hd : intDec (-(q : Int)) = 45 :: intDec q := by
    unfold intDec
    rw [if_pos (by omega), if_neg (by omega), Int.natAbs_neg]
  have hlen : (if precisionOf o = 0 then [] else
      (46 : Byte) :: (fdigits (m % scale) (precisionOf o)).map fun d => BitVec.ofNat 8 (48 + d)).length ≤ precisionOf o + 1 := by
    split
    · simp
    · simp [fdigits_length]
  rw [hd, List.length_cons] at l1
  rw [a2.text, hd, List.take_of_length_le (by rw [List.length_append, List.length_cons]; omega),
    List.take_of_length_le (by rw [List.length_append]; omega)]
  rfl

/-- **C108** is false between -1 and 0: there the order is reversed. -/
theorem fractions_reversed (junk : Nat → Byte) (o : BOut) (hwf : o.WF) (hfit : o.size + 12 + precisionOf o ≤ o.capacity)
    (a b : BitVec 32) (v w : Int) (ha : valOf a = some v) (hb : valOf b = some w) (hv : -(2 ^ 149) < v) (hle : v ≤ w)
    (hw : w ≤ 0) :
    ∃ oa ob s t x y, o.putFloat junk a = .ok oa ∧ oa.text = o.text ++ s ∧ Fixed (precisionOf o) s x ∧
      o.putFloat junk b = .ok ob ∧ ob.text = o.text ++ t ∧ Fixed (precisionOf o) t y ∧ y ≤ x := by
  rw [fraction_without_sign junk o a v ha ⟨hv, by omega⟩, fraction_without_sign junk o b w hb ⟨by omega, hw⟩]
  obtain ⟨ob, oa, t, s, y, x, h1, h2, h3, h4, h5, h6, h7, -⟩ := floats_ordered_partial junk o hwf hfit (absBits b) (absBits a)
    w.natAbs v.natAbs ⟨absBits_val hb, by omega, by omega⟩ ⟨absBits_val ha, by omega, by omega⟩ (by omega)
  exact ⟨oa, ob, s, t, x, y, h4, h5, h6, h1, h2, h3, h7⟩

/-! ### Examples -/

theorem printable_of {b : BitVec 32} {v : Int} (h : valOf b = some v)
    (h2 : ¬(-(2 ^ 149) < v ∧ v < 0) ∧ -((2 ^ 31 + 1) * 2 ^ 149) < v ∧ v < 2 ^ 31 * 2 ^ 149) : Printable b v :=
  ⟨h, h2.1, h2.2⟩

/-- 0.1 and 2.5 with three decimals; 0.1 is printed as 0.100 and not as 0.099 although the float is not one tenth. -/
example : Printable 0x3DCCCCCD (13421773 * 2 ^ 122) ∧ Printable 0x40200000 (5 * 2 ^ 148) ∧
    ((BOut.new (List.replicate 16 0)).setPrecision 3).putFloat (fun _ => 63) 0x3DCCCCCD =
      .ok ⟨[48, 46, 49, 48, 48, 0, 0, 0, 0, 0, 0, 0, 0, 0, 0, 0], 5, 3, 0, 32⟩ ∧
    Fixed 3 [48, 46, 49, 48, 48] 100 ∧ Fixed 2 [45, 50, 46, 53, 48] (-250) := by
  refine ⟨printable_of (by decide +kernel) (by decide), printable_of (by decide +kernel) (by decide), by decide +kernel, ?_, ?_⟩
  · exact ⟨[48], [49, 48, 48], 0, 100, rfl, rfl, by decide, by decide, by decide⟩
  · exact ⟨[45, 50], [53, 48], -2, 50, rfl, rfl, by decide, by decide, by decide⟩

example : ∃ oa ob s t x y, ((BOut.new (List.replicate 16 0)).setPrecision 3).putFloat (fun _ => 63) 0x3DCCCCCD = .ok oa ∧
    oa.text = [] ++ s ∧ Fixed 3 s x ∧ ((BOut.new (List.replicate 16 0)).setPrecision 3).putFloat (fun _ => 63) 0x40200000 = .ok ob ∧
    ob.text = [] ++ t ∧ Fixed 3 t y ∧ x ≤ y ∧ (9 * ((13421773 * 2 ^ 122) * 10 ^ 3) + 9 * 2 ^ 149 + 2 * (2 ^ 128 * (10 ^ 3 - 1)) ≤
      9 * ((5 * 2 ^ 148) * 10 ^ 3 : Int) → x < y) :=
  floats_ordered_partial (fun _ => 63) ((BOut.new (List.replicate 16 0)).setPrecision 3) (by decide) (by decide) 0x3DCCCCCD 0x40200000
    (13421773 * 2 ^ 122) (5 * 2 ^ 148) (printable_of (by decide +kernel) (by decide)) (printable_of (by decide +kernel) (by decide))
    (by decide)

/-- -0.5 is printed like 0.5, -2.5 with a minus sign; -0.5 < -0.25 in the wrong order. -/
example : valOf 0xBF000000 = some (-(2 ^ 148)) ∧ valOf 0xBE800000 = some (-(2 ^ 147)) ∧ valOf 0xC0200000 = some (-(5 * 2 ^ 148)) ∧
    absBits 0xBF000000 = 0x3F000000 := by
  refine ⟨by decide +kernel, by decide +kernel, by decide +kernel, by decide⟩

end Verif.Out
