import Verif.Out.Std
import Verif.Out.Order
/-!
# C116: how far printed floats are from those of a standard string stream

The buffer cuts where the stream rounds, and its decimals are computed in single precision.  With up to seven decimals the
number printed is nevertheless the one the stream prints or one unit of the last decimal nearer to zero, for every float;
with eight decimals it may be farther away, on either side.
-/
namespace Verif.Out

/-- Large products are rounded to multiples of `2^128`. -/
theorem rnd_dvd {m : Nat} (h : 2 ^ 151 ≤ m) : 2 ^ 128 ∣ rnd m := by
  have hl : 151 ≤ m.log2 := (Nat.le_log2 (by omega)).2 h
  have hd : 2 ^ 128 ∣ 2 ^ (m.log2 + 1 - 24) := Nat.pow_dvd_pow 2 (by omega)
  unfold rnd
  simp only
  split
  · exact Dvd.dvd.mul_left hd _
  · split
    · exact Dvd.dvd.mul_left hd _
    · split
      · exact Dvd.dvd.mul_left hd _
      · exact Dvd.dvd.mul_left hd _

/-- Up to seven decimals: less than half a unit above the value, less than one and a half below. -/
theorem fval_near {f : Nat} (h : Rep24 f) (hf : f < scale) {p : Nat} (hp : p ≤ 7) :
    2 * (fval f p * scale) < 2 * (f * 10 ^ p) + scale ∧ 2 * (f * 10 ^ p) < 2 * (fval f p * scale) + 3 * scale := by
  have hs : scale = 2 ^ 149 := rfl
  cases p with
  | zero => simp [fval, fdigits]; omega
  | succ k =>
    obtain ⟨-, -, -, h4, h5⟩ := loop_step h hf
    have hT : 10 ^ k ≤ 1000000 := Nat.pow_le_pow_right (n := 10) (by decide) (show k ≤ 6 by omega)
    have hT0 : 0 < 10 ^ k := Nat.pow_pos (by decide)
    have e10 : f * 10 ^ (k + 1) = f * 10 * 10 ^ k := by rw [Nat.pow_succ]; ring
    have hd := Nat.div_add_mod (rnd (f * 10)) scale
    rw [fval_succ, e10]
    by_cases hc : 2 ^ 151 ≤ f * 10
    · have hE := rnd_err (f * 10) 129 (by
        have : (2 : Nat) ^ (24 + 129) = 16 * 2 ^ 149 := by rw [show 24 + 129 = 4 + 149 from rfl, Nat.pow_add]
        rw [this]; omega)
      have hdv : 2 ^ 128 ∣ rnd (f * 10) % scale :=
        (Nat.dvd_mod_iff ⟨2 ^ 21, by rw [hs, ← Nat.pow_add]⟩).2 (rnd_dvd hc)
      rw [fval_exact h5 hdv]
      have hq := Nat.div_add_mod (rnd (f * 10) % scale * 10 ^ k) scale
      have hr := Nat.mod_lt (rnd (f * 10) % scale * 10 ^ k) (show 0 < scale by rw [hs]; positivity)
      generalize rnd (f * 10) % scale * 10 ^ k % scale = r2 at *
      generalize rnd (f * 10) % scale * 10 ^ k / scale = v at *
      generalize rnd (f * 10) % scale = r at *
      generalize rnd (f * 10) / scale = d at *
      generalize rnd (f * 10) = g at *
      generalize f * 10 = m at *
      rw [show scale = 2 ^ 20 * 2 ^ 129 from by unfold scale; rw [← Nat.pow_add]] at *
      generalize (2 : Nat) ^ 129 = E at *
      generalize 10 ^ k = T at *
      have e1 : g * T = 2 ^ 20 * E * (d * T + v) + r2 := by rw [← hd, Nat.add_mul, ← hq]; ring
      have b1 := Nat.mul_le_mul_right T hE.1
      have b2 := Nat.mul_le_mul_right T hE.2
      have b3 : E * T ≤ E * 1000000 := Nat.mul_le_mul_left E hT
      constructor <;> nlinarith
    · have hE := rnd_err (f * 10) 127 (by rw [show 24 + 127 = 151 from rfl]; omega)
      obtain ⟨i1, i2⟩ := fval_err h4 h5 k
      generalize rnd (f * 10) % scale = r at *
      generalize rnd (f * 10) / scale = d at *
      generalize rnd (f * 10) = g at *
      generalize f * 10 = m at *
      generalize fval r k = v at *
      rw [show scale = 2 ^ 22 * 2 ^ 127 from by unfold scale; rw [← Nat.pow_add]] at *
      rw [show (2 : Nat) ^ 128 = 2 * 2 ^ 127 by rw [Nat.pow_succ, Nat.mul_comm]] at *
      have hpos : 0 < (2 : Nat) ^ 127 := by positivity
      generalize (2 : Nat) ^ 127 = E at *
      generalize 10 ^ k = T at *
      obtain ⟨T, rfl⟩ : ∃ j, T = j + 1 := ⟨T - 1, by omega⟩
      rw [show T + 1 - 1 = T by omega] at i1 i2
      have b1 := Nat.mul_le_mul_right (T + 1) hE.1
      have b2 := Nat.mul_le_mul_right (T + 1) hE.2
      have b3 : E * (T + 1) ≤ E * 1000000 := Nat.mul_le_mul_left E hT
      have e1 : g * (T + 1) = 2 ^ 22 * E * (d * (T + 1)) + r * (T + 1) := by rw [← hd]; ring
      constructor <;> nlinarith

/-- The magnitude printed is the one the stream prints or a unit less. -/
theorem magPrinted_near {mag p R : Nat} (h : Rep24 mag) (hp : p ≤ 7) (hR : Rounded R (mag * 10 ^ p) (2 ^ 149)) :
    magPrinted mag p ≤ R ∧ R ≤ magPrinted mag p + 1 := by
  have hs : (2 : Nat) ^ 149 = scale := rfl
  have hs0 : 0 < scale := by unfold scale; positivity
  obtain ⟨n1, n2⟩ := fval_near (h.mod 149) (Nat.mod_lt _ hs0) hp
  obtain ⟨r1, -⟩ := hR
  unfold magPrinted
  rw [hs] at *
  have hd := Nat.div_add_mod mag scale
  generalize mag % scale = r at *
  generalize mag / scale = q at *
  generalize fval r p = v at *
  generalize 10 ^ p = T at *
  have e1 : (mag : Int) * T = q * T * scale + r * T := by rw [← hd]; push_cast; ring
  zify at n1 n2 hs0 r1
  rw [e1] at r1
  have a1 := abs_le.1 (show |((R : Int) - q * T) * scale - r * T| ≤ |((R : Int) - q * T) * scale - r * T| from le_refl _)
  have a2 : 2 * |((R : Int) - q * T) * scale - r * T| ≤ scale := by
    rw [show ((R : Int) - q * T) * scale - r * T = R * scale - (q * T * scale + r * T) by ring]; exact r1
  generalize |((R : Int) - q * T) * scale - r * T| = A at *
  have b1 : ((v : Int) - (R - q * T)) * scale < 1 * scale := by nlinarith
  have b2 : (((R : Int) - q * T) - v) * scale < 2 * scale := by nlinarith
  have c1 := lt_of_mul_lt_mul_right b1 hs0.le
  have c2 := lt_of_mul_lt_mul_right b2 hs0.le
  constructor <;> zify <;> linarith

/-- The text of the stream as a number. -/
theorem fixedText_value {bits : BitVec 32} {p : Nat} {s : List Byte} (h : FixedText bits p s) :
    ∃ mag R : Nat, magOfBits bits = some mag ∧ Rounded R (mag * 10 ^ p) (2 ^ 149) ∧
      Fixed p s (if bits.msb then -(R : Int) else R) := by
  obtain ⟨mag, R, d, ds, h1, h2, h3, h4, h5, rfl⟩ := h
  refine ⟨mag, R, h1, h2, ?_⟩
  have hdm := Nat.div_add_mod R (10 ^ p)
  have hd0 : d ≠ [] := by
    rintro rfl
    have := h3.1
    simp [parseInt] at this
  have hhead : d.head? ≠ some 45 := by
    intro hh
    obtain ⟨r, rfl⟩ := List.head?_eq_some_iff.1 hh
    exact isDec_head h3 r rfl
  cases hb : bits.msb with
  | false =>
    refine ⟨d, ds, (R / 10 ^ p : Nat), R % 10 ^ p, by simp, h4, h3.1, h5, ?_⟩
    rw [if_neg hhead]
    simp only [Bool.false_eq_true, if_false]
    zify at hdm ⊢
    linarith
  | true =>
    have hp : parseNatAux 0 d = some (R / 10 ^ p) := by
      have h := h3.1
      unfold parseInt at h
      cases d with
      | nil => cases h
      | cons c cs =>
        simp only at h
        rw [if_neg (by simpa using hhead)] at h
        obtain ⟨w, hw, hw'⟩ := Option.map_eq_some_iff.1 h
        rw [hw]
        congr 1
        exact_mod_cast hw'
    refine ⟨45 :: d, ds, -(R / 10 ^ p : Nat), R % 10 ^ p, by simp, h4, ?_, h5, ?_⟩
    · simp [parseInt, hd0, hp]
    · rw [if_pos rfl, if_pos (by simp)]
      zify at hdm ⊢
      linarith

/-- **C116**: with up to seven decimals every float is printed as the number a stream prints, or as the one a unit of the
last decimal nearer to zero; only the sign of values between -1 and 0 is lost.  Missing: more decimals, where this is false
(`far_from_stream`). -/
theorem near_stream_partial (junk : Nat → Byte) (o : BOut) (hwf : o.WF) (hfit : o.size + 12 + precisionOf o ≤ o.capacity)
    (hp : precisionOf o ≤ 7) (bits : BitVec 32) (v : Int) (hv : valOf bits = some v)
    (hr : -((2 ^ 31 + 1) * 2 ^ 149) < v ∧ v < 2 ^ 31 * 2 ^ 149) (s : List Byte) (hs : FixedText bits (precisionOf o) s) :
    ∃ o' t x y, o.putFloat junk bits = .ok o' ∧ o'.text = o.text ++ t ∧ Fixed (precisionOf o) t x ∧ Fixed (precisionOf o) s y ∧
      (y.natAbs = x.natAbs ∨ y.natAbs = x.natAbs + 1) ∧ (0 ≤ v → 0 ≤ x ∧ 0 ≤ y) ∧ (v ≤ -(2 ^ 149) → x < 0 ∧ y < 0) ∧
      (-(2 ^ 149) < v → v < 0 → 0 ≤ x ∧ y ≤ 0) := by
  obtain ⟨mag, R, g1, g2, g3⟩ := fixedText_value hs
  have hmag : v = if bits.msb then -(mag : Int) else mag := by
    unfold valOf at hv
    rw [g1] at hv
    exact (Option.some.inj hv).symm
  have hva : v.natAbs = mag := by rw [hmag]; split <;> simp
  obtain ⟨m1, m2⟩ := magPrinted_near (magOfBits_repr g1) hp g2
  have hbig : 2 ^ 149 ≤ mag → 0 < magPrinted mag (precisionOf o) := by
    intro h
    unfold magPrinted
    have h1 : 0 < mag / scale := Nat.div_pos h (Nat.two_pow_pos _)
    have := Nat.mul_pos h1 (show 0 < 10 ^ precisionOf o by positivity)
    omega
  by_cases hf : -(2 ^ 149) < v ∧ v < 0
  · rw [fraction_without_sign junk o bits v hv ⟨hf.1, hf.2.le⟩]
    obtain ⟨o', t, k1, k2, k3, -⟩ := printable_fixed junk o hwf hfit (bits := absBits bits) (v := v.natAbs)
      ⟨absBits_val hv, by omega, by omega⟩
    rw [if_neg (by omega), Int.natAbs_natCast, hva] at k3
    refine ⟨o', t, _, _, k1, k2, k3, g3, ?_, by omega, by omega, ?_⟩
    · split <;> simp <;> omega
    · intro _ _
      have : bits.msb = true := by
        cases hb : bits.msb with
        | true => rfl
        | false => rw [hb] at hmag; simp at hmag; omega
      rw [this]
      simp only [if_true]
      omega
  · obtain ⟨o', t, k1, k2, k3, -⟩ := printable_fixed junk o hwf hfit (bits := bits) (v := v) ⟨hv, hf, hr⟩
    rw [hva] at k3
    refine ⟨o', t, _, _, k1, k2, k3, g3, ?_, ?_, ?_, by omega⟩
    · split <;> split <;> simp <;> omega
    · intro h0
      rw [if_neg (by omega)]
      refine ⟨by omega, ?_⟩
      cases hb : bits.msb with
      | false => simp
      | true =>
        rw [hb] at hmag
        simp only [if_true] at hmag ⊢
        have : mag = 0 := by omega
        subst this
        have : magPrinted 0 (precisionOf o) = 0 := by
          have := (fval_near (f := 0) ⟨0, 0, rfl, by decide⟩ (Nat.two_pow_pos _) hp).1
          unfold magPrinted
          simp only [Nat.zero_div, Nat.zero_mod, Nat.zero_mul, Nat.mul_zero, Nat.zero_add] at this ⊢
          by_contra hne
          have := Nat.mul_le_mul_right scale (show 1 ≤ fval 0 (precisionOf o) by omega)
          omega
        rw [this] at m1 m2
        obtain ⟨r1, -⟩ := g2
        simp at r1
        omega
    · intro h0
      have hb : bits.msb = true := by
        cases hb : bits.msb with
        | true => rfl
        | false => rw [hb] at hmag; simp at hmag; omega
      rw [if_pos (by omega), hb]
      simp only [if_true]
      have := hbig (by omega)
      omega

/-- **C116**: with eight decimals it is false, on both sides: a float near 0.96 is printed as 0.96266565, by a stream as
0.96266562; one near 0.99 as 0.98857707, by a stream as 0.98857713. -/
theorem far_from_stream :
    (((BOut.new (List.replicate 20 0)).setPrecision 8).putFloat (fun _ => 0) 0x3F767141).bind (fun o => .ok o.text) =
      .ok [48, 46, 57, 54, 50, 54, 54, 53, 54, 53] ∧ FixedText 0x3F767141 8 [48, 46, 57, 54, 50, 54, 54, 53, 54, 50] ∧
    (((BOut.new (List.replicate 20 0)).setPrecision 8).putFloat (fun _ => 0) 0x3F7D1364).bind (fun o => .ok o.text) =
      .ok [48, 46, 57, 56, 56, 53, 55, 55, 48, 55] ∧ FixedText 0x3F7D1364 8 [48, 46, 57, 56, 56, 53, 55, 55, 49, 51] := by
  refine ⟨by decide +kernel, ⟨(0x767141 + 2 ^ 23) * 2 ^ 125, 96266562, [48], [57, 54, 50, 54, 54, 53, 54, 50], by decide +kernel, ?_,
    ⟨by decide, .inl rfl⟩, rfl, by decide, by decide⟩, by decide +kernel, ⟨(0x7D1364 + 2 ^ 23) * 2 ^ 125, 98857713, [48],
    [57, 56, 56, 53, 55, 55, 49, 51], by decide +kernel, ?_, ⟨by decide, .inl rfl⟩, rfl, by decide, by decide⟩⟩
  · unfold Rounded; decide +kernel
  · unfold Rounded; decide +kernel

/-! ### Concrete cases -/

/-- A float near 0.37441158: "0.374411" where a stream prints "0.374412"; and 0.7, printed alike. -/
example : (((BOut.new (List.replicate 20 0)).setPrecision 6).putFloat (fun _ => 0) 0x3EBFB2E0).bind (fun o => .ok o.text) =
      .ok [48, 46, 51, 55, 52, 52, 49, 49] ∧
    (((BOut.new (List.replicate 20 0)).setPrecision 6).putFloat (fun _ => 0) 0x3F333333).bind (fun o => .ok o.text) =
      .ok [48, 46, 55, 48, 48, 48, 48, 48] := by decide +kernel

example : FixedText 0x3EBFB2E0 6 [48, 46, 51, 55, 52, 52, 49, 50] ∧ valOf 0x3EBFB2E0 = some ((0x3FB2E0 + 2 ^ 23) * 2 ^ 124) :=
  ⟨⟨(0x3FB2E0 + 2 ^ 23) * 2 ^ 124, 374412, [48], [51, 55, 52, 52, 49, 50], by decide +kernel, by unfold Rounded; decide +kernel,
    ⟨by decide, .inl rfl⟩, rfl, by decide, by decide⟩, by decide +kernel⟩

end Verif.Out
