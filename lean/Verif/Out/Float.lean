import Verif.Out.Props
import Mathlib.Tactic.Linarith
import Mathlib.Tactic.Ring
import Mathlib.Tactic.ByContra
/-!
# C21: float output
-/
namespace Verif.Out

/-! ## Rounding -/

/-- At most 24 significant bits. -/
def Rep24 (m : Nat) : Prop := ∃ q e, m = q * 2 ^ e ∧ q < 2 ^ 24

private theorem log2_bounds {m : Nat} (h : m ≠ 0) : 2 ^ m.log2 ≤ m ∧ m < 2 ^ (m.log2 + 1) :=
  ⟨Nat.log2_self_le h, Nat.lt_log2_self⟩

theorem rnd_id {m : Nat} (h : Rep24 m) : rnd m = m := by
  obtain ⟨q, e', rfl, hq⟩ := h
  generalize hm : q * 2 ^ e' = m
  have hdvd : 2 ^ (m.log2 + 1 - 24) ∣ m := by
    by_cases h0 : m = 0
    · subst h0; exact Nat.dvd_zero _
    · have hlt : m < 2 ^ (24 + e') := by
        rw [← hm, Nat.pow_add]
        exact Nat.mul_lt_mul_of_pos_right hq (Nat.two_pow_pos _)
      have : 2 ^ m.log2 < 2 ^ (24 + e') := Nat.lt_of_le_of_lt (log2_bounds h0).1 hlt
      have := (Nat.pow_lt_pow_iff_right (by decide : 1 < 2)).1 this
      exact Nat.dvd_trans (Nat.pow_dvd_pow 2 (show _ ≤ e' by omega)) ⟨q, by rw [← hm, Nat.mul_comm]⟩
  unfold rnd
  simp only [Nat.mod_eq_zero_of_dvd hdvd, Nat.mul_zero]
  rw [if_pos (Nat.two_pow_pos _), Nat.div_mul_cancel hdvd]

theorem rnd_repr (m : Nat) : Rep24 (rnd m) := by
  have hq : m / 2 ^ (m.log2 + 1 - 24) < 2 ^ 24 := by
    rw [Nat.div_lt_iff_lt_mul (Nat.two_pow_pos _), ← Nat.pow_add]
    by_cases h0 : m = 0
    · subst h0; exact Nat.two_pow_pos _
    · exact Nat.lt_of_lt_of_le (log2_bounds h0).2 (Nat.pow_le_pow_right (by decide) (by omega))
  have hs : ∀ q e, q < 2 ^ 24 → Rep24 ((q + 1) * 2 ^ e) := by
    intro q e hq
    by_cases h1 : q + 1 < 2 ^ 24
    · exact ⟨q + 1, e, rfl, h1⟩
    · have : q + 1 = 2 ^ 24 := by omega
      exact ⟨2 ^ 23, e + 1, by rw [this, Nat.pow_succ (m := e)]; ring, by decide⟩
  unfold rnd
  simp only
  split
  · exact ⟨_, _, rfl, hq⟩
  · split
    · exact hs _ _ hq
    · split
      · exact ⟨_, _, rfl, hq⟩
      · exact hs _ _ hq

/-- The rounding error is at most half a unit in the last place. -/
theorem rnd_err (m E : Nat) (h : m < 2 ^ (24 + E)) :
    2 * rnd m ≤ 2 * m + 2 ^ E ∧ 2 * m ≤ 2 * rnd m + 2 ^ E := by
  have he : 2 ^ (m.log2 + 1 - 24) ≤ 2 ^ E := by
    apply Nat.pow_le_pow_right (by decide)
    by_cases h0 : m = 0
    · subst h0; simp
    · have : 2 ^ m.log2 < 2 ^ (24 + E) := Nat.lt_of_le_of_lt (log2_bounds h0).1 h
      have := (Nat.pow_lt_pow_iff_right (by decide : 1 < 2)).1 this
      omega
  unfold rnd
  simp only
  have hpos : 0 < 2 ^ (m.log2 + 1 - 24) := Nat.two_pow_pos _
  generalize 2 ^ (m.log2 + 1 - 24) = P at *
  have hd := Nat.div_add_mod m P
  rw [Nat.mul_comm] at hd
  have hs : (m / P + 1) * P = m / P * P + P := by ring
  split
  · omega
  · split
    · have : m % P < P := Nat.mod_lt _ hpos
      omega
    · split <;> omega

/-- Rounding is that of IEEE 754: no representable number is nearer, and of two at the same distance the one with an even
last bit is chosen. -/
theorem rnd_nearest (m x : Nat) (hx : Rep24 x) :
    ((rnd m : Int) - m).natAbs ≤ ((x : Int) - m).natAbs ∧
    (x ≠ rnd m → ((rnd m : Int) - m).natAbs = ((x : Int) - m).natAbs → 2 * 2 ^ (m.log2 + 1 - 24) ∣ rnd m) := by
  by_cases hsmall : m < 2 ^ 24
  · have : rnd m = m := rnd_id ⟨m, 0, by simp, hsmall⟩
    rw [this]
    exact ⟨by simp, fun h1 h2 => by omega⟩
  · have h0 : m ≠ 0 := by rintro rfl; simp at hsmall
    obtain ⟨hl1, hl2⟩ := log2_bounds h0
    have hlog : 24 ≤ m.log2 := by
      have : 2 ^ 24 < 2 ^ (m.log2 + 1) := Nat.lt_of_le_of_lt (by omega) hl2
      have := (Nat.pow_lt_pow_iff_right (by decide : 1 < 2)).1 this
      omega
    obtain ⟨e, he⟩ : ∃ e, m.log2 + 1 - 24 = e + 1 := ⟨m.log2 - 24, by omega⟩
    have hbig : 2 ^ 23 * 2 ^ (e + 1) ≤ m := by
      rw [← Nat.pow_add, show 23 + (e + 1) = m.log2 by omega]; exact hl1
    have hcase : x < 2 ^ 23 * 2 ^ (e + 1) ∨ 2 ^ (e + 1) ∣ x := by
      obtain ⟨k, e', rfl, hk⟩ := hx
      by_cases hee : e + 1 ≤ e'
      · exact .inr (Nat.dvd_trans (Nat.pow_dvd_pow 2 hee) ⟨k, Nat.mul_comm _ _⟩)
      · left
        calc k * 2 ^ e' ≤ k * 2 ^ e := Nat.mul_le_mul_left _ (Nat.pow_le_pow_right (by decide) (by omega))
          _ < 2 ^ 24 * 2 ^ e := Nat.mul_lt_mul_of_pos_right hk (Nat.two_pow_pos _)
          _ = 2 ^ 23 * 2 ^ (e + 1) := by rw [Nat.pow_succ 2 e]; ring
    have hpos : 0 < 2 ^ (e + 1) := Nat.two_pow_pos _
    unfold rnd
    simp only [he]
    generalize 2 ^ (e + 1) = P at *
    have hd := Nat.div_add_mod m P
    rw [Nat.mul_comm] at hd
    have hr := Nat.mod_lt m hpos
    generalize m / P = Q at *
    generalize m % P = r at *
    have hs : (Q + 1) * P = Q * P + P := by ring
    have hx' : x + P ≤ Q * P ∨ x = Q * P ∨ x = Q * P + P ∨ Q * P + 2 * P ≤ x ∨ (x < Q * P) := by
      rcases hcase with h | ⟨c, rfl⟩
      · have : 2 ^ 23 ≤ Q := by
          by_contra hlt
          have h1 : (Q + 1) * P ≤ 2 ^ 23 * P := Nat.mul_le_mul_right _ (by omega)
          omega
        have : 2 ^ 23 * P ≤ Q * P := Nat.mul_le_mul_right _ this
        omega
      · rw [Nat.mul_comm P c]
        rcases Nat.lt_trichotomy c Q with h | h | h
        · have : (c + 1) * P ≤ Q * P := Nat.mul_le_mul_right _ h
          rw [Nat.add_mul, Nat.one_mul] at this
          omega
        · subst h; omega
        · by_cases h1 : c = Q + 1
          · subst h1; omega
          · have : (Q + 2) * P ≤ c * P := Nat.mul_le_mul_right _ (by omega)
            rw [Nat.add_mul] at this
            omega
    have hev : ∀ t, t % 2 = 0 → 2 * P ∣ t * P := by
      intro t ht
      obtain ⟨u, rfl⟩ : ∃ u, t = 2 * u := ⟨t / 2, by omega⟩
      exact ⟨u, by ring⟩
    split
    · refine ⟨by omega, fun h1 h2 => ?_⟩
      omega
    · split
      · refine ⟨by omega, fun h1 h2 => ?_⟩
        omega
      · split
        · exact ⟨by omega, fun _ _ => hev Q (by assumption)⟩
        · exact ⟨by omega, fun _ _ => hev (Q + 1) (by omega)⟩

/-- A tie between two numbers of 24 bits: the even one is taken, below or above. -/
example : rnd (2 ^ 24 + 1) = 2 ^ 24 ∧ rnd (2 ^ 24 + 3) = 2 ^ 24 + 4 := by decide +kernel

theorem Rep24.mod {m : Nat} (h : Rep24 m) (k : Nat) : Rep24 (m % 2 ^ k) := by
  obtain ⟨q, e, rfl, hq⟩ := h
  by_cases hk : k ≤ e
  · refine ⟨0, 0, ?_, by decide⟩
    have : 2 ^ k ∣ q * 2 ^ e := Nat.dvd_trans (Nat.pow_dvd_pow 2 hk) ⟨q, Nat.mul_comm _ _⟩
    rw [Nat.mod_eq_zero_of_dvd this]; rfl
  · refine ⟨q % 2 ^ (k - e), e, ?_, Nat.lt_of_le_of_lt (Nat.mod_le _ _) hq⟩
    have : 2 ^ k = 2 ^ (k - e) * 2 ^ e := by rw [← Nat.pow_add]; congr 1; omega
    rw [this, Nat.mul_mod_mul_right]

theorem Rep24.of_mul {q : Nat} (e : Nat) (h : q < 2 ^ 24) : Rep24 (q * 2 ^ e) := ⟨q, e, rfl, h⟩

/-- The integer part of a representable number is representable. -/
theorem Rep24.floor {m : Nat} (h : Rep24 m) (k : Nat) : Rep24 (m / 2 ^ k * 2 ^ k) := by
  obtain ⟨q, e, rfl, hq⟩ := h
  by_cases hk : k ≤ e
  · have : 2 ^ k ∣ q * 2 ^ e := Nat.dvd_trans (Nat.pow_dvd_pow 2 hk) ⟨q, Nat.mul_comm _ _⟩
    rw [Nat.div_mul_cancel this]
    exact ⟨q, e, rfl, hq⟩
  · have : 2 ^ k = 2 ^ (k - e) * 2 ^ e := by rw [← Nat.pow_add]; congr 1; omega
    have h2 : q * 2 ^ e / 2 ^ k = q / 2 ^ (k - e) := by
      rw [this, Nat.mul_div_mul_right _ _ (Nat.two_pow_pos _)]
    rw [h2]
    exact ⟨q / 2 ^ (k - e), k, rfl, Nat.lt_of_le_of_lt (Nat.div_le_self _ _) hq⟩

/-- **C21**: the float with sign bit `s`, exponent field `e` and fraction field `f` is, by IEEE 754, a number exactly if
the exponent is not 255; in units of `2^-149` its magnitude is the fraction with the hidden bit (none for exponent 0),
shifted by the exponent. -/
theorem float_fields (s : BitVec 1) (e : BitVec 8) (f : BitVec 23) :
    magOfBits (s ++ e ++ f) =
        (if e = 255#8 then none else some ((if e = 0#8 then f.toNat else 2 ^ 23 + f.toNat) <<< (max e.toNat 1 - 1))) ∧
      negOfBits (s ++ e ++ f) = decide (s = 1#1) := by
  have hs := s.isLt
  have he := e.isLt
  have hf := f.isLt
  have hb : (s ++ e ++ f).toNat = s.toNat * 2 ^ 31 + e.toNat * 2 ^ 23 + f.toNat := by
    rw [BitVec.toNat_append, BitVec.toNat_append, ← Nat.shiftLeft_add_eq_or_of_lt hf, ← Nat.shiftLeft_add_eq_or_of_lt he,
      Nat.shiftLeft_eq, Nat.shiftLeft_eq]
    omega
  constructor
  · unfold magOfBits
    rw [hb]
    have h1 : (s.toNat * 2 ^ 31 + e.toNat * 2 ^ 23 + f.toNat) / 2 ^ 23 % 256 = e.toNat := by omega
    have h2 : (s.toNat * 2 ^ 31 + e.toNat * 2 ^ 23 + f.toNat) % 2 ^ 23 = f.toNat := by omega
    simp only [h1, h2]
    have e1 : e.toNat = 255 ↔ e = 255#8 := by rw [← BitVec.toNat_inj]; rfl
    have e2 : e.toNat = 0 ↔ e = 0#8 := by rw [← BitVec.toNat_inj]; rfl
    simp only [e1]
    by_cases h3 : e = 255#8
    · rw [if_pos h3, if_pos h3]
    · rw [if_neg h3, if_neg h3]
      by_cases h4 : e = 0#8
      · rw [if_pos (e2.2 h4), if_pos h4, h4]
        rfl
      · have : e.toNat ≠ 0 := fun h => h4 (e2.1 h)
        rw [if_neg this, if_neg h4, Nat.shiftLeft_eq, Nat.max_eq_left (by omega)]
  · unfold negOfBits
    rw [BitVec.msb_eq_decide, hb, decide_eq_decide, ← BitVec.toNat_inj]
    show _ ↔ s.toNat = 1
    omega

/-- 1.0, -2.5, the smallest and the largest number, infinity. -/
example : magOfBits (0#1 ++ 127#8 ++ 0#23) = some (2 ^ 149) ∧ magOfBits (1#1 ++ 128#8 ++ 0x200000#23) = some (5 * 2 ^ 148) ∧
    magOfBits (0#1 ++ 0#8 ++ 1#23) = some 1 ∧ magOfBits (0#1 ++ 254#8 ++ 0x7FFFFF#23) = some ((2 ^ 24 - 1) * 2 ^ 253) ∧
    magOfBits (0#1 ++ 255#8 ++ 0#23) = none := by
  decide +kernel

/-- Finite floats are representable. -/
theorem magOfBits_repr {b : BitVec 32} {m : Nat} (h : magOfBits b = some m) : Rep24 m := by
  unfold magOfBits at h
  simp only at h
  have hm : b.toNat % 2 ^ 23 < 2 ^ 23 := Nat.mod_lt _ (by decide)
  split at h
  · cases h
  · split at h <;> cases h
    · exact ⟨_, 0, by rw [Nat.pow_zero, Nat.mul_one], by omega⟩
    · exact ⟨_, _, rfl, by omega⟩

/-! ## One decimal -/

private theorem scale_eq : scale = 2 ^ 149 := rfl

/-- The largest representable fraction. -/
private theorem repr_frac_le {f : Nat} (h : Rep24 f) (hf : f < scale) : f ≤ (2 ^ 24 - 1) * 2 ^ 125 := by
  obtain ⟨q, e, rfl, hq⟩ := h
  by_cases he : e ≤ 125
  · exact Nat.mul_le_mul (by omega) (Nat.pow_le_pow_right (by decide) he)
  · have h1 : 2 ^ e = 2 ^ (e - 125) * 2 ^ 125 := by rw [← Nat.pow_add]; congr 1; omega
    rw [h1, ← Nat.mul_assoc] at hf ⊢
    rw [scale_eq, show (149 : Nat) = 24 + 125 from rfl, Nat.pow_add] at hf
    exact Nat.mul_le_mul_right _ (Nat.le_sub_one_of_lt (Nat.lt_of_mul_lt_mul_right hf))

private theorem ten_lt {f : Nat} (h : Rep24 f) (hf : f < scale) : rnd (f * 10) < 10 * scale := by
  have hle := repr_frac_le h hf
  have he := (rnd_err (f * 10) 129 (by
    have : (2 : Nat) ^ (24 + 129) = 268435456 * 2 ^ 125 := by rw [show 24 + 129 = 28 + 125 from rfl, Nat.pow_add]
    rw [this]; omega)).1
  rw [show (2 : Nat) ^ 129 = 16 * 2 ^ 125 by rw [show 129 = 4 + 125 from rfl, Nat.pow_add]] at he
  have hs : scale = 16777216 * 2 ^ 125 := by rw [scale_eq, show 149 = 24 + 125 from rfl, Nat.pow_add]
  rw [hs]
  generalize (2 : Nat) ^ 125 = P at *
  have : 0 < P ∨ P = 0 := by omega
  rcases this with hP | hP
  · omega
  · subst hP; omega

/-- The digits the loop computes. -/
def fdigits (f : Nat) : Nat → List Nat
  | 0 => []
  | p + 1 => rnd (f * 10) / scale :: fdigits (rnd (f * 10) % scale) p

theorem fdigits_length (f p : Nat) : (fdigits f p).length = p := by
  induction p generalizing f with
  | zero => rfl
  | succ p ih => simp [fdigits, ih]

theorem loop_step {f : Nat} (h : Rep24 f) (hf : f < scale) :
    truncToInt false (rnd (f * 10)) = .ok ((rnd (f * 10) / scale : Nat) : Int) ∧
    rnd (f * 10) / scale < 10 ∧
    fsub (rnd (f * 10)) (absOfInt ((rnd (f * 10) / scale : Nat) : Int)) =
      (false, rnd (f * 10) % scale) ∧
    Rep24 (rnd (f * 10) % scale) ∧ rnd (f * 10) % scale < scale := by
  have hs : 0 < scale := Nat.two_pow_pos _
  have hlt : rnd (f * 10) / scale < 10 := by
    rw [Nat.div_lt_iff_lt_mul hs]; exact ten_lt h hf
  have hg := rnd_repr (f * 10)
  have ha : absOfInt ((rnd (f * 10) / scale : Nat) : Int) = rnd (f * 10) / scale * scale := by
    unfold absOfInt
    rw [Int.natAbs_natCast]
    exact rnd_id (hg.floor 149)
  have hm : Rep24 (rnd (f * 10) % scale) := hg.mod 149
  refine ⟨?_, hlt, ?_, hm, Nat.mod_lt _ hs⟩
  · unfold truncToInt
    simp only [Bool.false_eq_true, if_false]
    generalize rnd (f * 10) / scale = d at *
    rw [if_pos (by omega)]
  · rw [ha]
    unfold fsub
    have hd := Nat.div_add_mod (rnd (f * 10)) scale
    rw [Nat.mul_comm] at hd
    rw [if_pos (by omega), show rnd (f * 10) - rnd (f * 10) / scale * scale = rnd (f * 10) % scale by omega,
      rnd_id hm]

private theorem decimalsLoop_spec (o : BOut) (hwf : o.WF) (f : Nat) (h : Rep24 f) (hf : f < scale) (p : Nat) :
    ∃ m q, decimalsLoop o.mem o.pos (false, f) p = .ok (m, q) ∧
      Appended o { o with mem := m, pos := q }
        (((fdigits f p).map fun d => BitVec.ofNat 8 (48 + d)).take (o.capacity - o.size)) := by
  induction p generalizing o f with
  | zero => exact ⟨o.mem, o.pos, rfl, by simpa [fdigits] using Appended.refl hwf⟩
  | succ p ih =>
    unfold BOut.WF at hwf
    simp only [decimalsLoop]
    by_cases hp : o.pos = o.mem.length
    · rw [if_neg (by omega)]
      refine ⟨o.mem, o.pos, rfl, ?_⟩
      rw [show o.capacity - o.size = 0 by simp [hp]]
      exact .refl hwf
    · rw [if_pos hp]
      obtain ⟨h1, h2, h3, h4, h5⟩ := loop_step h hf
      simp only [h1, Res.bind_ok, h3, Bool.false_bne]
      have hc : BitVec.ofInt 8 (48 + ((rnd (f * 10) / scale : Nat) : Int)) =
          BitVec.ofNat 8 (48 + rnd (f * 10) / scale) := by
        rw [show (48 : Int) + ((rnd (f * 10) / scale : Nat) : Int) = ((48 + rnd (f * 10) / scale : Nat) : Int) by
          push_cast; rfl]
        exact BitVec.ofInt_natCast ..
      rw [hc]
      obtain ⟨m1, g1, g2⟩ := appended_write (o := o) (c := BitVec.ofNat 8 (48 + rnd (f * 10) / scale))
        (by omega)
      rw [g1]
      simp only [Res.bind_ok]
      have hl : m1.length = o.mem.length := g2.len
      obtain ⟨m2, q, g3, g4⟩ := ih { o with mem := m1, pos := o.pos + 1 } g2.wf _ h4 h5
      refine ⟨m2, q, g3, ?_⟩
      have := g2.trans g4
      rw [show o.capacity - o.size = (m1.length - (o.pos + 1)) + 1 by simp only [BOut.capacity, BOut.size]; omega]
      simp only [fdigits, List.map_cons, List.take_succ_cons]
      exact this

/-! ## The number printed -/

theorem parse_digits (acc : Nat) (ds : List Nat) (h : ∀ d ∈ ds, d < 10) :
    parseNatAux acc (ds.map fun d => BitVec.ofNat 8 (48 + d)) =
      some (ds.foldl (fun a d => a * 10 + d) acc) := by
  induction ds generalizing acc with
  | nil => rfl
  | cons d ds ih =>
    simp only [List.mem_cons, forall_eq_or_imp] at h
    simp only [List.map_cons, parseNatAux, digitVal_ofNat d h.1, List.foldl_cons]
    exact ih _ h.2

theorem fdigits_lt {f : Nat} (h : Rep24 f) (hf : f < scale) (p : Nat) :
    ∀ d ∈ fdigits f p, d < 10 := by
  induction p generalizing f with
  | zero => simp [fdigits]
  | succ p ih =>
    obtain ⟨-, h2, -, h4, h5⟩ := loop_step h hf
    simp only [fdigits, List.mem_cons, forall_eq_or_imp]
    exact ⟨h2, ih h4 h5⟩

private theorem foldl_acc (ds : List Nat) (acc : Nat) :
    ds.foldl (fun a d => a * 10 + d) acc = acc * 10 ^ ds.length + ds.foldl (fun a d => a * 10 + d) 0 := by
  induction ds generalizing acc with
  | nil => simp
  | cons d ds ih =>
    simp only [List.foldl_cons, List.length_cons]
    rw [ih (acc * 10 + d), ih (0 * 10 + d), Nat.pow_succ]
    ring

def fval (f p : Nat) : Nat := (fdigits f p).foldl (fun a d => a * 10 + d) 0

theorem fval_succ (f p : Nat) :
    fval f (p + 1) = rnd (f * 10) / scale * 10 ^ p + fval (rnd (f * 10) % scale) p := by
  unfold fval
  simp only [fdigits, List.foldl_cons]
  rw [foldl_acc, fdigits_length]; simp

/-- Error of the printed decimals, in units of 2^-149. -/
theorem fval_err {f : Nat} (h : Rep24 f) (hf : f < scale) (p : Nat) :
    9 * (fval f p * scale) ≤ 9 * (f * 10 ^ p) + 2 ^ 128 * (10 ^ p - 1) ∧
    9 * (f * 10 ^ p) < 9 * (fval f p * scale) + 9 * scale + 2 ^ 128 * (10 ^ p - 1) := by
  induction p generalizing f with
  | zero => simp [fval, fdigits]; omega
  | succ p ih =>
    obtain ⟨-, h2, -, h4, h5⟩ := loop_step h hf
    obtain ⟨i1, i2⟩ := ih h4 h5
    have hE := rnd_err (f * 10) 129 (by
      have hs : scale = 2 ^ 149 := rfl
      have : (2 : Nat) ^ (24 + 129) = 16 * 2 ^ 149 := by rw [show 24 + 129 = 4 + 149 from rfl, Nat.pow_add]
      rw [this]; omega)
    rw [show (2 : Nat) ^ 129 = 2 * 2 ^ 128 by rw [Nat.pow_succ, Nat.mul_comm]] at hE
    rw [fval_succ]
    have hd := Nat.div_add_mod (rnd (f * 10)) scale
    generalize rnd (f * 10) % scale = r at *
    generalize rnd (f * 10) / scale = d at *
    generalize rnd (f * 10) = g at *
    generalize fval r p = v at *
    generalize (2 : Nat) ^ 128 = E at *
    generalize scale = S at *
    have hT : 0 < 10 ^ p := Nat.pow_pos (by decide)
    rw [Nat.pow_succ]
    generalize 10 ^ p = T at *
    obtain ⟨T, rfl⟩ : ∃ k, T = k + 1 := ⟨T - 1, by omega⟩
    rw [show T + 1 - 1 = T by omega] at i1 i2
    rw [show (T + 1) * 10 - 1 = 9 * (T + 1) + T by omega]
    subst hd
    constructor
    · nlinarith
    · nlinarith

/-- With at most 21 fractional bits the decimals are exact. -/
theorem fval_exact {f : Nat} (hf : f < scale) (hd : 2 ^ 128 ∣ f) (p : Nat) :
    fval f p = f * 10 ^ p / scale := by
  have hs : 0 < scale := Nat.two_pow_pos _
  induction p generalizing f with
  | zero => simp [fval, fdigits, Nat.div_eq_of_lt hf]
  | succ p ih =>
    obtain ⟨k, rfl⟩ := hd
    have hk : k < 2 ^ 21 := by
      rw [scale_eq, show (149 : Nat) = 128 + 21 from rfl, Nat.pow_add] at hf
      exact Nat.lt_of_mul_lt_mul_left hf
    have hr : Rep24 (2 ^ 128 * k * 10) := by
      refine ⟨5 * k, 129, ?_, by omega⟩
      rw [Nat.pow_succ (m := 128)]; ring
    rw [fval_succ, rnd_id hr, ih (Nat.mod_lt _ hs)]
    · have he : 2 ^ 128 * k * 10 ^ (p + 1) = 2 ^ 128 * k * 10 * 10 ^ p := by rw [Nat.pow_succ]; ring
      rw [he]
      generalize 2 ^ 128 * k * 10 = g
      have hg := Nat.div_add_mod g scale
      conv => rhs; rw [← hg]
      rw [Nat.add_mul, Nat.mul_assoc, Nat.mul_comm scale, Nat.add_comm, Nat.add_comm (_ * scale),
        Nat.add_mul_div_right _ _ hs]
    · apply (Nat.dvd_mod_iff ?_).2
      · exact ⟨k * 10, by ring⟩
      · exact ⟨2 ^ 21, by rw [scale_eq, ← Nat.pow_add]⟩

/-! ## C21 -/

/-- The number of decimals requested: the `int` precision converted to `unsigned`. -/
def precisionOf (o : BOut) : Nat := (o.floatPrecision % 2 ^ 32).toNat

/-- The text of a float: its integer part and, with decimals asked for, the digits the loop computes, cut at the capacity. -/
theorem float_text (junk : Nat → Byte) (o : BOut) (_hwf : o.WF) (bits : BitVec 32) (mag : Nat) (n : Int)
    (hmag : magOfBits bits = some mag)
    (hn : n = (if bits.msb then -((mag / 2 ^ 149 : Nat) : Int) else ((mag / 2 ^ 149 : Nat) : Int)))
    (hrange : -(2 ^ 31) ≤ n ∧ n < 2 ^ 31)
    (hfit : o.size + (intDec n).length ≤ o.capacity) :
    ∃ o', o.putFloat junk bits = .ok o' ∧
      Appended o o' ((intDec n ++ (if precisionOf o = 0 then [] else
        46 :: (fdigits (mag % scale) (precisionOf o)).map fun d => BitVec.ofNat 8 (48 + d))).take
          (o.capacity - o.size)) := by
  have hrep := magOfBits_repr hmag
  have hs : 0 < scale := Nat.two_pow_pos _
  have hfr : Rep24 (mag % scale) := hrep.mod 149
  have hfl : mag % scale < scale := Nat.mod_lt _ hs
  have htr : truncToInt (negOfBits bits) mag = .ok n := by
    unfold truncToInt negOfBits
    simp only
    rw [show scale = 2 ^ 149 from rfl, ← hn, if_pos hrange]
  have habs : fsub mag (absOfInt n) = (false, mag % scale) := by
    have h1 : n.natAbs = mag / scale := by
      rw [hn, show scale = 2 ^ 149 from rfl]
      generalize mag / 2 ^ 149 = d
      split
      · rw [Int.natAbs_neg, Int.natAbs_natCast]
      · rw [Int.natAbs_natCast]
    have h2 : absOfInt n = mag / scale * scale := by
      unfold absOfInt; rw [h1]; exact rnd_id (hrep.floor 149)
    have hd := Nat.div_add_mod mag scale
    rw [Nat.mul_comm] at hd
    rw [h2]
    unfold fsub
    rw [if_pos (by omega), show mag - mag / scale * scale = mag % scale by omega, rnd_id hfr]
  have hA := appended_splice (o := o) (s := intDec n) hfit
  unfold BOut.putFloat toCharsFloat toCharsInt writeAll
  simp only [BOut.size, BOut.capacity] at hfit
  simp only [hmag, htr, Res.ofOption_some, Res.bind_ok]
  rw [if_pos hfit]
  rw [if_pos hfit]
  simp only [Res.bind_ok, true_and]
  generalize hm1 : o.mem.take o.pos ++ intDec n ++ o.mem.drop (o.pos + (intDec n).length) = m1 at hA ⊢
  have hl1 : m1.length = o.mem.length := hA.len
  rw [habs]
  have hpr : (o.floatPrecision % 2 ^ 32).toNat = precisionOf o := rfl
  rw [hpr]
  by_cases hp0 : precisionOf o = 0
  · rw [if_neg (by omega), if_pos hp0]
    refine ⟨_, rfl, ?_⟩
    rw [List.append_nil, List.take_of_length_le (by simp only [BOut.size, BOut.capacity]; omega)]
    exact hA
  · rw [if_neg hp0]
    by_cases hend : o.pos + (intDec n).length < m1.length
    · rw [if_pos ⟨by omega, hend⟩]
      obtain ⟨m2, g1, g2⟩ := appended_write (o := { o with mem := m1, pos := o.pos + (intDec n).length })
        (c := 46) hend
      simp only at g1
      rw [g1]
      simp only [Res.bind_ok]
      have hl2 : m2.length = m1.length := g2.len
      obtain ⟨m3, q, g3, g4⟩ := decimalsLoop_spec
        { o with mem := m2, pos := o.pos + (intDec n).length + 1 } g2.wf _ hfr hfl (precisionOf o)
      simp only at g3
      rw [g3]
      refine ⟨_, rfl, ?_⟩
      have := (hA.trans g2).trans g4
      simp only [BOut.size, BOut.capacity] at this ⊢
      rw [List.take_append, List.take_of_length_le (l := intDec n) (by omega),
        show o.mem.length - o.pos - (intDec n).length = (m2.length - (o.pos + (intDec n).length + 1)) + 1 by omega,
        List.take_succ_cons]
      simpa using this
    · rw [if_neg (fun hc => hend hc.2)]
      refine ⟨_, rfl, ?_⟩
      rw [List.take_append_of_le_length (by simp only [BOut.size, BOut.capacity]; omega),
        List.take_of_length_le (by simp only [BOut.size, BOut.capacity]; omega)]
      exact hA

/-- **C21**, the part that holds.  For a finite float of magnitude `mag·2^-149` whose integer part
is in the range of `int` and fits the buffer, the text gets: the canonical decimal text of the
integer part (truncated towards zero), and, for a precision `p > 0`, a point and `p` digits, all cut
at the capacity.  The digits, read as an integer `N`, satisfy
`frac·10^p - 1 - ε < N ≤ frac·10^p + ε` with `ε = 2^-21·(10^p-1)/9`, and they are exactly the truncated
decimal expansion of the fraction if it has at most 21 fractional bits.
Missing: the minus sign of values in (-1, 0) (`negative_fraction_loses_sign`) and integer parts that do
not fit (`float_too_long_garbage`), where the property is false. -/
theorem float_printed_partial (junk : Nat → Byte) (o : BOut) (hwf : o.WF) (bits : BitVec 32) (mag : Nat) (n : Int)
    (hmag : magOfBits bits = some mag)
    (hn : n = (if bits.msb then -((mag / 2 ^ 149 : Nat) : Int) else ((mag / 2 ^ 149 : Nat) : Int)))
    (hrange : -(2 ^ 31) ≤ n ∧ n < 2 ^ 31)
    (hfit : o.size + (intDec n).length ≤ o.capacity) :
    ∃ o' s ds N, o.putFloat junk bits = .ok o' ∧
      parseInt s = some n ∧ Canonical s ∧
      ds.length = precisionOf o ∧ parseNatAux 0 ds = some N ∧
      o'.text = (o.text ++ s ++ (if precisionOf o = 0 then [] else 46 :: ds)).take o.capacity ∧
      9 * (N * 2 ^ 149) ≤ 9 * (mag % 2 ^ 149 * 10 ^ precisionOf o) + 2 ^ 128 * (10 ^ precisionOf o - 1) ∧
      9 * (mag % 2 ^ 149 * 10 ^ precisionOf o) <
        9 * (N * 2 ^ 149) + 9 * 2 ^ 149 + 2 ^ 128 * (10 ^ precisionOf o - 1) ∧
      (2 ^ 128 ∣ mag % 2 ^ 149 → N = mag % 2 ^ 149 * 10 ^ precisionOf o / 2 ^ 149) ∧
      o'.size = o'.text.length ∧ o'.size ≤ o'.capacity ∧ o'.capacity = o.capacity ∧
      o'.integerWidth = o.integerWidth := by
  have hs : 0 < scale := Nat.two_pow_pos _
  have hfr : Rep24 (mag % scale) := (magOfBits_repr hmag).mod 149
  have hfl : mag % scale < scale := Nat.mod_lt _ hs
  have hp : parseNatAux 0 ((fdigits (mag % scale) (precisionOf o)).map fun d => BitVec.ofNat 8 (48 + d)) =
      some (fval (mag % scale) (precisionOf o)) := parse_digits 0 _ (fdigits_lt hfr hfl _)
  have herr := fval_err hfr hfl (precisionOf o)
  have htl := text_length hwf
  obtain ⟨o', h1, h2⟩ := float_text junk o hwf bits mag n hmag hn hrange hfit
  refine ⟨o', intDec n, _, _, h1, intDec_parse n, intDec_canonical n, ?_, hp, ?_, herr.1, herr.2,
    fun hd => fval_exact hfl hd _, (text_length h2.wf).symm, h2.wf, h2.len, h2.width⟩
  · rw [List.length_map, fdigits_length]
  · rw [h2.text, List.append_assoc, List.take_append (i := o.capacity), htl,
      List.take_of_length_le (l := o.text) (by rw [htl]; exact hwf)]

/-- **C21** for a caller who streams `precision(p)` before the float: `p` decimals. -/
theorem precision_float_partial (junk : Nat → Byte) (o : BOut) (hwf : o.WF) (bits : BitVec 32) (mag p : Nat) (n : Int)
    (hp : p < 2 ^ 31) (hmag : magOfBits bits = some mag)
    (hn : n = (if bits.msb then -((mag / 2 ^ 149 : Nat) : Int) else ((mag / 2 ^ 149 : Nat) : Int)))
    (hrange : -(2 ^ 31) ≤ n ∧ n < 2 ^ 31)
    (hfit : o.size + (intDec n).length ≤ o.capacity) :
    ∃ o' s ds N, (o.setPrecision p).putFloat junk bits = .ok o' ∧
      parseInt s = some n ∧ Canonical s ∧ ds.length = p ∧ parseNatAux 0 ds = some N ∧
      o'.text = (o.text ++ s ++ (if p = 0 then [] else 46 :: ds)).take o.capacity ∧
      (2 ^ 128 ∣ mag % 2 ^ 149 → N = mag % 2 ^ 149 * 10 ^ p / 2 ^ 149) := by
  have hpp : precisionOf (o.setPrecision p) = p := by
    simp only [precisionOf, BOut.setPrecision]; omega
  obtain ⟨o', s, ds, N, h1, h2, h3, h4, h5, h6, -, -, h9, -⟩ :=
    float_printed_partial junk (o.setPrecision p) hwf bits mag n hmag hn hrange hfit
  rw [hpp] at h4 h6 h9
  exact ⟨o', s, ds, N, h1, h2, h3, h4, h5, h6, h9⟩

/-- -2.5 with two decimals prints "-2.50"; the hypotheses are met. -/
example : magOfBits 0xC0200000 = some (5 * 2 ^ 148) ∧ (0xC0200000 : BitVec 32).msb = true ∧
    ((BOut.new (List.replicate 6 0)).setPrecision 2).putFloat (fun _ => 63) 0xC0200000 =
      .ok ⟨[45, 50, 46, 53, 48, 0], 5, 2, 0, 32⟩ := by decide +kernel

/-- **C21** is false for the sign: every float in (-1, 0) prints as a positive number. -/
theorem negative_fraction_loses_sign (junk : Nat → Byte) (o : BOut) (hwf : o.WF) (bits : BitVec 32)
    (mag : Nat) (hmag : magOfBits bits = some mag) (_hneg : bits.msb = true) (_h0 : 0 < mag)
    (h1 : mag < 2 ^ 149) (hfit : o.size + 1 ≤ o.capacity) :
    ∃ o' rest, o.putFloat junk bits = .ok o' ∧ o'.text = o.text ++ 48 :: rest := by
  have hdiv : mag / 2 ^ 149 = 0 := Nat.div_eq_of_lt h1
  obtain ⟨o', s, ds, N, g1, g2, g3, -, -, g6, -⟩ := float_printed_partial junk o hwf bits mag 0 hmag
    (by rw [hdiv]; simp) (by decide) hfit
  have hs : s = [48] := by
    rw [canonical_unique s 0 g3 g2]; rfl
  have htl := text_length hwf
  refine ⟨o', (if precisionOf o = 0 then [] else 46 :: ds).take (o.capacity - o.pos - 1), g1, ?_⟩
  rw [g6, hs, List.append_assoc, List.take_append, List.take_of_length_le (by rw [htl]; exact hwf), htl]
  simp only [List.cons_append, List.nil_append]
  rw [show o.capacity - o.pos = (o.capacity - o.pos - 1) + 1 by
    simp only [BOut.size, BOut.capacity] at hfit ⊢; omega, List.take_succ_cons, Nat.add_sub_cancel]

/-- -0.5 is such a float. -/
example : magOfBits 0xBF000000 = some (2 ^ 148) ∧ (0xBF000000 : BitVec 32).msb = true ∧
    0 < 2 ^ 148 ∧ 2 ^ 148 < 2 ^ 149 := by decide

/-- **C21** is false when the integer part does not fit: the text then claims the whole buffer, its
tail being whatever `to_chars` left there. -/
theorem float_too_long_garbage (junk : Nat → Byte) (o : BOut) (bits : BitVec 32) (mag : Nat) (n : Int)
    (hmag : magOfBits bits = some mag)
    (hn : n = (if bits.msb then -((mag / 2 ^ 149 : Nat) : Int) else ((mag / 2 ^ 149 : Nat) : Int)))
    (hrange : -(2 ^ 31) ≤ n ∧ n < 2 ^ 31)
    (hfit : o.capacity < o.size + (intDec n).length) :
    ∃ o', o.putFloat junk bits = .ok o' ∧ o'.size = o.capacity ∧
      ∀ i, o.size ≤ i → i < o.capacity → o'.text[i]? = some (junk i) := by
  have htr : truncToInt (negOfBits bits) mag = .ok n := by
    unfold truncToInt negOfBits
    simp only
    rw [show scale = 2 ^ 149 from rfl, ← hn, if_pos hrange]
  simp only [BOut.size, BOut.capacity] at *
  unfold BOut.putFloat toCharsFloat toCharsInt
  simp only [hmag, htr, Res.ofOption_some, Res.bind_ok]
  rw [if_neg (by omega)]
  simp only [Res.bind_ok, Bool.false_eq_true, false_and, if_false]
  refine ⟨_, rfl, rfl, ?_⟩
  intro i h1 h2
  simp only [BOut.text, scramble, List.getElem?_take, List.getElem?_mapIdx, if_pos h2,
    List.getElem?_eq_getElem h2, Option.map_some]
  rw [if_pos h1]

/-- 1e6 into five characters; the hypotheses are met. -/
example : magOfBits 0x49742400 = some (1000000 * 2 ^ 149) ∧ (0x49742400 : BitVec 32).msb = false ∧
    (intDec 1000000).length = 7 ∧ (BOut.new (List.replicate 5 0)).putFloat (fun _ => 63) 0x49742400 =
      .ok ⟨[63, 63, 63, 63, 63], 5, 0, 0, 32⟩ := by decide +kernel

/-- Infinities, NaNs and values outside of `int` are undefined behaviour. -/
theorem float_out_of_range_ub (junk : Nat → Byte) (o : BOut) (bits : BitVec 32)
    (h : ∀ mag, magOfBits bits = some mag → 2 ^ 31 < mag / 2 ^ 149) : o.putFloat junk bits = .ub := by
  unfold BOut.putFloat toCharsFloat
  cases hm : magOfBits bits with
  | none => rfl
  | some mag =>
    have := h mag hm
    have ht : truncToInt (negOfBits bits) mag = .ub := by
      unfold truncToInt
      simp only
      rw [show scale = 2 ^ 149 from rfl]
      rw [if_neg]
      split <;> omega
    simp only [Res.ofOption_some, Res.bind_ok, ht]
    rfl

/-- … and nothing else is: the exact condition. -/
theorem float_ub_iff (junk : Nat → Byte) (o : BOut) (hwf : o.WF) (bits : BitVec 32) :
    o.putFloat junk bits = .ub ↔
      ∀ mag n, magOfBits bits = some mag →
        n = (if bits.msb then -((mag / 2 ^ 149 : Nat) : Int) else ((mag / 2 ^ 149 : Nat) : Int)) →
        ¬ (-(2 ^ 31) ≤ n ∧ n < 2 ^ 31) := by
  constructor
  · intro hub mag n hmag hn hrange
    by_cases hfit : o.size + (intDec n).length ≤ o.capacity
    · obtain ⟨o', s, ds, N, he, -⟩ := float_printed_partial junk o hwf bits mag n hmag hn hrange hfit
      rw [hub] at he; cases he
    · obtain ⟨o', he, -⟩ := float_too_long_garbage junk o bits mag n hmag hn hrange (by omega)
      rw [hub] at he; cases he
  · intro h
    unfold BOut.putFloat toCharsFloat
    cases hm : magOfBits bits with
    | none => rfl
    | some mag =>
      have h' := h mag _ hm rfl
      have ht : truncToInt (negOfBits bits) mag = .ub := by
        unfold truncToInt
        simp only
        rw [show scale = 2 ^ 149 from rfl]
        rw [if_neg]
        exact h'
      simp only [Res.ofOption_some, Res.bind_ok, ht]
      rfl

/-- Non-vacuity, at the boundary: 2^31 is undefined, -2^31 is printed. -/
example : (BOut.new (List.replicate 12 0)).putFloat (fun _ => 63) 0x4F000000 = .ub ∧
    ((BOut.new (List.replicate 12 0)).putFloat (fun _ => 63) 0xCF000000).bind (fun o => .ok o.text) =
      .ok [45, 50, 49, 52, 55, 52, 56, 51, 54, 52, 56] := by decide +kernel

end Verif.Out
