import Verif.Out.Spec
/-!
# Helper lemmas for text output
-/
namespace Verif.Out

/-- The write position is inside the buffer (invariant of the class). -/
abbrev BOut.WF (o : BOut) : Prop := o.pos ≤ o.mem.length

/-- `o'` is `o` with `s` appended to the text. -/
structure Appended (o o' : BOut) (s : List Byte) : Prop where
  len : o'.mem.length = o.mem.length
  pos : o'.pos = o.pos + s.length
  wf : o'.pos ≤ o'.mem.length
  text : o'.text = o.text ++ s
  prec : o'.floatPrecision = o.floatPrecision
  width : o'.integerWidth = o.integerWidth
  fillc : o'.fillChar = o.fillChar

theorem Appended.refl {o : BOut} (h : o.WF) : Appended o o [] :=
  ⟨rfl, rfl, h, by simp, rfl, rfl, rfl⟩

theorem Appended.trans {o p q : BOut} {s t : List Byte} (h : Appended o p s) (g : Appended p q t) :
    Appended o q (s ++ t) :=
  ⟨g.len.trans h.len, by rw [g.pos, h.pos, List.length_append]; omega, g.wf,
    by rw [g.text, h.text, List.append_assoc], g.prec.trans h.prec, g.width.trans h.width,
    g.fillc.trans h.fillc⟩

theorem text_length {o : BOut} (h : o.WF) : o.text.length = o.pos := by
  simp only [BOut.text, List.length_take]; exact Nat.min_eq_left h

theorem set_eq_splice (m : List Byte) (p : Nat) (b : Byte) (h : p < m.length) :
    m.set p b = m.take p ++ [b] ++ m.drop (p + 1) := by
  rw [List.set_eq_take_append_cons_drop, if_pos h]; simp

theorem splice_length (m s : List Byte) (p : Nat) (h : p + s.length ≤ m.length) :
    (m.take p ++ s ++ m.drop (p + s.length)).length = m.length := by
  simp; omega

theorem splice_take (m s : List Byte) (p : Nat) (h : p + s.length ≤ m.length) :
    (m.take p ++ s ++ m.drop (p + s.length)).take (p + s.length) = m.take p ++ s := by
  have : (m.take p ++ s).length = p + s.length := by simp; omega
  rw [← this, List.take_left]

theorem appended_splice {o : BOut} {s : List Byte} (h : o.pos + s.length ≤ o.mem.length) :
    Appended o { o with mem := o.mem.take o.pos ++ s ++ o.mem.drop (o.pos + s.length),
                        pos := o.pos + s.length } s :=
  ⟨splice_length _ _ _ h, rfl, by simp only [splice_length _ _ _ h]; exact h,
    by simp only [BOut.text]; exact splice_take _ _ _ h, rfl, rfl, rfl⟩

theorem write_eq (m : List Byte) (p : Nat) (b : Byte) (h : p < m.length) :
    write m p b = .ok (m.take p ++ [b] ++ m.drop (p + 1)) := by
  rw [write, if_pos h, set_eq_splice _ _ _ h]

/-- Writing one more character behind the text. -/
theorem appended_write {o : BOut} {c : Byte} (h : o.pos < o.mem.length) :
    ∃ m, write o.mem o.pos c = .ok m ∧ Appended o { o with mem := m, pos := o.pos + 1 } [c] :=
  ⟨_, write_eq _ _ _ h, appended_splice (s := [c]) h⟩

/-! ## Decimal numbers -/

theorem digitVal_ofNat (d : Nat) (h : d < 10) : digitVal (BitVec.ofNat 8 (48 + d)) = some d := by
  have : (48 + d) % 256 = 48 + d := by omega
  simp [digitVal, this]; omega

theorem parseNatAux_append (acc : Nat) (a b : List Byte) :
    parseNatAux acc (a ++ b) = (parseNatAux acc a).bind (fun v => parseNatAux v b) := by
  induction a generalizing acc with
  | nil => rfl
  | cons c cs ih =>
    simp only [List.cons_append, parseNatAux]
    cases digitVal c with
    | none => rfl
    | some d => exact ih _

theorem natDecF_parse (fuel n : Nat) (h : n < fuel) : parseNatAux 0 (natDecF fuel n) = some n := by
  induction fuel generalizing n with
  | zero => omega
  | succ f ih =>
    rw [natDecF]
    split
    · rename_i h10
      simp [parseNatAux, digitVal_ofNat n h10]
    · rw [parseNatAux_append, ih (n / 10) (by omega)]
      simp only [Option.bind_some, parseNatAux, digitVal_ofNat (n % 10) (by omega)]
      congr 1; omega

theorem natDecF_head (fuel n : Nat) (h : n < fuel) :
    ∃ d ds, natDecF fuel n = BitVec.ofNat 8 (48 + d) :: ds ∧ d < 10 ∧ (d = 0 → n = 0 ∧ ds = []) := by
  induction fuel generalizing n with
  | zero => omega
  | succ f ih =>
    rw [natDecF]
    split
    · rename_i h10
      exact ⟨n, [], rfl, h10, fun h => ⟨h, rfl⟩⟩
    · obtain ⟨d, ds, h1, h2, h3⟩ := ih (n / 10) (by omega)
      refine ⟨d, _, by rw [h1, List.cons_append], h2, fun h => ?_⟩
      have := (h3 h).1
      omega

theorem ofNat_digit_ne (d e : Nat) (hd : d < 10) (he : e < 256) (h : 48 + d ≠ e) :
    BitVec.ofNat 8 (48 + d) ≠ BitVec.ofNat 8 e := by
  intro hc
  have := congrArg BitVec.toNat hc
  simp at this; omega

theorem intDec_parse (n : Int) : parseInt (intDec n) = some n := by
  unfold intDec
  obtain ⟨d, ds, h1, h2, -⟩ := natDecF_head (n.natAbs + 1) n.natAbs (by omega)
  have hp := natDecF_parse (n.natAbs + 1) n.natAbs (by omega)
  split
  · rename_i hn
    unfold natDec
    rw [parseInt, if_pos rfl, if_neg (by rw [h1]; simp), hp]
    simp; omega
  · rename_i hn
    unfold natDec
    rw [h1] at hp ⊢
    have : BitVec.ofNat 8 (48 + d) ≠ (45 : Byte) := ofNat_digit_ne d 45 h2 (by omega) (by omega)
    rw [parseInt, if_neg this, hp]
    simp; omega

theorem intDec_canonical (n : Int) : Canonical (intDec n) := by
  unfold intDec
  obtain ⟨d, ds, h1, h2, h3⟩ := natDecF_head (n.natAbs + 1) n.natAbs (by omega)
  split
  · rename_i hn
    right; right
    refine ⟨_, ds, by rw [natDec, h1], ?_⟩
    have h0 : d ≠ 0 := fun h => by have := (h3 h).1; omega
    exact ofNat_digit_ne d 48 h2 (by omega) (by omega)
  · rename_i hn
    rw [natDec, h1]
    by_cases h0 : d = 0
    · left; rw [(h3 h0).2, h0]; rfl
    · right; left
      exact ⟨_, ds, rfl, ofNat_digit_ne d 48 h2 (by omega) (by omega),
        ofNat_digit_ne d 45 h2 (by omega) (by omega)⟩

/-- Parsing followed by printing: a canonical text is determined by its value. -/
theorem natDecF_fuel (f g n : Nat) (hf : n < f) (hg : n < g) : natDecF f n = natDecF g n := by
  induction f generalizing g n with
  | zero => omega
  | succ f ih =>
    cases g with
    | zero => omega
    | succ g =>
      rw [natDecF, natDecF]
      split
      · rfl
      · rw [ih g (n / 10) (by omega) (by omega)]

theorem intDec_length_pos (n : Int) : 0 < (intDec n).length := by
  unfold intDec
  obtain ⟨d, ds, h1, -⟩ := natDecF_head (n.natAbs + 1) n.natAbs (by omega)
  unfold natDec
  rw [h1]
  split <;> simp

theorem digitVal_inv {c : Byte} {d : Nat} (h : digitVal c = some d) :
    c = BitVec.ofNat 8 (48 + d) ∧ d < 10 := by
  unfold digitVal at h
  split at h
  · cases h
    refine ⟨?_, by omega⟩
    apply BitVec.eq_of_toNat_eq
    simp; omega
  · cases h

theorem natDec_step (n d : Nat) (hn : 0 < n) (hd : d < 10) :
    natDec (n * 10 + d) = natDec n ++ [BitVec.ofNat 8 (48 + d)] := by
  unfold natDec
  rw [natDecF, if_neg (by omega)]
  rw [show (n * 10 + d) / 10 = n by omega, show (n * 10 + d) % 10 = d by omega,
    natDecF_fuel (n * 10 + d) (n + 1) n (by omega) (by omega)]

theorem parseNatAux_natDec (acc : Nat) (hacc : 0 < acc) (cs : List Byte) (v : Nat)
    (h : parseNatAux acc cs = some v) : natDec v = natDec acc ++ cs := by
  induction cs generalizing acc with
  | nil => cases h; simp
  | cons c cs ih =>
    rw [parseNatAux] at h
    cases hd : digitVal c with
    | none => rw [hd] at h; cases h
    | some d =>
      rw [hd] at h
      obtain ⟨hc, h10⟩ := digitVal_inv hd
      rw [ih (acc * 10 + d) (by omega) h, natDec_step acc d hacc h10, hc]
      simp

/-- The canonical text of a number is unique. -/
theorem canonical_unique (s : List Byte) (n : Int) (hc : Canonical s) (hp : parseInt s = some n) :
    s = intDec n := by
  have single : ∀ d, d < 10 → natDec d = [BitVec.ofNat 8 (48 + d)] := by
    intro d hd; unfold natDec; rw [natDecF, if_pos hd]
  have nat : ∀ c cs v, c ≠ 48 → parseNatAux 0 (c :: cs) = some v → natDec v = c :: cs ∧ 0 < v := by
    intro c cs v hc h
    rw [parseNatAux] at h
    cases hd : digitVal c with
    | none => rw [hd] at h; cases h
    | some d =>
      rw [hd] at h
      obtain ⟨h1, h10⟩ := digitVal_inv hd
      have h0 : 0 < d := by
        rcases Nat.eq_zero_or_pos d with h | h
        · subst h; exact absurd h1 hc
        · exact h
      simp only [Nat.zero_mul, Nat.zero_add] at h
      have e := parseNatAux_natDec d h0 cs v h
      rw [single d h10] at e
      refine ⟨by rw [e, h1]; rfl, ?_⟩
      rcases Nat.eq_zero_or_pos v with h | h
      · subst h
        rw [single 0 (by omega)] at e
        have := ofNat_digit_ne d 48 h10 (by omega) (by omega)
        simp only [List.singleton_append, List.cons.injEq] at e
        exact absurd e.1.symm this
      · exact h
  rcases hc with rfl | ⟨c, cs, rfl, h1, h2⟩ | ⟨c, cs, rfl, h1⟩
  · have hz : parseInt [48] = some 0 := by decide
    rw [hz] at hp; cases hp; rfl
  · rw [parseInt, if_neg h2] at hp
    cases hv : parseNatAux 0 (c :: cs) with
    | none => rw [hv] at hp; cases hp
    | some v =>
      rw [hv] at hp; cases hp
      unfold intDec
      rw [if_neg (by simp), Int.natAbs_natCast, (nat c cs v h1 hv).1]
  · rw [parseInt, if_pos rfl, if_neg (by simp)] at hp
    cases hv : parseNatAux 0 (c :: cs) with
    | none => rw [hv] at hp; cases hp
    | some v =>
      rw [hv] at hp; cases hp
      obtain ⟨e, h0⟩ := nat c cs v h1 hv
      unfold intDec
      rw [if_pos (by simp; omega), Int.natAbs_neg, Int.natAbs_natCast, e]

/-! ## Hexadecimal -/

/-- The two characters printed for a byte. -/
def hexPair (b : Byte) : List Byte :=
  [hexDigits.getD (b.toNat / 16) 0, hexDigits.getD (b.toNat % 16) 0]

theorem hexPair_table : ∀ b : Byte, hexDigits[((b &&& 0xF0) >>> 4).toNat]? = (hexPair b)[0]? ∧
    hexDigits[(b &&& 0x0F).toNat]? = (hexPair b)[1]? ∧ unhex (hexPair b) = some [b] := by
  decide +kernel

end Verif.Out
