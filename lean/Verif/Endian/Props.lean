import Verif.Endian.Model
import Verif.Endian.Spec

/-!
# C12–C14: byte order conversion
-/
namespace Verif.Endian

private theorem swap16_eq (x : BitVec 16) :
    changeEndianess16 x = (x.extractLsb' 0 8 ++ x.extractLsb' 8 8).cast (by decide) := by
  apply BitVec.eq_of_getLsbD_eq
  intro i hi
  simp only [BitVec.getLsbD_cast, BitVec.getLsbD_append, BitVec.getLsbD_extractLsb']
  have : i = 0 ∨ i = 1 ∨ i = 2 ∨ i = 3 ∨ i = 4 ∨ i = 5 ∨ i = 6 ∨ i = 7 ∨ i = 8 ∨ i = 9 ∨ i = 10 ∨
    i = 11 ∨ i = 12 ∨ i = 13 ∨ i = 14 ∨ i = 15 := by omega
  rcases this with h|h|h|h|h|h|h|h|h|h|h|h|h|h|h|h <;> subst h <;>
    simp [changeEndianess16]

private theorem swap32_eq (ul : Nat) (hul : ul = 32 ∨ ul = 64) (x : BitVec 32) :
    changeEndianess32 ul x = (x.extractLsb' 0 8 ++ x.extractLsb' 8 8 ++ x.extractLsb' 16 8 ++
      x.extractLsb' 24 8).cast (by decide) := by
  apply BitVec.eq_of_getLsbD_eq
  intro i hi
  simp only [BitVec.getLsbD_cast, BitVec.getLsbD_append, BitVec.getLsbD_extractLsb']
  have : i = 0 ∨ i = 1 ∨ i = 2 ∨ i = 3 ∨ i = 4 ∨ i = 5 ∨ i = 6 ∨ i = 7 ∨ i = 8 ∨ i = 9 ∨ i = 10 ∨
    i = 11 ∨ i = 12 ∨ i = 13 ∨ i = 14 ∨ i = 15 ∨ i = 16 ∨ i = 17 ∨ i = 18 ∨ i = 19 ∨ i = 20 ∨
    i = 21 ∨ i = 22 ∨ i = 23 ∨ i = 24 ∨ i = 25 ∨ i = 26 ∨ i = 27 ∨ i = 28 ∨ i = 29 ∨ i = 30 ∨
    i = 31 := by omega
  rcases hul with rfl | rfl <;>
  rcases this with h|h|h|h|h|h|h|h|h|h|h|h|h|h|h|h|h|h|h|h|h|h|h|h|h|h|h|h|h|h|h|h <;> subst h <;>
    simp [changeEndianess32]

private theorem swap16x2_eq (x : BitVec 32) :
    changeEndianess16x2 x = (x.extractLsb' 16 8 ++ x.extractLsb' 24 8 ++ x.extractLsb' 0 8 ++
      x.extractLsb' 8 8).cast (by decide) := by
  apply BitVec.eq_of_getLsbD_eq
  intro i hi
  simp only [BitVec.getLsbD_cast, BitVec.getLsbD_append, BitVec.getLsbD_extractLsb']
  have : i = 0 ∨ i = 1 ∨ i = 2 ∨ i = 3 ∨ i = 4 ∨ i = 5 ∨ i = 6 ∨ i = 7 ∨ i = 8 ∨ i = 9 ∨ i = 10 ∨
    i = 11 ∨ i = 12 ∨ i = 13 ∨ i = 14 ∨ i = 15 ∨ i = 16 ∨ i = 17 ∨ i = 18 ∨ i = 19 ∨ i = 20 ∨
    i = 21 ∨ i = 22 ∨ i = 23 ∨ i = 24 ∨ i = 25 ∨ i = 26 ∨ i = 27 ∨ i = 28 ∨ i = 29 ∨ i = 30 ∨
    i = 31 := by omega
  rcases this with h|h|h|h|h|h|h|h|h|h|h|h|h|h|h|h|h|h|h|h|h|h|h|h|h|h|h|h|h|h|h|h <;> subst h <;>
    simp [changeEndianess16x2]

private theorem toNat_append8 {m : Nat} (a : BitVec m) (b : BitVec 8) :
    (a ++ b).toNat = a.toNat * 256 + b.toNat := by
  rw [BitVec.toNat_append, ← Nat.shiftLeft_add_eq_or_of_lt b.isLt, Nat.shiftLeft_eq]

private theorem toNat_extract8 {w : Nat} (x : BitVec w) (s : Nat) :
    (x.extractLsb' s 8).toNat = x.toNat / 2 ^ s % 256 := by
  simp [BitVec.extractLsb'_toNat, Nat.shiftRight_eq_div_pow]

private theorem digits4 {a b c d : Nat} (_ha : a < 256) (hb : b < 256) (hc : c < 256) (hd : d < 256) :
    (((a * 256 + b) * 256 + c) * 256 + d) / 16777216 = a ∧
    (((a * 256 + b) * 256 + c) * 256 + d) / 65536 % 256 = b ∧
    (((a * 256 + b) * 256 + c) * 256 + d) / 256 % 256 = c ∧
    (((a * 256 + b) * 256 + c) * 256 + d) % 256 = d := by
  refine ⟨by omega, ?_, ?_, by omega⟩
  · have : (((a * 256 + b) * 256 + c) * 256 + d) / 65536 = a * 256 + b := by omega
    omega
  · have : (((a * 256 + b) * 256 + c) * 256 + d) / 256 = (a * 256 + b) * 256 + c := by omega
    omega

/-- **C12** (16 bit): conversion reverses the bytes. -/
theorem changeEndianess16_reverses_bytes (x : BitVec 16) :
    bytes16 (changeEndianess16 x) = (bytes16 x).reverse := by
  have hx := x.isLt
  simp only [bytes16, swap16_eq, BitVec.toNat_cast, toNat_append8, toNat_extract8, Nat.reducePow, Nat.div_one, List.reverse_cons,
    List.reverse_nil, List.nil_append, List.cons_append, List.cons.injEq, and_true]
  omega

/-- **C12** (32 bit): conversion reverses the bytes, for 32-bit and 64-bit `unsigned long`. -/
theorem changeEndianess32_reverses_bytes (ul : Nat) (hul : ul = 32 ∨ ul = 64) (x : BitVec 32) :
    bytes32 (changeEndianess32 ul x) = (bytes32 x).reverse := by
  have hx := x.isLt
  have m (k : Nat) : x.toNat / k % 256 < 256 := Nat.mod_lt _ (by decide)
  simp only [bytes32, swap32_eq ul hul, BitVec.toNat_cast, toNat_append8, toNat_extract8]
  obtain ⟨h1, h2, h3, h4⟩ := digits4 (m (2 ^ 0)) (m (2 ^ 8)) (m (2 ^ 16)) (m (2 ^ 24))
  simp only [Nat.reducePow] at *
  rw [h1, h2, h3, h4]
  simp
  omega

private theorem bytes16_inj {x y : BitVec 16} (h : bytes16 x = bytes16 y) : x = y := by
  apply BitVec.eq_of_toNat_eq
  simp only [bytes16, List.cons.injEq, and_true] at h
  omega

private theorem bytes32_inj {x y : BitVec 32} (h : bytes32 x = bytes32 y) : x = y := by
  apply BitVec.eq_of_toNat_eq
  simp only [bytes32, List.cons.injEq, and_true] at h
  omega

/-- **C12**: 16-bit conversion is its own inverse. -/
theorem changeEndianess16_involutive (x : BitVec 16) :
    changeEndianess16 (changeEndianess16 x) = x := by
  apply bytes16_inj; simp [changeEndianess16_reverses_bytes]

/-- **C12**: 32-bit conversion is its own inverse (even across `unsigned long` widths). -/
theorem changeEndianess32_involutive (ul ul' : Nat) (hul : ul = 32 ∨ ul = 64)
    (hul' : ul' = 32 ∨ ul' = 64) (x : BitVec 32) :
    changeEndianess32 ul (changeEndianess32 ul' x) = x := by
  apply bytes32_inj; simp [changeEndianess32_reverses_bytes, hul, hul']

/-- **C12**: distinct values stay distinct. -/
theorem changeEndianess16_injective (x y : BitVec 16) (h : changeEndianess16 x = changeEndianess16 y) : x = y := by
  rw [← changeEndianess16_involutive x, h, changeEndianess16_involutive]

/-- **C12**: distinct values stay distinct. -/
theorem changeEndianess32_injective (ul : Nat) (hul : ul = 32 ∨ ul = 64) (x y : BitVec 32)
    (h : changeEndianess32 ul x = changeEndianess32 ul y) : x = y := by
  rw [← changeEndianess32_involutive ul ul hul hul x, h, changeEndianess32_involutive ul ul hul hul]

/-- **C13**: the bytes of each half word are exchanged, the halves stay in place. -/
theorem changeEndianess16x2_swaps_halves (x : BitVec 32) (a b c d : Nat)
    (h : bytes32 x = [a, b, c, d]) : bytes32 (changeEndianess16x2 x) = [b, a, d, c] := by
  have hx := x.isLt
  have m (k : Nat) : x.toNat / k % 256 < 256 := Nat.mod_lt _ (by decide)
  simp only [bytes32, swap16x2_eq, BitVec.toNat_cast, toNat_append8, toNat_extract8]
  obtain ⟨h1, h2, h3, h4⟩ := digits4 (m (2 ^ 16)) (m (2 ^ 24)) (m (2 ^ 0)) (m (2 ^ 8))
  simp only [bytes32, Nat.reducePow, List.cons.injEq, and_true] at *
  rw [h1, h2, h3, h4]
  omega

/-- **C13**: `changeEndianess16x2` is its own inverse. -/
theorem changeEndianess16x2_involutive (x : BitVec 32) :
    changeEndianess16x2 (changeEndianess16x2 x) = x := by
  apply bytes32_inj
  rw [changeEndianess16x2_swaps_halves _ _ _ _ _ (changeEndianess16x2_swaps_halves x _ _ _ _ rfl)]
  rfl

/-- **C14**: every float bit pattern survives swapping its bytes and converting back. -/
theorem changeEndianessToFloat_roundtrip (ul : Nat) (hul : ul = 32 ∨ ul = 64)
    (floatBits : BitVec 32) :
    changeEndianessToFloat ul (changeEndianess32 ul floatBits) = floatBits :=
  changeEndianess32_involutive ul ul hul hul floatBits

/-- **C14**: the float's bytes are the reversed argument bytes. -/
theorem changeEndianessToFloat_bytes (ul : Nat) (hul : ul = 32 ∨ ul = 64) (x : BitVec 32) :
    bytes32 (changeEndianessToFloat ul x) = (bytes32 x).reverse :=
  changeEndianess32_reverses_bytes ul hul x

-- concrete, non-trivial instances (the values of the unit tests)
example : changeEndianess16 0xABCD#16 = 0xCDAB#16 := by decide
example : changeEndianess32 64 0xABCDEF12#32 = 0x12EFCDAB#32 := by decide
example : changeEndianess16x2 0xABCDEF12#32 = 0xCDAB12EF#32 := by decide
example : bytes32 0xABCDEF12#32 = [0xAB, 0xCD, 0xEF, 0x12] := by decide
-- a signalling NaN pattern
example : changeEndianessToFloat 32 0x0100807F#32 = 0x7F800001#32 := by decide

end Verif.Endian
