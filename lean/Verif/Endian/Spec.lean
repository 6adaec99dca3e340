/-!
# Specification of byte order: the bytes of a word, most significant first
-/
namespace Verif.Endian

/-- The bytes of a 16-bit word, most significant first. -/
def bytes16 (x : BitVec 16) : List Nat := [x.toNat / 256, x.toNat % 256]

/-- The bytes of a 32-bit word, most significant first. -/
def bytes32 (x : BitVec 32) : List Nat :=
  [x.toNat / 2^24, x.toNat / 2^16 % 256, x.toNat / 2^8 % 256, x.toNat % 256]

end Verif.Endian
