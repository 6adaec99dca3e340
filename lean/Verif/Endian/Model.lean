/-!
# Model of EndianConversion.h

`uint16_t`/`uint32_t` values are bit vectors.  C++ integer promotions are modelled by widening the
operand, the implicit conversion of the `return` by truncation.
-/
namespace Verif.Endian

/-- EndianConversion.h:8-11 `changeEndianess(uint16_t)`.  The operand is promoted to (32-bit) `int`,
the result is converted back to `uint16_t`. -/
def changeEndianess16 (x : BitVec 16) : BitVec 16 :=
  let i : BitVec 32 := x.setWidth 32
  (((i &&& 0xFF00#32) >>> 8) ||| ((i &&& 0x00FF#32) <<< 8)).setWidth 16

/-- EndianConversion.h:13-17 `changeEndianess(uint32_t)`.  The masks are `unsigned long`, so the
arithmetic is done in `ul` bits: 32 on the micro-controllers, 64 on a 64-bit host. -/
def changeEndianess32 (ul : Nat) (x : BitVec 32) : BitVec 32 :=
  let i : BitVec ul := x.setWidth ul
  (((i &&& 0xff000000#ul) >>> 24) ||| ((i &&& 0x00FF0000#ul) >>> 8) |||
    ((i &&& 0x0000FF00#ul) <<< 8) ||| ((i &&& 0xFF#ul) <<< 24)).setWidth 32

/-- EndianConversion.h:19-27 `changeEndianessToFloat`.  The `float` is represented by its bit
pattern; the union member read reinterprets the bits unchanged (the behaviour documented by GCC and
clang; ISO C++ leaves reading the inactive member undefined). -/
def changeEndianessToFloat (ul : Nat) (bytes : BitVec 32) : BitVec 32 :=
  changeEndianess32 ul bytes

/-- EndianConversion.h:29-34 `changeEndianess16x2`: the new value of `*bytes`. -/
def changeEndianess16x2 (x : BitVec 32) : BitVec 32 :=
  let i := ((x &&& 0xff000000#32) >>> 24) ||| ((x &&& 0x00FF0000#32) >>> 8) |||
    ((x &&& 0x0000FF00#32) <<< 8) ||| ((x &&& 0xFF#32) <<< 24)
  (i >>> 16) ||| (i <<< 16)

end Verif.Endian
