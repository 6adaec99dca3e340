import Verif.Basic
/-!
# Model of BufferedOut.h / BufferedOut.cpp and SerialOut.h

The character buffer is a list of bytes (`mem`), the write position `pos` an index into it.

`std::to_chars` for integers follows its standard specification: on success it writes the decimal
representation and returns the position behind it; when there is not enough room it returns
`{last, value_too_large}` and leaves the contents of `[first, last)` unspecified.  The unspecified
contents are the parameter `junk`; theorems quantify over it.
-/
namespace Verif.Out

/-- BufferedOut.h:13 and 91-94: data members. -/
structure BOut where
  /-- the memory of `dataBuf` -/
  mem : List Byte
  /-- `pos - dataBuf.begin()` -/
  pos : Nat
  floatPrecision : Int
  integerWidth : Int
  fillChar : Byte
deriving DecidableEq, Repr

/-- BufferedOut.h:71-77 `clear()`. -/
def BOut.clear (o : BOut) : BOut := { o with pos := 0, floatPrecision := 0, integerWidth := 0, fillChar := 32 }

/-- BufferedOut.h:15-19: the constructor. -/
def BOut.new (mem : List Byte) : BOut := BOut.clear ⟨mem, 0, 0, 0, 0⟩

/-- BufferedOut.h:66 `capacity()`. -/
abbrev BOut.capacity (o : BOut) : Nat := o.mem.length

/-- BufferedOut.h:65 `size()`. -/
abbrev BOut.size (o : BOut) : Nat := o.pos

/-- BufferedOut.h:63 `asStringView()`: `{begin, size()}`. -/
def BOut.text (o : BOut) : List Byte := o.mem.take o.pos

/-- BufferedOut.h:61-62 `data()`: the size is cast to `uint16_t`. -/
def BOut.data (o : BOut) : List Byte := o.mem.take (o.pos % 2 ^ 16)

/-- Write one character at an index; outside of the buffer this is undefined. -/
def write (m : List Byte) (p : Nat) (b : Byte) : Res (List Byte) :=
  if p < m.length then .ok (m.set p b) else .ub

/-- `memcpy(m + p, bs, bs.size())`. -/
def writeAll (m : List Byte) (p : Nat) (bs : List Byte) : Res (List Byte) :=
  if p + bs.length ≤ m.length then .ok (m.take p ++ bs ++ m.drop (p + bs.length)) else .ub

/-- BufferedOut.h:79-85 `addChar`, used by `operator<<(char)` (37-41). -/
def BOut.addChar (o : BOut) (c : Byte) : Res BOut :=
  if o.pos ≠ o.mem.length then do
    let m ← write o.mem o.pos c
    .ok { o with mem := m, pos := o.pos + 1 }
  else .ok o

/-- BufferedOut.cpp:29-36 `append(dst, end, str)`.  `str` is the memory the C string pointer points
to; reading behind it is undefined. -/
def append (m : List Byte) (dst : Nat) : List Byte → Res (List Byte × Nat)
  | [] => .ub
  | c :: cs =>
    if c ≠ 0 ∧ dst ≠ m.length then do
      let m' ← write m dst c
      append m' (dst + 1) cs
    else .ok (m, dst)

/-- BufferedOut.cpp:59-63 `operator<<(const char*)`. -/
def BOut.putCstr (o : BOut) (str : List Byte) : Res BOut := do
  let (m, p) ← append o.mem o.pos str
  .ok { o with mem := m, pos := p }

/-- BufferedOut.cpp:164-170 `operator<<(std::string_view)`. -/
def BOut.putStr (o : BOut) (str : List Byte) : Res BOut := do
  let effectiveSize := min str.length (o.mem.length - o.pos)
  let m ← writeAll o.mem o.pos (str.take effectiveSize)
  .ok { o with mem := m, pos := o.pos + effectiveSize }

/-- The decimal digits of a number (`std::to_chars` for an unsigned value, base 10). -/
def natDecF : Nat → Nat → List Byte
  | 0, _ => []
  | fuel + 1, n =>
    if n < 10 then [BitVec.ofNat 8 (48 + n)]
    else natDecF fuel (n / 10) ++ [BitVec.ofNat 8 (48 + n % 10)]

/-- Decimal representation of a natural number. -/
def natDec (n : Nat) : List Byte := natDecF (n + 1) n

/-- `std::to_chars` for a signed value, base 10: minus sign for negative values, no leading zeros. -/
def intDec (n : Int) : List Byte := if n < 0 then 45 :: natDec n.natAbs else natDec n.natAbs

/-- Unspecified contents of `[p, end)`. -/
def scramble (junk : Nat → Byte) (m : List Byte) (p : Nat) : List Byte :=
  m.mapIdx (fun i b => if p ≤ i then junk i else b)

/-- `std::to_chars(first, last, n)` with `last` the end of the buffer: new memory, returned pointer,
success. -/
def toCharsInt (junk : Nat → Byte) (m : List Byte) (first : Nat) (n : Int) : Res (List Byte × Nat × Bool) :=
  if first + (intDec n).length ≤ m.length then do
    let m' ← writeAll m first (intDec n)
    .ok (m', first + (intDec n).length, true)
  else .ok (scramble junk m first, m.length, false)

/-- `memmove(m + dst, m + src, n)`. -/
def memmove (m : List Byte) (dst src n : Nat) : Res (List Byte) :=
  if src + n ≤ m.length then writeAll m dst ((m.drop src).take n) else .ub

/-- The padding loop, BufferedOut.cpp:51-54. -/
def padLoop (m : List Byte) (p : Nat) (c : Byte) : Nat → Res (List Byte)
  | 0 => .ok m
  | k + 1 => do
    let m' ← write m p c
    padLoop m' (p + 1) c k

/-- BufferedOut.cpp:43-57 `addPadding(p)`; called with `integerWidth > 0` and `pos ≤ p`. -/
def BOut.addPadding (o : BOut) (p : Nat) : Res BOut := do
  let realSize := p - o.pos
  let w := o.integerWidth.toNat
  let m ← (if realSize < w then do
      let m ← memmove o.mem (o.pos + w - realSize) o.pos realSize
      padLoop m o.pos o.fillChar (w - realSize)
    else .ok o.mem)
  .ok { o with mem := m, pos := o.pos + w }

/-- BufferedOut.cpp:126-137 `adjustPos(p)`. -/
def BOut.adjustPos (o : BOut) (p : Nat) : Res BOut :=
  if 0 < o.integerWidth then do
    let o' ← o.addPadding p
    .ok { o' with integerWidth := 0 }
  else .ok { o with pos := p }

/-- BufferedOut.cpp:66-124 `operator<<` for the six integer types (identical bodies; `n` is the
value, whatever its type). -/
def BOut.putInt (junk : Nat → Byte) (o : BOut) (n : Int) : Res BOut := do
  let (m, p, ok) ← toCharsInt junk o.mem o.pos n
  if ok then BOut.adjustPos { o with mem := m } p
  else .ok { o with mem := m }

/-- BufferedOut.cpp:158: the digit table. -/
def hexDigits : List Byte :=
  [0x30, 0x31, 0x32, 0x33, 0x34, 0x35, 0x36, 0x37, 0x38, 0x39, 0x41, 0x42, 0x43, 0x44, 0x45, 0x46]

/-- BufferedOut.cpp:156-162 `operator<<(unsigned char)`: two unchecked writes. -/
def BOut.putByte (o : BOut) (b : Byte) : Res BOut := do
  let d1 ← Res.ofOption hexDigits[((b &&& 0xF0) >>> 4).toNat]?
  let m1 ← write o.mem o.pos d1
  let d2 ← Res.ofOption hexDigits[(b &&& 0x0F).toNat]?
  let m2 ← write m1 (o.pos + 1) d2
  .ok { o with mem := m2, pos := o.pos + 2 }

/-- The loop BufferedOut.cpp:149-152. -/
def BOut.putBytesLoop (o : BOut) : List Byte → Res BOut
  | [] => .ok o
  | b :: bs => do
    let o' ← o.putByte b
    o'.putBytesLoop bs

/-- BufferedOut.cpp:145-154 `operator<<(ConstBytesView)`. -/
def BOut.putBytes (o : BOut) (span : List Byte) : Res BOut :=
  let availableSize := (o.mem.length - o.pos) / 2
  let size := if span.length < availableSize then span.length else availableSize
  o.putBytesLoop (span.take size)

/-! ## Floats

A finite `float` is an integer multiple of 2^-149: sign and magnitude.  Arithmetic is IEEE single
precision, round to nearest even (FLT_EVAL_METHOD = 0). -/

/-- `2^149`, the scale of the magnitudes. -/
def scale : Nat := 2 ^ 149

/-- Rounding to 24 significant bits, ties to even. -/
def rnd (m : Nat) : Nat :=
  let e := m.log2 + 1 - 24
  let q := m / 2 ^ e
  let r := m % 2 ^ e
  if 2 * r < 2 ^ e then q * 2 ^ e
  else if 2 ^ e < 2 * r then (q + 1) * 2 ^ e
  else if q % 2 = 0 then q * 2 ^ e else (q + 1) * 2 ^ e

/-- The magnitude of a finite float with the given bits, `none` for infinities and NaNs. -/
def magOfBits (b : BitVec 32) : Option Nat :=
  let ex := (b.toNat / 2 ^ 23) % 256
  let man := b.toNat % 2 ^ 23
  if ex = 255 then none else if ex = 0 then some man else some ((2 ^ 23 + man) * 2 ^ (ex - 1))

/-- The sign bit of a float. -/
def negOfBits (b : BitVec 32) : Bool := b.msb

/-- `int(val)` for a float of magnitude `m`: truncation; undefined outside of the range of `int`. -/
def truncToInt (neg : Bool) (m : Nat) : Res Int :=
  let n : Int := if neg then -((m / scale : Nat) : Int) else ((m / scale : Nat) : Int)
  if -(2 ^ 31) ≤ n ∧ n < 2 ^ 31 then .ok n else .ub

/-- `std::abs(float(n))` as a magnitude. -/
def absOfInt (n : Int) : Nat := rnd (n.natAbs * scale)

/-- `a - b` for non-negative floats, result as sign and magnitude. -/
def fsub (a b : Nat) : Bool × Nat := if b ≤ a then (false, rnd (a - b)) else (true, rnd (b - a))

/-- The decimals loop, BufferedOut.cpp:17-24, with `f` as (sign, magnitude). -/
def decimalsLoop (m : List Byte) (pos : Nat) (f : Bool × Nat) : Nat → Res (List Byte × Nat)
  | 0 => .ok (m, pos)
  | precision + 1 =>
    if pos ≠ m.length then do
      let g := rnd (f.2 * 10)
      let n ← truncToInt f.1 g
      let m' ← write m pos (BitVec.ofInt 8 (48 + n))
      -- `f -= float(n)`: both have the sign of f
      let h := fsub g (absOfInt n)
      decimalsLoop m' (pos + 1) (f.1 ^^ h.1, h.2) precision
    else .ok (m, pos)

/-- BufferedOut.cpp:9-27 `toChars(first, last, val, precision)`. -/
def toCharsFloat (junk : Nat → Byte) (m : List Byte) (first : Nat) (bits : BitVec 32) (precision : Nat) :
    Res (List Byte × Nat) := do
  let mag ← Res.ofOption (magOfBits bits)
  let n ← truncToInt (negOfBits bits) mag
  let (m1, p, ok) ← toCharsInt junk m first n
  if ok ∧ 0 < precision ∧ p < m1.length then do
    let f := fsub mag (absOfInt n)
    let m2 ← write m1 p 46
    decimalsLoop m2 (p + 1) f precision
  else .ok (m1, p)

/-- BufferedOut.cpp:139-143 `operator<<(float)`; the `int` precision is converted to `unsigned`. -/
def BOut.putFloat (junk : Nat → Byte) (o : BOut) (bits : BitVec 32) : Res BOut := do
  let (m, p) ← toCharsFloat junk o.mem o.pos bits (o.floatPrecision % 2 ^ 32).toNat
  .ok { o with mem := m, pos := p }

/-- BufferedOut.h:43-59: manipulators. -/
def BOut.setPrecision (o : BOut) (p : Int) : BOut := { o with floatPrecision := p }
def BOut.setWidth (o : BOut) (w : Int) : BOut := { o with integerWidth := w }
def BOut.setFill (o : BOut) (c : Byte) : BOut := { o with fillChar := c }

/-! ## SerialOut -/

/-- SerialOut.h:105-106: the buffer and the packets handed to the UART so far. -/
structure SOut where
  out : BOut
  sent : List (List Byte)
deriving DecidableEq

/-- arduino/SerialOut.cpp:4-9 and esp32-esp-idf/SerialOut.cpp:4-9 `flush()`. -/
def SOut.flush (s : SOut) : SOut := ⟨s.out.clear, s.sent ++ [s.out.data]⟩

/-- SerialOut.h:85-89 `operator<<(end)`. -/
def SOut.putEnd (s : SOut) : SOut := s.flush

/-- SerialOut.h:91-100 `operator<<(endl)`. -/
def SOut.putEndl (s : SOut) : Res SOut := do
  let s1 := if s.out.size = s.out.capacity then s.flush else s
  let o ← s1.out.addChar 10
  .ok (SOut.flush ⟨o, s1.sent⟩)

end Verif.Out
