import Verif.Endian.Model
import Verif.MemoryView.Model
import Verif.Storage.Model
import Verif.Out.Model
/-!
# `tests/EndianConversionTest.cpp`, `MemoryViewTest.cpp`, `BufferedOutTest.cpp`, `PersistentStorageTest.cpp`
against the model

Tests of the model, not proofs about it.  Assertions about types (`is_convertible_v`, …) have no counterpart; the
`std::string` of PersistentStorageTest.cpp:131-137 is stored by its object representation like every other object.
-/
namespace Verif.Conformance
open Verif

/-! ## EndianConversionTest.cpp -/
section
open Verif.Endian
-- :6-10
example : changeEndianess16 0xABCD = 0xCDAB ∧ changeEndianess16 0x1234 = 0x3412 := by decide
-- :12-16
example : changeEndianess32 64 0xABCDEF12 = 0x12EFCDAB ∧ changeEndianess32 64 0x12345678 = 0x78563412 := by decide
-- :18-29 (5.677587e-19f is 0x212792a2, -1.763874e+36f is 0xFBA9DADA)
example : changeEndianessToFloat 64 (changeEndianess32 64 0x212792a2) = 0x212792a2 ∧
    changeEndianessToFloat 64 (changeEndianess32 64 0xFBA9DADA) = 0xFBA9DADA := by decide
-- :31-40
example : changeEndianess16x2 0xABCDEF12 = 0xCDAB12EF ∧ changeEndianess16x2 0x12345678 = 0x34127856 := by decide
end

/-! ## MemoryViewTest.cpp -/
section
open Verif.MemoryView
def ints : List Nat := [1, 2, 3, 4, 5]
def v5 : View := View.ofArray ints
-- :6-12
example : View.empty.size_ = 0 ∧ View.empty.begin_ = none ∧ ptrAdd View.empty.begin_ View.empty.size_ = none := by decide
-- :14-21, 32-39
example : (View.ofPtrSize (some 0) 3).size_ = 3 ∧ (View.ofPtrSize (some 0) 3) = View.ofArray [1, 2, 3] := by decide
-- :53-72
example : View.at [1, 2, 3] (.ofPtrSize (some 0) 3) 0 = .ok 1 ∧ View.at [1, 2, 3] (.ofPtrSize (some 0) 3) 1 = .ok 2 ∧
    View.at [1, 2, 3] (.ofPtrSize (some 0) 3) 2 = .ok 3 := by decide
-- :74-93
example : v5.elems ints = .ok [1, 2, 3, 4, 5] := by decide
-- :95-114
example : v5.relems ints = .ok [5, 4, 3, 2, 1] := by decide
-- :116-130
example : (v5.subspan 64 1 3).size_ = 3 ∧ (v5.subspan 64 1 3).at ints 0 = .ok 2 ∧ (v5.subspan 64 1 3).at ints 2 = .ok 4 ∧
    (v5.subspan 64 3 (npos 64)).isEmpty = false ∧ (v5.subspan 64 3 (npos 64)).size_ = 2 ∧
    (v5.subspan 64 3 (npos 64)).at ints 0 = .ok 4 ∧ (v5.subspan 64 3 (npos 64)).at ints 1 = .ok 5 ∧
    (v5.subspan 64 5 (npos 64)).isEmpty = true ∧ (v5.subspan 64 6 (npos 64)).isEmpty = true := by decide
-- :132-148 (sizes)
example : v5.sizeBytes 64 4 = 20 := by decide
-- :150-162
example : (v5.first 3).elems ints = .ok [1, 2, 3] ∧ (v5.first 5).elems ints = .ok [1, 2, 3, 4, 5] ∧
    (v5.first 6).elems ints = .ok [1, 2, 3, 4, 5] := by decide
-- :164-176
example : (v5.last 3).elems ints = .ok [3, 4, 5] ∧ (v5.last 5).elems ints = .ok [1, 2, 3, 4, 5] ∧
    (v5.last 6).elems ints = .ok [1, 2, 3, 4, 5] := by decide
end

/-! ## BufferedOutTest.cpp -/
section
open Verif.Out
def buf : List Byte := List.replicate 128 0
def shows (r : Res BOut) (s : List Byte) : Prop := ∃ o, r = .ok o ∧ o.text = s ∧ o.data = s
instance (r s) : Decidable (shows r s) :=
  match r with
  | .ok o => if h : o.text = s ∧ o.data = s then isTrue ⟨o, rfl, h⟩
      else isFalse (fun ⟨_, e, h'⟩ => h (by cases e; exact h'))
  | .ub => isFalse (fun ⟨_, e, _⟩ => nomatch e)
  | .hang => isFalse (fun ⟨_, e, _⟩ => nomatch e)
def junk : Nat → Byte := fun _ => 63
-- :11-16, 90-93
example : (BOut.new buf).size = 0 ∧ (BOut.new buf).capacity = 128 := by decide +kernel
-- :18-23 "123"
example : shows ((BOut.new buf).putInt junk 123) [49, 50, 51] := by decide +kernel
-- :25-29 "123456789012345"
example : shows ((BOut.new buf).putInt junk 123456789012345)
    [49, 50, 51, 52, 53, 54, 55, 56, 57, 48, 49, 50, 51, 52, 53] := by decide +kernel
-- :31-35 "923456789012345"
example : shows ((BOut.new buf).putInt junk 923456789012345)
    [57, 50, 51, 52, 53, 54, 55, 56, 57, 48, 49, 50, 51, 52, 53] := by decide +kernel
-- :37-42: 123.456f is 0x42F6E979; "123.45"
example : shows (((BOut.new buf).setPrecision 2).putFloat junk 0x42F6E979) [49, 50, 51, 46, 52, 53] := by decide +kernel
-- :44-61 "0102F3"
example : shows ((BOut.new buf).putBytes [1, 2, 0xF3]) [48, 49, 48, 50, 70, 51] := by decide +kernel
-- :63-67 "    42123"
example : shows (do let o ← ((BOut.new buf).setWidth 6).putInt junk 42; o.putInt junk 123)
    [32, 32, 32, 32, 52, 50, 49, 50, 51] := by decide +kernel
-- :69-73 "000042"
example : shows ((((BOut.new buf).setFill 48).setWidth 6).putInt junk 42) [48, 48, 48, 48, 52, 50] := by decide +kernel
-- :75-82 "11:04"
example : shows (do
    let o ← (((BOut.new (List.replicate 20 0)).setFill 48).setWidth 2).putInt junk 11
    let o ← o.putCstr [58, 0]
    (o.setWidth 2).putInt junk 4) [49, 49, 58, 48, 52] := by decide +kernel
-- :84-88
example : shows ((BOut.new buf).putCstr [72, 101, 108, 108, 111, 0]) [72, 101, 108, 108, 111] := by decide +kernel
-- :95-101
example : (do let o ← (BOut.new buf).putInt junk 123; .ok o.clear.size : Res Nat) = .ok 0 := by decide +kernel
end

/-! ## PersistentStorageTest.cpp -/
section
open Verif.Storage
/-- A `uint32_t` member. -/
def u32 (n : Nat) : List Byte := [BitVec.ofNat 8 n, BitVec.ofNat 8 (n / 256), BitVec.ofNat 8 (n / 65536), BitVec.ofNat 8 (n / 16777216)]
def obj1 : List Byte := u32 1 ++ u32 2 ++ u32 3
def obj2 : List Byte := u32 4 ++ u32 5 ++ u32 6
def kTest : List Byte := [116, 101, 115, 116]
def k0 : List Byte := [107, 101, 121]
def k1 : List Byte := [107, 101, 121, 49]
def k2 : List Byte := [107, 101, 121, 50]
def k3 : List Byte := [107, 101, 121, 51]
def fresh : Res Store := create (List.replicate 1024 0) true
-- :25-42
example : (do let s ← fresh; let (s, r) ← set s kTest obj1; let v ← get s kTest 12; .ok (r, v) : Res _) =
    .ok (true, some obj1) := by decide +kernel
-- :45-72
example : (do
    let s ← fresh
    let (s, r1) ← set s kTest obj1
    let v1 ← get s kTest 12
    let (s, r2) ← set s kTest obj2
    let v2 ← get s kTest 12
    .ok (r1, v1, r2, v2) : Res _) = .ok (true, some obj1, true, some obj2) := by decide +kernel
-- :75-86
example : (do let s ← create (List.replicate 17 0) true; let (_, r) ← set s k0 obj1; .ok r : Res _) = .ok false := by
  decide +kernel
-- :89-98, 157-165
example : (do let s ← fresh; get s k0 4) = .ok none := by decide +kernel
-- :101-115
example : (do let s ← fresh; let (s, _) ← set s k0 obj1; get s k0 8) = .ok none := by decide +kernel
-- :118-138 (`std::string` as 32 bytes of object representation)
example : (do
    let s ← fresh
    let (s, _) ← set s k1 (u32 123)
    let (s, _) ← set s k2 (u32 0x40490FD0)
    let (s, _) ← set s k3 (List.replicate 32 7)
    let v1 ← get s k1 4
    let v2 ← get s k2 4
    let v3 ← get s k3 32
    .ok (v1, v2, v3) : Res _) = .ok (some (u32 123), some (u32 0x40490FD0), some (List.replicate 32 7)) := by
  decide +kernel
-- :141-154
example : (do
    let s ← fresh
    let (s, r1) ← set s k0 (u32 123)
    let v1 ← get s k0 4
    let (s, r2) ← set s k0 (u32 456)
    let v2 ← get s k0 4
    .ok (r1, v1, r2, v2) : Res _) = .ok (true, some (u32 123), true, some (u32 456)) := by decide +kernel
-- :168-203: `storage` and `storage2` share the buffer
example : (do
    let s ← create (List.replicate 1024 127) true
    let sum := (s.mem.map BitVec.toNat).sum
    let (s, r1) ← set s k1 obj1
    let v1 ← get s k1 12
    let t ← create s.mem false
    let (t, r2) ← set t k2 obj2
    let v2 ← get ⟨t.mem, s.freeHead⟩ k1 12
    let v3 ← get t k2 12
    .ok ((sum, r1, r2), v1, v2, v3) : Res _) = .ok ((0, true, true), some obj1, some obj1, some obj2) := by decide +kernel
end

end Verif.Conformance
