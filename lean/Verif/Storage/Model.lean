import Verif.Basic
/-!
# Model of PersistentStorage.h / PersistentStorage.cpp

The storage region is a list of bytes.  An object of type `T` is its object representation, a list
of `sizeof(T)` bytes (the class copies objects with `memcpy`).  A name (`std::string_view`) is a
list of bytes.

Simplifications: the host is little endian (all supported targets are); `std::size_t` sums
(`free_head_ + sizeof(...)`) are exact, i.e. `size_t` is wide enough for capacity + object size;
`std::uint32_t`/`unsigned` arithmetic (`free_head_`, `pos`) is modelled modulo 2^32 and
`std::uint16_t` narrowing (`size`) modulo 2^16.
-/
namespace Verif.Storage

/-- `sizeof(NodeDescriptor)`, PersistentStorage.h:93-98 (packed: 2 + 4 bytes). -/
abbrev descSize : Nat := 6

/-- PersistentStorage.h:90-91: the data members `buffer_` (its memory) and `free_head_`. -/
structure Store where
  mem : List Byte
  freeHead : Nat
deriving DecidableEq, Repr

/-- 32-bit unsigned addition (`pos += node.size`, `free_head_ += …`). -/
def add32 (a b : Nat) : Nat := (a + b) % 2 ^ 32

/-- Read `n` bytes at `p`; outside of the region this is undefined. -/
def readN (m : List Byte) (p n : Nat) : Res (List Byte) :=
  if p + n ≤ m.length then .ok ((m.drop p).take n) else .ub

/-- Read the little-endian `uint16_t size` field of the descriptor at `p`, PersistentStorage.h:96. -/
def nodeSize (m : List Byte) (p : Nat) : Res Nat := do
  let lo ← Res.ofOption m[p]?
  let hi ← Res.ofOption m[p + 1]?
  .ok (lo.toNat + 256 * hi.toNat)

/-- Read the `idx` field of the descriptor at `p`, PersistentStorage.h:97. -/
def nodeIdx (m : List Byte) (p : Nat) : Res (List Byte) := readN m (p + 2) 4

/-- `operator==(std::array<char, 4>, std::string_view)`, PersistentStorage.h:19-40.  The length
test comes first, so the array is not read for long names. -/
def idxEq (m : List Byte) (p : Nat) (name : List Byte) : Res Bool :=
  if 4 < name.length then .ok false
  else do
    let idx ← nodeIdx m p
    .ok (idx.take name.length == name && (idx.drop name.length).all (· == 0))

/-- `node.idx == idx && node.size == sizeof(Node<T>)`, PersistentStorage.h:81 and 130;
`n = sizeof(T)`. -/
def nodeMatches (m : List Byte) (p : Nat) (name : List Byte) (n : Nat) : Res Bool := do
  if ← idxEq m p name then
    let sz ← nodeSize m p
    .ok (sz == descSize + n)
  else .ok false

/-- The loop of `getIdx`, PersistentStorage.h:127-135.  The positions visited are below
`free_head_`, and the next position depends on the current one only; so a run of more than
`free_head_` rounds has visited a position twice and never ends: with fuel `free_head_ + 1`
running out of fuel is exactly non-termination. -/
def getIdxLoop (m : List Byte) (freeHead : Nat) (name : List Byte) (n : Nat) :
    Nat → Nat → Res (Option Nat)
  | 0, _ => .hang
  | fuel + 1, pos =>
    if pos + descSize ≤ freeHead then do
      if ← nodeMatches m pos name n then .ok (some pos)
      else
        let sz ← nodeSize m pos
        getIdxLoop m freeHead name n fuel (add32 pos sz)
    else .ok none

/-- `getIdx<T>(idx)`, PersistentStorage.h:124-137; `none` is `wrongPos`. -/
def getIdx (s : Store) (name : List Byte) (n : Nat) : Res (Option Nat) :=
  getIdxLoop s.mem s.freeHead name n (s.freeHead + 1) 0

/-- `get<T>(idx)`, PersistentStorage.h:76-87. -/
def get (s : Store) (name : List Byte) (n : Nat) : Res (Option (List Byte)) := do
  match ← getIdx s name n with
  | some pos =>
    if ← nodeMatches s.mem pos name n then
      let d ← readN s.mem (pos + descSize) n
      .ok (some d)
    else .ok none
  | none => .ok none

/-- The byte writes of copying `bs` to address `p`. -/
def writesAt (p : Nat) (bs : List Byte) : List (Nat × Byte) := bs.mapIdx (fun i b => (p + i, b))

/-- The `idx` array written for a name, PersistentStorage.h:66-69: `idx.copy` copies at most four
characters, the loop fills up with NUL. -/
def storedIdx (name : List Byte) : List Byte :=
  name.take 4 ++ List.replicate (4 - name.length) 0

/-- The two bytes of a `uint16_t` field that was assigned the `size_t` value `v`
(PersistentStorage.h:70, narrowing). -/
def le16 (v : Nat) : List Byte :=
  [BitVec.ofNat 8 (v % 2 ^ 16 % 256), BitVec.ofNat 8 (v % 2 ^ 16 / 256)]

/-- What `set` is going to do: the byte writes in program order, the new free head, the result. -/
structure Plan where
  writes : List (Nat × Byte)
  freeHead : Nat
  result : Bool
deriving DecidableEq, Repr

/-- `set<T>(idx, object)`, PersistentStorage.h:50-74, as a list of byte writes in program order:
`idx` (66-69), `size` (70), `data` (71); or `data` alone when the record exists (56). -/
def setPlan (s : Store) (name obj : List Byte) : Res Plan := do
  match ← getIdx s name obj.length with
  | some pos => .ok ⟨writesAt (pos + descSize) obj, s.freeHead, true⟩
  | none =>
    let recordSize := descSize + obj.length
    if s.freeHead + recordSize > s.mem.length then .ok ⟨[], s.freeHead, false⟩
    else .ok ⟨writesAt (s.freeHead + 2) (storedIdx name) ++ writesAt s.freeHead (le16 recordSize) ++
                writesAt (s.freeHead + descSize) obj,
              add32 s.freeHead recordSize, true⟩

/-- Perform byte writes; writing outside of the region is undefined. -/
def applyWrites (m : List Byte) : List (Nat × Byte) → Res (List Byte)
  | [] => .ok m
  | (p, b) :: ws => if p < m.length then applyWrites (m.set p b) ws else .ub

/-- `set<T>(idx, object)`, PersistentStorage.h:50-74. -/
def set (s : Store) (name obj : List Byte) : Res (Store × Bool) := do
  let plan ← setPlan s name obj
  let m ← applyWrites s.mem plan.writes
  .ok (⟨m, plan.freeHead⟩, plan.result)

/-- The loop of the constructor, PersistentStorage.cpp:12-17 (the three reads of the size field
are one read: nothing is written in between).  Fuel as in `getIdxLoop`: positions are below the
region size. -/
def openLoop (m : List Byte) : Nat → Nat → Res Nat
  | 0, _ => .hang
  | fuel + 1, fh =>
    if fh + descSize ≤ m.length then do
      let sz ← nodeSize m fh
      if sz ≠ 0 ∧ add32 fh sz ≤ m.length then openLoop m fuel (add32 fh sz)
      else .ok fh
    else .ok fh

/-- The constructor, PersistentStorage.cpp:3-20. -/
def create (m : List Byte) (init : Bool) : Res Store :=
  if init then .ok ⟨List.replicate m.length 0, 0⟩
  else do
    let fh ← openLoop m (m.length + 1) 0
    .ok ⟨m, fh⟩

end Verif.Storage
