import Verif.Basic
/-!
# Model of MemoryView.h

A pointer into an allocation is the index of the element it points to (`none` is `nullptr`).  The
allocation itself is a list.  `size_type` is `std::size_t`; `sizeBits` is its width (32 or 64).
-/
namespace Verif.MemoryView

/-- MemoryView.h:97-98: the two data members `begin_` and `size_`. -/
structure View where
  /-- `T* begin_`: element index inside the allocation, `none` for `nullptr` -/
  begin_ : Option Nat
  /-- `size_type size_` -/
  size_ : Nat
deriving DecidableEq, Repr

/-- MemoryView.h:27 `npos = static_cast<size_type>(-1)`. -/
def npos (sizeBits : Nat) : Nat := 2 ^ sizeBits - 1

/-- MemoryView.h:29 `MemoryView()`. -/
def View.empty : View := ⟨none, 0⟩

/-- MemoryView.h:30 `MemoryView(T* p, size_type s)`. -/
def View.ofPtrSize (p : Option Nat) (s : Nat) : View := ⟨p, s⟩

/-- MemoryView.h:31 `MemoryView(T* begin, T* end)` for `begin ≤ end` in the same allocation. -/
def View.ofPtrs (b e : Nat) : View := ⟨some b, e - b⟩

/-- MemoryView.h:42 `MemoryView(T(&ar)[N])` and 39 (`std::array`): the whole allocation. -/
def View.ofArray {α} (ar : List α) : View := ⟨some 0, ar.length⟩

/-- Pointer addition: MemoryView.h:52,70,71,83 `begin_ + n`.  Adding to `nullptr` is only
meaningful for 0 (and then still null). -/
def ptrAdd (p : Option Nat) (n : Nat) : Option Nat := p.map (· + n)

/-- Read the element a pointer points to; outside of the allocation this is undefined. -/
def deref {α} (mem : List α) (p : Option Nat) : Res α :=
  match p with
  | none => .ub
  | some i => Res.ofOption mem[i]?

/-- MemoryView.h:50 `operator[]`: `begin_[i]`. -/
def View.at {α} (mem : List α) (v : View) (i : Nat) : Res α := deref mem (ptrAdd v.begin_ i)

/-- MemoryView.h:63 `front()`. -/
def View.front {α} (mem : List α) (v : View) : Res α := deref mem v.begin_

/-- MemoryView.h:64 `back()`: `*(begin_ + size_ - 1)`; for an empty view the pointer arithmetic
leaves the view and the access is undefined. -/
def View.back {α} (mem : List α) (v : View) : Res α :=
  if v.size_ = 0 then .ub else deref mem (ptrAdd v.begin_ (v.size_ - 1))

/-- MemoryView.h:62 `empty()`. -/
def View.isEmpty (v : View) : Bool := v.size_ == 0

/-- MemoryView.h:60 `size_bytes()`; multiplication in `size_t`. -/
def View.sizeBytes (sizeBits sizeofT : Nat) (v : View) : Nat := v.size_ * sizeofT % 2 ^ sizeBits

/-- MemoryView.h:65-72 `subspan(offset, count = npos)`. -/
def View.subspan (sizeBits : Nat) (v : View) (offset : Nat) (count : Nat) : View :=
  if offset ≥ v.size_ then .empty
  else if count = npos sizeBits then ⟨ptrAdd v.begin_ offset, v.size_ - offset⟩
  else ⟨ptrAdd v.begin_ offset, min (v.size_ - offset) count⟩

/-- MemoryView.h:73-78 `first(count)`. -/
def View.first (v : View) (count : Nat) : View :=
  if count ≥ v.size_ then v else ⟨v.begin_, count⟩

/-- MemoryView.h:79-84 `last(count)`. -/
def View.last (v : View) (count : Nat) : View :=
  if count ≥ v.size_ then v else ⟨ptrAdd v.begin_ (v.size_ - count), count⟩

/-- A loop `for (auto it = first; it != last; ++it) out.push_back(*it);` over pointers, `n` being
the distance `last - first` (MemoryView.h:51-54 `begin`, `end`, `cbegin`, `cend`). -/
def iterate {α} (mem : List α) (p : Option Nat) : Nat → Res (List α)
  | 0 => .ok []
  | n + 1 => do
    let x ← deref mem p
    let rest ← iterate mem (ptrAdd p 1) n
    .ok (x :: rest)

/-- Forward iteration over a view. -/
def View.elems {α} (mem : List α) (v : View) : Res (List α) := iterate mem v.begin_ v.size_

/-- A loop over `std::reverse_iterator`s (MemoryView.h:55-58 `rbegin`, `rend`): dereferencing a
reverse iterator with base `p` reads `*(p - 1)`; `n` is the distance. -/
def riterate {α} (mem : List α) (p : Option Nat) : Nat → Res (List α)
  | 0 => .ok []
  | n + 1 => do
    let x ← deref mem (p.map (· - 1))
    let rest ← riterate mem (p.map (· - 1)) n
    .ok (x :: rest)

/-- Reverse iteration over a view: starts at `end()`. -/
def View.relems {α} (mem : List α) (v : View) : Res (List α) :=
  riterate mem (ptrAdd v.begin_ v.size_) v.size_

end Verif.MemoryView
