import Verif.Storage.Model
/-!
# Specification of the storage: a bounded map

The specification knows nothing about bytes of the region: it is a partial function from
(name, object size) to object bytes, and a counter of used space.
-/
namespace Verif.Storage

/-- Names are compared up to trailing NUL characters. -/
def stripNul (name : List Byte) : List Byte := (name.reverse.dropWhile (· == 0)).reverse

/-- The abstract state. -/
structure AMap where
  val : List Byte → Nat → Option (List Byte)
  used : Nat

/-- Nothing stored. -/
def AMap.empty : AMap := ⟨fun _ _ => none, 0⟩

def AMap.get (a : AMap) (name : List Byte) (n : Nat) : Option (List Byte) := a.val (stripNul name) n

def AMap.put (a : AMap) (name obj : List Byte) : List Byte → Nat → Option (List Byte) :=
  fun k n => if k = stripNul name ∧ n = obj.length then some obj else a.val k n

/-- Replace, or add if there is room; six bytes of overhead per record. -/
def AMap.set (a : AMap) (cap : Nat) (name obj : List Byte) : AMap × Bool :=
  if (a.get name obj.length).isSome then (⟨a.put name obj, a.used⟩, true)
  else if a.used + 6 + obj.length ≤ cap then (⟨a.put name obj, a.used + 6 + obj.length⟩, true)
  else (a, false)

/-- Calls on a storage; `reopen` re-creates the object over the same memory with `init = false`. -/
inductive Op where
  | set (name obj : List Byte)
  | get (name : List Byte) (n : Nat)
  | reopen
deriving DecidableEq, Repr

/-- What the caller sees. -/
inductive Out where
  | flag (b : Bool)
  | value (v : Option (List Byte))
  | opened
deriving DecidableEq, Repr

/-- One call on the concrete storage. -/
def step (s : Store) : Op → Res (Store × Out)
  | .set name obj => do let (s', b) ← set s name obj; .ok (s', .flag b)
  | .get name n => do let v ← get s name n; .ok (s, .value v)
  | .reopen => do let s' ← create s.mem false; .ok (s', .opened)

/-- A history of calls on the concrete storage. -/
def run (s : Store) : List Op → Res (Store × List Out)
  | [] => .ok (s, [])
  | op :: ops => do
    let (s', o) ← step s op
    let (s'', os) ← run s' ops
    .ok (s'', o :: os)

/-- One call on the abstract map. -/
def AMap.step (cap : Nat) (a : AMap) : Op → AMap × Out
  | .set name obj => let r := a.set cap name obj; (r.1, .flag r.2)
  | .get name n => (a, .value (a.get name n))
  | .reopen => (a, .opened)

/-- A history of calls on the abstract map. -/
def AMap.run (cap : Nat) (a : AMap) : List Op → AMap × List Out
  | [] => (a, [])
  | op :: ops =>
    let r := a.step cap op
    let q := AMap.run cap r.1 ops
    (q.1, r.2 :: q.2)

/-- Names of at most four characters, records that fit the 16-bit size field. -/
def Op.Normal : Op → Prop
  | .set name obj => name.length ≤ 4 ∧ 6 + obj.length < 65536
  | .get name n => name.length ≤ 4 ∧ 6 + n < 65536
  | .reopen => True

/-- The region is small enough for 32-bit positions. -/
def CapOk (cap : Nat) : Prop := cap + 65536 ≤ 2 ^ 32

/-- States reachable from an initialised storage by any calls (with names of any length) whose
records fit the 16-bit size field. -/
inductive Reachable : Store → Prop where
  | init (m : List Byte) (s : Store) : CapOk m.length → create m true = .ok s → Reachable s
  | set (s s' : Store) (name obj : List Byte) (b : Bool) : Reachable s →
      6 + obj.length < 65536 → set s name obj = .ok (s', b) → Reachable s'
  | reopen (s s' : Store) : Reachable s → create s.mem false = .ok s' → Reachable s'

/-- A crash: some of the byte writes of an interrupted call have reached memory, in any order
(possibly repeatedly); the others have not. -/
def Crashed (m : List Byte) (writes : List (Nat × Byte)) (m' : List Byte) : Prop :=
  ∃ ws : List (Nat × Byte), (∀ w ∈ ws, w ∈ writes) ∧ applyWrites m ws = .ok m'

end Verif.Storage
