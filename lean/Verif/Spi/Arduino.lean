import Verif.Basic
/-!
# Model of `arduino/SpiBus.cpp`

`SPIClass::transfer(b)` exchanges one byte with the peer, `transferBytes(in, out, n)` exchanges `n` bytes, sending
0xFF where `in` is null.  The peer's answer may depend on everything sent to it before.  The memory the pointers `in`
and `out` point to is given from the pointer on; the two do not overlap.
-/
namespace Verif.Spi.Arduino
open Verif

/-- What happens on the bus. -/
inductive Ev where
  | beginTransaction
  | exchange (sent got : Byte)
  | endTransaction
deriving DecidableEq

/-- The answer of the peer, depending on the bytes sent to it before. -/
abbrev Peer := List Byte → Byte

/-- The bytes sent so far. -/
def sentBytes : List Ev → List Byte
  | [] => []
  | .exchange s _ :: es => s :: sentBytes es
  | _ :: es => sentBytes es

/-- `SPIClass::transfer(b)`. -/
def exchange (peer : Peer) (bus : List Ev) (b : Byte) : Byte × List Ev :=
  (peer (sentBytes bus), bus ++ [.exchange b (peer (sentBytes bus))])

/-- The byte to send at index `i`: `*in` or the constant 0xFF (SpiBus.cpp:10,13,16). -/
def source (tx : Option (List Byte)) (i : Nat) : Res Byte :=
  match tx with
  | none => .ok 0xFF
  | some m => Res.ofOption m[i]?

/-- Storing an answer at index `i`, if there is a place to store it. -/
def sink (rx : Option (List Byte)) (i : Nat) (b : Byte) : Res (Option (List Byte)) :=
  match rx with
  | none => .ok none
  | some m => if i < m.length then .ok (some (m.set i b)) else .ub

/-- `n` single-byte transfers from index `i` on: the fall-through cases SpiBus.cpp:9-19, 36-46 and 64-74; also
`transferBytes`, which exchanges its bytes one after the other. -/
def bytes (peer : Peer) (tx : Option (List Byte)) : Nat → Nat → Option (List Byte) → List Ev →
    Res (Option (List Byte) × List Ev)
  | 0, _, rx, bus => .ok (rx, bus)
  | n + 1, i, rx, bus => do
    let b ← source tx i
    let (got, bus) := exchange peer bus b
    let rx ← sink rx i got
    bytes peer tx n (i + 1) rx bus

/-- SpiBus.cpp:5-30 `read` (no source), 32-58 `write` (no sink), 60-86 `readAndWrite`: up to three bytes one by one,
otherwise whole words by `transferBytes` and the rest by the function itself. -/
def move (peer : Peer) (tx : Option (List Byte)) (rx : Option (List Byte)) (size : Nat) (bus : List Ev) :
    Res (Option (List Byte) × List Ev) :=
  if size ≤ 3 then bytes peer tx size 0 rx bus
  else do
    let dwords := size / 4
    let (rx, bus) ← bytes peer tx (dwords * 4) 0 rx bus
    let rest := size % 4
    if rest ≠ 0 then bytes peer tx rest (dwords * 4) rx bus
    else .ok (rx, bus)

/-- SpiBus.cpp:89-107 `transfer`; it always returns true. -/
def transfer (peer : Peer) (tx rx : Option (List Byte)) (length : Nat) (bus : List Ev) :
    Res (Bool × Option (List Byte) × List Ev) := do
  let bus := bus ++ [.beginTransaction]
  let (rx, bus) ← (match tx, rx with
    | none, none => .ok (rx, bus)
    | none, some m => move peer none (some m) length bus
    | some d, none => move peer (some d) none length bus
    | some d, some m => move peer (some d) (some m) length bus : Res (Option (List Byte) × List Ev))
  .ok (true, rx, bus ++ [.endTransaction])

end Verif.Spi.Arduino
