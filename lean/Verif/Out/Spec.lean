import Verif.Out.Model
/-!
# Specification of text output
-/
namespace Verif.Out

/-- Value of a digit character. -/
def digitVal (c : Byte) : Option Nat :=
  if 48 ≤ c.toNat ∧ c.toNat ≤ 57 then some (c.toNat - 48) else none

/-- Read a sequence of digits, most significant first. -/
def parseNatAux : Nat → List Byte → Option Nat
  | acc, [] => some acc
  | acc, c :: cs =>
    match digitVal c with
    | some d => parseNatAux (acc * 10 + d) cs
    | none => none

/-- Read a decimal integer: optional minus sign, at least one digit. -/
def parseInt (s : List Byte) : Option Int :=
  match s with
  | [] => none
  | c :: cs =>
    if c = 45 then (if cs = [] then none else (parseNatAux 0 cs).map (fun v : Nat => -(v : Int)))
    else (parseNatAux 0 (c :: cs)).map (fun v : Nat => (v : Int))

/-- No superfluous leading zero and no negative zero. -/
def Canonical (s : List Byte) : Prop :=
  s = [48] ∨ (∃ c cs, s = c :: cs ∧ c ≠ 48 ∧ c ≠ 45) ∨ (∃ c cs, s = 45 :: c :: cs ∧ c ≠ 48)

/-- The value of an upper-case hex digit. -/
def hexVal (c : Byte) : Option Nat :=
  if 0x30 ≤ c.toNat ∧ c.toNat ≤ 0x39 then some (c.toNat - 0x30)
  else if 0x41 ≤ c.toNat ∧ c.toNat ≤ 0x46 then some (c.toNat - 0x41 + 10)
  else none

/-- Decode pairs of upper-case hex digits. -/
def unhex : List Byte → Option (List Byte)
  | [] => some []
  | [_] => none
  | a :: b :: cs => do
    let x ← hexVal a
    let y ← hexVal b
    let r ← unhex cs
    some (BitVec.ofNat 8 (16 * x + y) :: r)

/-- The k-th decimal (k ≥ 1) of the fraction `num/den`, truncated. -/
def decimal (num den k : Nat) : Nat := num * 10 ^ k / den % 10

end Verif.Out
