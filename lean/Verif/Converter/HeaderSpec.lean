import Verif.Converter.HeaderModel
import Verif.Out.Spec
/-!
# Reading the generated header: the tokens a compiler sees

White space separates tokens, `//` comments extend to the end of the line (a backslash at the end of the
line continues the comment), the characters `{ } [ ] , ; =` are tokens of their own, everything else forms
words; words which are decimal or two-digit hexadecimal literals are numbers.  (A minus sign is read as part of
the number.)
-/
namespace Verif.Converter
open Verif.Out

inductive Tok where
  | num (n : Int)
  | word (s : List Byte)
  | punct (c : Byte)
deriving DecidableEq

/-- Read a word. -/
def wordTok (s : List Byte) : Tok :=
  match parseInt s with
  | some n => .num n
  | none =>
    match s with
    | 48 :: 120 :: ds =>
      match unhex ds with
      | some [b] => .num b.toNat
      | _ => .word s
    | _ => .word s

def isSpace (c : Byte) : Bool := c == 32 || c == 10
def isPunct (c : Byte) : Bool :=
  c == 123 || c == 125 || c == 91 || c == 93 || c == 44 || c == 59 || c == 61

inductive Mode where
  | code (cur : List Byte)
  | comment
  | backslash

/-- Finish the current word. -/
def emit (cur : List Byte) (ts : List Tok) : List Tok := if cur = [] then ts else wordTok cur :: ts

/-- The tokens of a text. -/
def lex : Mode → List Byte → List Tok
  | .code cur, [] => emit cur []
  | .comment, [] => []
  | .backslash, [] => []
  | .code cur, c :: cs =>
    if isSpace c then emit cur (lex (.code []) cs)
    else if isPunct c then emit cur (.punct c :: lex (.code []) cs)
    else if c = 47 ∧ cs.head? = some 47 then emit cur (lex .comment cs)
    else lex (.code (cur ++ [c])) cs
  | .comment, c :: cs =>
    if c = 10 then lex (.code []) cs
    else if c = 92 then lex .backslash cs
    else lex .comment cs
  | .backslash, c :: cs =>
    if c = 92 then lex .backslash cs
    else lex .comment cs

/-- The tokens of a text. -/
def tokens (s : List Byte) : List Tok := lex (.code []) s

/-- The members of a list, separated by commas. -/
def commaSep : List (List Tok) → List Tok
  | [] => []
  | [x] => x
  | x :: xs => x ++ .punct 44 :: commaSep xs

/-- `const TYPE NAME[] = { ... };` -/
def arrayDecl (type name : List Byte) (members : List (List Tok)) : List Tok :=
  [.word b!"const", .word type, .word name, .punct 91, .punct 93, .punct 61, .punct 123] ++ commaSep members ++
    [.punct 125, .punct 59]

/-- The initialiser of a glyph with its bitmap at `offset`. -/
def glyphInit (offset : Nat) (g : Font.Glyph) : List Tok :=
  [.punct 123, .num offset, .punct 44, .punct 123, .num g.width.toNat, .punct 44, .num g.height.toNat, .punct 125,
    .punct 44, .num g.shift.toNat, .punct 44, .punct 123, .num g.offX.toInt, .punct 44, .num g.offY.toInt,
    .punct 125, .punct 125]

/-- A C identifier. -/
def isIdentChar (c : Byte) : Prop :=
  (65 ≤ c.toNat ∧ c.toNat ≤ 90) ∨ (97 ≤ c.toNat ∧ c.toNat ≤ 122) ∨ (48 ≤ c.toNat ∧ c.toNat ≤ 57) ∨ c.toNat = 95
def IsIdent (s : List Byte) : Prop :=
  (∀ c ∈ s, isIdentChar c) ∧ ∃ c cs, s = c :: cs ∧ ¬ (48 ≤ c.toNat ∧ c.toNat ≤ 57)

end Verif.Converter
