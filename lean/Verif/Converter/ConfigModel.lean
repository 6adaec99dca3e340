import Verif.Converter.HeaderModel
/-!
# Model of `gfx-font-converter/FontConverterConfig.cpp`

Strings are lists of characters without the terminating null.  `getopt` is the one of glibc without
`POSIXLY_CORRECT` (arguments which are no options are skipped), `std::stoi` and `std::toupper` are those of the "C"
locale; `char` is signed on the host.
-/
namespace Verif.Converter.Config
open Verif Verif.Converter

/-- What `getopt` returns: an option with its argument, or an option without; a bad option is `?`. -/
inductive Opt where
  | arg (c : Byte) (value : List Byte)
  | flag (c : Byte)
deriving DecidableEq

/-- "f:o:d:s:e:bh" (FontConverterConfig.cpp:11): the options followed by a colon. -/
def takesArg (c : Byte) : Bool := c == 0x66 || c == 0x6F || c == 0x64 || c == 0x73 || c == 0x65

/-- The options without argument. -/
def isFlag (c : Byte) : Bool := c == 0x62 || c == 0x68

/-- The letters of one argument; the second component is an option still waiting for its argument. -/
def cluster : List Byte → List Opt × Option Byte
  | [] => ([], none)
  | c :: cs =>
    if takesArg c then (if cs = [] then ([], some c) else ([.arg c cs], none))
    else
      let (os, p) := cluster cs
      (.flag (if isFlag c then c else 0x3F) :: os, p)

/-- `getopt` over the arguments `argv[1]`, …; the first parameter is an option waiting for its argument. -/
def getopt : Option Byte → List (List Byte) → List Opt
  | some _, [] => [.flag 0x3F]
  | some c, a :: rest => .arg c a :: getopt none rest
  | none, [] => []
  | none, a :: rest =>
    if a = b!"--" then []
    else if a.head? = some 0x2D ∧ a.tail ≠ [] then
      let (os, p) := cluster a.tail
      os ++ getopt p rest
    else getopt none rest

/-- `std::isspace`. -/
def isSpaceC (c : Byte) : Bool := c == 0x20 || (0x09 ≤ c && c ≤ 0x0D)

/-- `std::isdigit`. -/
def isDigitC (c : Byte) : Bool := 0x30 ≤ c && c ≤ 0x39

/-- The value of decimal digits. -/
def digitsValue (ds : List Byte) : Nat := ds.foldl (fun v c => v * 10 + (c.toNat - 48)) 0

/-- The sign of a number and what follows. -/
def splitSign : List Byte → Bool × List Byte
  | [] => (false, [])
  | c :: r => if c = 0x2D then (true, r) else if c = 0x2B then (false, r) else (false, c :: r)

/-- `std::stoi(s)`: white space, sign, digits, anything; `none` is an exception. -/
def stoi (s : List Byte) : Option Int :=
  let s := s.dropWhile isSpaceC
  let (neg, s) := splitSign s
  let ds := s.takeWhile isDigitC
  if ds = [] then none
  else
    let v : Int := if neg then -(digitsValue ds : Int) else digitsValue ds
    if -2147483648 ≤ v ∧ v ≤ 2147483647 then some v else none

inductive Format where
  | header
  | binary
deriving DecidableEq

/-- FontConverterConfig.h:20-28. -/
structure Config where
  fontFileName : List Byte
  outputDirectory : List Byte
  encoding : List Byte
  dpi : Int
  fontSize : Int
  firstChar : Nat
  lastChar : Nat
  format : Format
  printHelp : Bool
deriving DecidableEq

/-- FontConverterConfig.h:20-28 and FontConverterConfig.cpp:10: initial values. -/
def Config.init : Config := ⟨[], [], b!"ASCII", 141, 12, 0x20, 0xFF, .header, false⟩

/-- FontConverterConfig.cpp:13-38: one option; `none` is an exception. -/
def Config.apply (c : Config) : Opt → Option Config
  | .arg o v =>
    if o = 0x66 then some { c with fontFileName := v }
    else if o = 0x6F then some { c with outputDirectory := v }
    else if o = 0x64 then (stoi v).map fun n => { c with dpi := n }
    else if o = 0x73 then (stoi v).map fun n => { c with fontSize := n }
    else if o = 0x65 then some { c with encoding := v }
    else some { c with printHelp := true }
  | .flag o =>
    if o = 0x62 then some { c with format := .binary }
    else some { c with printHelp := true }

/-- FontConverterConfig.cpp:11-38: the loop. -/
def Config.applyAll (c : Config) : List Opt → Option Config
  | [] => some c
  | o :: os => match c.apply o with
    | none => none
    | some c' => c'.applyAll os

/-- `static_cast<char>(std::toupper(c))` (FontConverterConfig.cpp:40-43): the argument must be an `unsigned char` or
`EOF` (-1), which negative characters are not. -/
def toupper (c : Byte) : Res Byte :=
  if c.toNat < 128 ∨ c = 0xFF then .ok (if 0x61 ≤ c.toNat ∧ c.toNat ≤ 0x7A then c - 32 else c) else .ub

/-- FontConverterConfig.cpp:40-43. -/
def upper : List Byte → Res (List Byte)
  | [] => .ok []
  | c :: cs => do
    let c' ← toupper c
    let cs' ← upper cs
    .ok (c' :: cs')

/-- FontConverterConfig.cpp:7-53: the constructor with the arguments `argv[1]`, …; `ok none` is an exception. -/
def Config.parse (args : List (List Byte)) : Res (Option Config) :=
  match Config.init.applyAll (getopt none args) with
  | none => .ok none
  | some c => do
    let enc ← upper c.encoding
    .ok (some { c with encoding := enc, lastChar := if enc = b!"ASCII" then 0x7E else 0xFF })

end Verif.Converter.Config
