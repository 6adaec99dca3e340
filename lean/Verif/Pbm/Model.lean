import Verif.Basic
import Verif.FrameBuffer.Model
import Verif.Converter.ConfigModel
import Verif.Out.Model

/-!
# The image files of the tests (`tests/PBMHelper.cpp`)

`comparePBM` is the oracle of the drawing tests: it decides whether a frame buffer equals a golden
image.  A file is the list of its bytes, `none` a file which cannot be opened.  The host's `int` has
32 bits; arithmetic on it is checked (`FrameBuffer.chk`, overflow is undefined behaviour).  Writing to
an opened file succeeds (the code does not look at the state of the stream).

The formatted extractions are modelled as the standard describes them in the "C" locale:
`>> std::string` skips white space and takes everything up to the next white space, `>> int` skips
white space and takes a sign and digits, failing when there is no digit or the value does not fit.
`getline(nullptr, 0)` succeeds exactly when the next character is the line feed, which it removes
(the delimiter is tested before the room in the buffer).
-/

namespace Verif.Pbm

open Verif.Converter Verif.Converter.Config Verif.Out
open Verif.FrameBuffer (chk)

/-- `file >> int`: the value and the rest of the stream, `none` when the stream fails. -/
def extractInt (s : List Byte) : Option (Int × List Byte) :=
  let s := s.dropWhile isSpaceC
  let (neg, s) := splitSign s
  let ds := s.takeWhile isDigitC
  if ds = [] then none
  else
    let v : Int := if neg then -(digitsValue ds : Int) else digitsValue ds
    if -2147483648 ≤ v ∧ v ≤ 2147483647 then some (v, s.dropWhile isDigitC) else none

/-- `file >> magicNumber >> width >> height` and `file.getline(nullptr, 0).good()` (PBMHelper.cpp:18-31);
`none` when a number is missing, the magic number is not one of the two or the header does not end with a line
feed: all of these return `std::nullopt`.  The flag says that the file is binary ("P4"). -/
def header (s : List Byte) : Option (Bool × Int × Int × List Byte) :=
  let s := s.dropWhile isSpaceC
  let magic := s.takeWhile (!isSpaceC ·)
  let s := s.dropWhile (!isSpaceC ·)
  if magic ≠ b!"P4" ∧ magic ≠ b!"P1" then none
  else
    match extractInt s with
    | none => none
    | some (w, s) =>
      match extractInt s with
      | none => none
      | some (h, s) => if s.head? = some 0x0A then some (magic == b!"P4", w, h, s.tail) else none

/-- The lines `std::getline` delivers: the line feeds are removed, an empty last line does not count.  The first
parameter is what has been read of the current line. -/
def linesFrom : List Byte → List Byte → List (List Byte)
  | acc, [] => if acc = [] then [] else [acc]
  | acc, c :: cs => if c = 0x0A then acc :: linesFrom [] cs else linesFrom (acc ++ [c]) cs

/-- All lines of a stream. -/
def lines (s : List Byte) : List (List Byte) := linesFrom [] s

/-- PBMHelper.cpp:61-72: the characters of one line.  `n` is `dataSize`, the state the image and `dataIndex`. -/
def asciiLine (n : Nat) : List Byte → List Byte × Nat → Res (List Byte × Nat)
  | [], st => .ok st
  | c :: cs, (img, di) => do
    let (img, di) ←
      if c = 0x30 ∨ c = 0x31 then do
        let b ← Res.ofOption img[di / 8]?
        .ok (img.set (di / 8) (b ||| ((c - 0x30) <<< (7 - di % 8))), di + 1)
      else .ok (img, di)
    if di ≥ n * 8 then .ok (img, di) else asciiLine n cs (img, di)

/-- PBMHelper.cpp:51-73: the lines; empty ones and comments are skipped. -/
def asciiLines (n : Nat) : List (List Byte) → List Byte × Nat → Res (List Byte × Nat)
  | [], st => .ok st
  | l :: ls, st =>
    if l = [] ∨ l.head? = some 0x23 then asciiLines n ls st
    else do
      let st ← asciiLine n l st
      asciiLines n ls st

/-- `readPBM` (PBMHelper.cpp:10-77).  The inner `file.read` stores what there is and leaves the rest of the vector
zero. -/
def readPBM (file : Option (List Byte)) : Res (Option (Int × Int × List Byte)) :=
  match file with
  | none => .ok none
  | some s =>
    match header s with
    | none => .ok none
    | some (binary, w, h, body) => do
      let p ← chk (w * h)
      let q ← chk (p + 7)
      let size := q.tdiv 8
      if size ≤ 0 then .ok none
      else
        let n := size.toNat
        if binary then .ok (some (w, h, body.take n ++ List.replicate (n - body.length) 0))
        else do
          let (img, _) ← asciiLines n (lines body) (List.replicate n 0, 0)
          .ok (some (w, h, img))

/-- One byte of an ASCII image (PBMHelper.cpp:103-106). -/
def asciiByte (b : Byte) : List Byte :=
  [7, 6, 5, 4, 3, 2, 1, 0].flatMap fun bit => [if b.getLsbD bit then 0x31 else 0x30, 0x20]

/-- PBMHelper.cpp:96-107: `n` bytes of a row; the flag says that the data were long enough. -/
def asciiRow : Nat → List Byte → List Byte × List Byte × Bool
  | 0, data => ([], data, true)
  | _ + 1, [] => ([], [], false)
  | n + 1, b :: data =>
    let (out, rest, ok) := asciiRow n data
    (asciiByte b ++ out, rest, ok)

/-- PBMHelper.cpp:94-109: the rows. -/
def asciiRows (rb : Nat) : Nat → List Byte → List Byte × Bool
  | 0, _ => ([], true)
  | h + 1, data =>
    match asciiRow rb data with
    | (out, _, false) => (out, false)
    | (out, rest, true) =>
      let (more, ok) := asciiRows rb h rest
      (out ++ [0x0A] ++ more, ok)

/-- `writePBM` (PBMHelper.cpp:80-112) on a file which can be opened: its contents and the result. -/
def writePBM (data : List Byte) (w h : Int) : Res (List Byte × Bool) := do
  let hd := b!"P1\n" ++ intDec w ++ b!" " ++ intDec h ++ b!"\n"
  if h ≤ 0 then .ok (hd, true)
  else do
    let w7 ← chk (w + 7)
    let (out, ok) := asciiRows (w7.tdiv 8).toNat h.toNat data
    .ok (hd ++ out, ok)

/-- `writePBMBinary` (PBMHelper.cpp:114-133) on a file which can be opened. `std::ostream::write` requires a count
which is not negative; a negative one is undefined. -/
def writePBMBinary (data : List Byte) (w h : Int) : Res (List Byte × Bool) := do
  let hd := b!"P4\n" ++ intDec w ++ b!" " ++ intDec h ++ b!"\n"
  let p ← chk (w * h)
  let q ← chk (p + 7)
  let size := min (q.tdiv 8) (data.length : Int)
  if size < 0 then .ub
  else .ok (hd ++ data.take size.toNat, true)

/-- `comparePBM` (PBMHelper.cpp:135-159). -/
def comparePBM (file : Option (List Byte)) (data : List Byte) (w h : Int) : Res Bool := do
  match ← readPBM file with
  | none => .ok false
  | some (fw, fh, img) =>
    if img.length ≠ data.length ∨ fw ≠ w ∨ fh ≠ h then .ok false
    else .ok (img.zip data |>.all fun (a, b) => a == b)

end Verif.Pbm
