import Verif.Out.Full
import Verif.Out.Serial
/-!
# C85: everything a program prints through the serial output

All operators of `SerialOut` (SerialOut.h:18-100), mixed in any way, for the packets handed to the UART.
-/
namespace Verif.Out

/-! ## Specification -/

/-- What can be inserted.  There is no operator for `char`: by the integral promotions a `char` is printed by the one for
`int` (SerialOut.h:31-35), that is as a number. -/
inductive SItem where
  | cstr (chars rest : List Byte)
  | char (c : Byte)
  | byte (b : Byte)
  | int (n : Int)
  | float (bits : BitVec 32)
  | bytes (bs : List Byte)
  | precision (p : Int)
deriving Repr

/-- C strings are terminated. -/
def SItem.Valid : SItem → Prop
  | .cstr s _ => ∀ c ∈ s, c ≠ 0
  | _ => True

/-- The operation on the text which the caller expects; `signed`: `char` is a signed type. -/
def SItem.asked (signed : Bool) : SItem → FOp
  | .cstr s rest => .text (.cstr s rest)
  | .char c => .int (if signed then c.toInt else c.toNat)
  | .byte b => .byte b
  | .int n => .int n
  | .float bits => .float bits
  | .bytes bs => .bytes bs
  | .precision p => .precision p

inductive SOp where
  | put (i : SItem)
  | «end»
  | endl
deriving Repr

def SOp.Valid : SOp → Prop
  | .put i => i.Valid
  | _ => True

/-- No text and the settings of a new buffer. -/
def Shown.fresh : Shown := ⟨[], 0, 0, 32⟩

/-- `Serial cap signed s ops ps r`: with a buffer of `cap` characters and the text and the settings `s`, the operations `ops`
send the packets `ps` and end with `r`, or reach an undefined operation (`none`).  A message is sent by `end`, or by `endl`
with a newline after it, in a packet of its own if the buffer is full. -/
inductive Serial (cap : Nat) (signed : Bool) : Shown → List SOp → List (List Byte) → Option Shown → Prop where
  | nil (s : Shown) : Serial cap signed s [] [] (some s)
  | undef (s : Shown) (i : SItem) (ops : List SOp) : Undefined cap s (i.asked signed) →
      Serial cap signed s (.put i :: ops) [] none
  | put (s s1 : Shown) (i : SItem) (ops : List SOp) (ps : List (List Byte)) (r : Option Shown) :
      ¬ Undefined cap s (i.asked signed) → Effect cap s s1 (i.asked signed) → Serial cap signed s1 ops ps r →
      Serial cap signed s (.put i :: ops) ps r
  | «end» (s : Shown) (ops : List SOp) (ps : List (List Byte)) (r : Option Shown) : Serial cap signed .fresh ops ps r →
      Serial cap signed s (.end :: ops) (s.text :: ps) r
  | endl (s : Shown) (ops : List SOp) (ps : List (List Byte)) (r : Option Shown) : s.text.length < cap →
      Serial cap signed .fresh ops ps r → Serial cap signed s (.endl :: ops) ((s.text ++ [10]) :: ps) r
  | endlFull (s : Shown) (ops : List SOp) (ps : List (List Byte)) (r : Option Shown) : s.text.length = cap →
      Serial cap signed .fresh ops ps r → Serial cap signed s (.endl :: ops) (s.text :: [10] :: ps) r

/-! ## The code -/

/-- SerialOut.h:18-83: every operator forwards to the one of the buffer with the same parameter type. -/
def SOut.item (junk : Nat → Byte) (signed : Bool) (s : SOut) : SItem → Res SOut
  | .cstr c rest => do
    let o ← s.out.putCstr (c ++ 0 :: rest)
    .ok ⟨o, s.sent⟩
  | .char c => do
    let o ← s.out.putInt junk (if signed then c.toInt else c.toNat)
    .ok ⟨o, s.sent⟩
  | .byte b => do
    let o ← s.out.putByte b
    .ok ⟨o, s.sent⟩
  | .int n => do
    let o ← s.out.putInt junk n
    .ok ⟨o, s.sent⟩
  | .float bits => do
    let o ← s.out.putFloat junk bits
    .ok ⟨o, s.sent⟩
  | .bytes bs => do
    let o ← s.out.putBytes bs
    .ok ⟨o, s.sent⟩
  | .precision p => .ok ⟨s.out.setPrecision p, s.sent⟩

/-- SerialOut.h:18-100: any operator. -/
def SOut.op (junk : Nat → Byte) (signed : Bool) (s : SOut) : SOp → Res SOut
  | .put i => s.item junk signed i
  | .end => .ok s.putEnd
  | .endl => s.putEndl

/-- A sequence of operators. -/
def SOut.ops (junk : Nat → Byte) (signed : Bool) (s : SOut) : List SOp → Res SOut
  | [] => .ok s
  | p :: ps => do
    let s' ← s.op junk signed p
    s'.ops junk signed ps

/-! ## Proof -/

theorem item_op (junk : Nat → Byte) (signed : Bool) (s : SOut) (i : SItem) :
    s.item junk signed i = (do let o ← s.out.op junk (i.asked signed); .ok ⟨o, s.sent⟩) := by
  cases i <;> rfl

theorem asked_valid {signed : Bool} {i : SItem} (h : i.Valid) : (i.asked signed).Valid := by
  cases i <;> exact h

theorem flush_shown (s : SOut) (hw : s.out.WF) (hc : s.out.capacity ≤ 65535) :
    s.flush.out.WF ∧ s.flush.out.capacity = s.out.capacity ∧ s.flush.out.shown = .fresh ∧
      s.flush.sent = s.sent ++ [s.out.text] := by
  refine ⟨by simp [SOut.flush, BOut.WF, BOut.clear], rfl, by simp [SOut.flush, BOut.clear, BOut.shown, BOut.text, Shown.fresh], ?_⟩
  rw [SOut.flush, (data_is_text_iff _ hw).2]
  have : s.out.pos ≤ s.out.mem.length := hw
  simp only [BOut.size, BOut.capacity] at hc ⊢
  omega

/-- **C85**: with a buffer of 1 to 65535 characters every program printing through the serial output hands exactly the
specified packets to the UART, and it runs into undefined behaviour exactly when an operation is undefined in the state it
is reached in. -/
theorem serial_exact (junk : Nat → Byte) (signed : Bool) (s : SOut) (hw : s.out.WF) (h0 : 0 < s.out.capacity)
    (hc : s.out.capacity ≤ 65535) (ops : List SOp) (hv : ∀ op ∈ ops, op.Valid) :
    (s.ops junk signed ops = .ub ∧ ∃ ps, Serial s.out.capacity signed s.out.shown ops ps none) ∨
    ∃ s' ps, s.ops junk signed ops = .ok s' ∧ s'.out.WF ∧ s'.out.capacity = s.out.capacity ∧ s'.sent = s.sent ++ ps ∧
      Serial s.out.capacity signed s.out.shown ops ps (some s'.out.shown) := by
  induction ops generalizing s with
  | nil => exact .inr ⟨s, [], rfl, hw, rfl, by simp, .nil _⟩
  | cons op ops ih =>
    simp only [List.mem_cons, forall_eq_or_imp] at hv
    have htl := text_length hw
    cases op with
    | put i =>
      obtain ⟨h1, h2⟩ := op_exact junk s.out hw (i.asked signed) (asked_valid hv.1)
      by_cases hu : Undefined s.out.capacity s.out.shown (i.asked signed)
      · exact .inl ⟨by simp [SOut.ops, SOut.op, item_op, h1 hu], [], .undef _ _ _ hu⟩
      · obtain ⟨o1, h3, h4, h5, h6⟩ := h2 hu
        rcases ih ⟨o1, s.sent⟩ h4 (h5 ▸ h0) (h5 ▸ hc) hv.2 with ⟨g1, ps, g2⟩ | ⟨s2, ps, g1, g2, g3, g4, g5⟩
        · exact .inl ⟨by simp [SOut.ops, SOut.op, item_op, h3, g1], ps, .put _ _ _ _ _ _ hu h6 (h5 ▸ g2)⟩
        · exact .inr ⟨s2, ps, by simp [SOut.ops, SOut.op, item_op, h3, g1], g2, g3.trans h5, g4,
            .put _ _ _ _ _ _ hu h6 (h5 ▸ g5)⟩
    | «end» =>
      obtain ⟨f1, f2, f3, f4⟩ := flush_shown s hw hc
      rcases ih s.flush f1 (f2 ▸ h0) (f2 ▸ hc) hv.2 with ⟨g1, ps, g2⟩ | ⟨s2, ps, g1, g2, g3, g4, g5⟩
      · rw [f2, f3] at g2
        exact .inl ⟨by simp [SOut.ops, SOut.op, SOut.putEnd, g1], _, .end _ _ _ _ g2⟩
      · rw [f2, f3] at g5
        exact .inr ⟨s2, _, by simp [SOut.ops, SOut.op, SOut.putEnd, g1], g2, g3.trans f2, by rw [g4, f4]; simp; rfl,
          .end _ _ _ _ g5⟩
    | endl =>
      by_cases hfull : s.out.size = s.out.capacity
      · obtain ⟨f1, f2, f3, f4⟩ := flush_shown s hw hc
        obtain ⟨o, e1, e2⟩ := addChar_spec (o := s.flush.out) f1 10
        have hsz : s.flush.out.size = 0 := rfl
        rw [hsz, f2, List.take_of_length_le (by simp only [List.length_cons, List.length_nil]; omega)] at e2
        have hcap : o.capacity = s.out.capacity := e2.len
        obtain ⟨k1, k2, k3, k4⟩ := flush_shown ⟨o, s.flush.sent⟩ e2.wf (by simp only [hcap]; exact hc)
        simp only at k2
        have hrun : s.op junk signed .endl = .ok (SOut.flush ⟨o, s.flush.sent⟩) := by
          simp only [SOut.op, SOut.putEndl]
          rw [if_pos hfull, e1]
          rfl
        have ht : o.text = [10] := by
          rw [e2.text]
          simp [SOut.flush, BOut.clear, BOut.text]
        rcases ih (SOut.flush ⟨o, s.flush.sent⟩) k1 (by rw [k2, hcap]; exact h0) (by rw [k2, hcap]; exact hc) hv.2 with
          ⟨g1, ps, g2⟩ | ⟨s2, ps, g1, g2, g3, g4, g5⟩
        · rw [k2, k3, hcap] at g2
          exact .inl ⟨by rw [SOut.ops, hrun]; exact g1, _, .endlFull _ _ _ _ (by show s.out.text.length = _; rw [htl]; exact hfull) g2⟩
        · rw [k2, k3, hcap] at g5
          refine .inr ⟨s2, _, by rw [SOut.ops, hrun]; exact g1, g2, by rw [g3, k2, hcap], ?_,
            .endlFull _ _ _ _ (by show s.out.text.length = _; rw [htl]; exact hfull) g5⟩
          rw [g4, k4, f4, ht]
          simp [BOut.shown]
      · have hlt : s.out.pos < s.out.mem.length := by
          have : s.out.pos ≤ s.out.mem.length := hw
          simp only [BOut.size, BOut.capacity] at hfull
          omega
        obtain ⟨o, e1, e2⟩ := addChar_spec (o := s.out) hw 10
        rw [List.take_of_length_le (by simp only [BOut.size, BOut.capacity, List.length_cons, List.length_nil]; omega)] at e2
        have hcap : o.capacity = s.out.capacity := e2.len
        obtain ⟨k1, k2, k3, k4⟩ := flush_shown ⟨o, s.sent⟩ e2.wf (by simp only [hcap]; exact hc)
        simp only at k2
        have hrun : s.op junk signed .endl = .ok (SOut.flush ⟨o, s.sent⟩) := by
          simp only [SOut.op, SOut.putEndl]
          rw [if_neg hfull, e1]
          rfl
        have hl : s.out.shown.text.length < s.out.capacity := by show s.out.text.length < _; rw [htl]; exact hlt
        rcases ih (SOut.flush ⟨o, s.sent⟩) k1 (by rw [k2, hcap]; exact h0) (by rw [k2, hcap]; exact hc) hv.2 with
          ⟨g1, ps, g2⟩ | ⟨s2, ps, g1, g2, g3, g4, g5⟩
        · rw [k2, k3, hcap] at g2
          exact .inl ⟨by rw [SOut.ops, hrun]; exact g1, _, .endl _ _ _ _ hl g2⟩
        · rw [k2, k3, hcap] at g5
          refine .inr ⟨s2, _, by rw [SOut.ops, hrun]; exact g1, g2, by rw [g3, k2, hcap], ?_, .endl _ _ _ _ hl g5⟩
          rw [g4, k4]
          simp only [e2.text]
          simp [BOut.shown]

/-- What the specification allows is unique for programs without floats. -/
theorem serial_unique {cap : Nat} {signed : Bool} {s : Shown} {ops : List SOp} {ps1 ps2 : List (List Byte)}
    {r1 r2 : Option Shown} (hf : ∀ bits, SOp.put (.float bits) ∉ ops) (h1 : Serial cap signed s ops ps1 r1)
    (h2 : Serial cap signed s ops ps2 r2) : ps1 = ps2 ∧ r1 = r2 := by
  induction h1 generalizing ps2 r2 with
  | nil s => cases h2; exact ⟨rfl, rfl⟩
  | undef s i ops hu =>
    cases h2 with
    | undef => exact ⟨rfl, rfl⟩
    | put _ s1 _ _ _ _ hn => exact absurd hu hn
  | put s s1 i ops ps r hn he _ ih =>
    cases h2 with
    | undef _ _ _ hu => exact absurd hu hn
    | put _ s2 _ _ _ _ _ he2 hs2 =>
      have hi : ∀ bits, i.asked signed ≠ .float bits := by
        intro bits hb
        cases i <;> simp only [SItem.asked, reduceCtorEq] at hb
        exact hf bits (by cases hb; simp)
      rw [effect_unique hi he2 he] at hs2
      exact ih (fun b hb => hf b (by simp [hb])) hs2
  | «end» s ops ps r _ ih =>
    cases h2 with
    | «end» _ _ _ _ hs2 =>
      obtain ⟨rfl, rfl⟩ := ih (fun b hb => hf b (by simp [hb])) hs2
      exact ⟨rfl, rfl⟩
  | endl s ops ps r hl _ ih =>
    cases h2 with
    | endl _ _ _ _ _ hs2 =>
      obtain ⟨rfl, rfl⟩ := ih (fun b hb => hf b (by simp [hb])) hs2
      exact ⟨rfl, rfl⟩
    | endlFull _ _ _ _ hl2 => omega
  | endlFull s ops ps r hl _ ih =>
    cases h2 with
    | endlFull _ _ _ _ _ hs2 =>
      obtain ⟨rfl, rfl⟩ := ih (fun b hb => hf b (by simp [hb])) hs2
      exact ⟨rfl, rfl⟩
    | endl _ _ _ _ hl2 => omega

/-- **C85 (finding)**: a `char` is printed as its number: `'A'` comes out as `65`. -/
theorem char_printed_as_number (junk : Nat → Byte) :
    ∃ s', SOut.ops junk true ⟨BOut.new (List.replicate 8 0), []⟩ [.put (.char 65), .end] = .ok s' ∧ s'.sent = [[54, 53]] := by
  have hn : ¬ Undefined 8 ⟨[], 0, 0, 32⟩ (.int 65) := by
    rintro ⟨d, -, -, h, -⟩
    simp only at h
    omega
  rcases serial_exact junk true ⟨BOut.new (List.replicate 8 0), []⟩ (by decide) (by decide) (by decide)
    [.put (.char 65), .end] (by simp [SOp.Valid, SItem.Valid]) with ⟨-, ps, h1⟩ | ⟨s2, ps, h1, -, -, h2, h3⟩
  · generalize hr : (none : Option Shown) = r at h1
    cases h1 with
    | undef _ _ _ hu => exact absurd hu hn
    | put _ s1 _ _ _ _ _ _ hs =>
      cases hs with
      | «end» _ _ _ _ hs => cases hs; cases hr
  · refine ⟨s2, h1, ?_⟩
    rw [h2]
    generalize hr : some s2.out.shown = r at h3
    cases h3 with
    | undef => cases hr
    | put _ s1 _ _ _ _ _ he hs =>
      obtain ⟨d, hd, rfl⟩ := he
      rw [isDec_unique hd] at hs
      cases hs with
      | «end» _ _ _ _ hn =>
        cases hn
        decide

/-- A program whose packets are known: a line, a full buffer before `endl`, and the precision forgotten at the end of a
message. -/
example : (match SOut.ops (fun _ => 0) true ⟨BOut.new (List.replicate 6 0), []⟩
      [.put (.cstr [72, 105] []), .put (.int (-7)), .endl, .put (.cstr [1, 2, 3, 4, 5, 6, 7] []), .endl,
       .put (.precision 1), .put (.float 0x3FC00000), .end, .put (.float 0x3FC00000), .put (.bytes [0xAB]), .end] with
    | .ok s => decide (s.sent = [[72, 105, 45, 55, 10], [1, 2, 3, 4, 5, 6], [10], [49, 46, 53], [49, 65, 66]])
    | _ => false) = true := by decide +kernel

end Verif.Out
