import Verif.Out.Float
/-!
# C22: serial output
-/
namespace Verif.Out

/-- What can be inserted into a `SerialOut` (SerialOut.h:18-83; each overload forwards to the
buffer). -/
inductive Item where
  | text (p : Piece)
  | int (n : Int)
  | bytes (bs : List Byte)
deriving Repr

def Item.Valid : Item → Prop
  | .text p => p.Valid
  | _ => True

def SOut.put (junk : Nat → Byte) (s : SOut) (i : Item) : Res SOut := do
  let o ← (match i with
    | .text p => s.out.put p
    | .int n => s.out.putInt junk n
    | .bytes bs => s.out.putBytes bs)
  .ok ⟨o, s.sent⟩

/-- How a message ends. -/
inductive Close where
  | plain
  | line
deriving Repr, DecidableEq

def SOut.close (s : SOut) : Close → Res SOut
  | .plain => .ok s.putEnd
  | .line => s.putEndl

def SOut.putItems (junk : Nat → Byte) (s : SOut) : List Item → Res SOut
  | [] => .ok s
  | i :: is => do
    let s' ← s.put junk i
    s'.putItems junk is

/-- Send messages: the items of each, then `end` or `endl`. -/
def SOut.run (junk : Nat → Byte) (s : SOut) : List (List Item × Close) → Res SOut
  | [] => .ok s
  | (is, c) :: ms => do
    let s1 ← s.putItems junk is
    let s2 ← s1.close c
    s2.run junk ms

/-! ## Specification -/

/-- Text after an item, for a buffer of `cap` characters: texts are cut, numbers are printed as a
whole or not at all, bytes are printed as far as whole bytes fit. -/
def itemText (cap : Nat) (t : List Byte) : Item → List Byte
  | .text p => (t ++ p.chars).take cap
  | .int n => if t.length + (intDec n).length ≤ cap then t ++ intDec n else t
  | .bytes bs => t ++ (bs.take ((cap - t.length) / 2)).flatMap hexPair

/-- The bytes of one message. -/
def messageText (cap : Nat) (m : List Item × Close) : List Byte :=
  m.1.foldl (itemText cap) [] ++ (match m.2 with | .plain => [] | .line => [10])

/-! ## Proof -/

/-- The buffer between two messages. -/
structure Ready (s : SOut) (cap : Nat) : Prop where
  cap_eq : s.out.mem.length = cap
  pos : s.out.pos ≤ s.out.mem.length
  width : s.out.integerWidth ≤ 0

private theorem put_ready (junk : Nat → Byte) {s : SOut} {cap : Nat} (h : Ready s cap) (i : Item) (hi : i.Valid) :
    ∃ s', s.put junk i = .ok s' ∧ Ready s' cap ∧ s'.sent = s.sent ∧
      s'.out.text = itemText cap s.out.text i := by
  obtain ⟨h1, h2, h3⟩ := h
  have htl := text_length h2
  cases i with
  | text p =>
    obtain ⟨o', g1, g2, g3, g4, g5⟩ := text_is_truncated_concatenation s.out h2 [p] (by intro q hq; rw [List.mem_singleton] at hq; subst hq; exact hi)
    have g6 : s.out.put p = .ok o' ∧ o'.integerWidth = s.out.integerWidth := by
      simp only [BOut.putList] at g1
      cases hp : s.out.put p with
      | ub => rw [hp] at g1; cases g1
      | hang => rw [hp] at g1; cases g1
      | ok v =>
        rw [hp] at g1
        simp only [Res.bind_ok, Res.ok.injEq] at g1
        subst g1
        refine ⟨rfl, ?_⟩
        cases p with
        | str t =>
          obtain ⟨w, e1, e2⟩ := putStr_spec h2 t
          simp only [BOut.put] at hp; rw [e1] at hp; cases hp; exact e2.width
        | cstr t r =>
          obtain ⟨w, e1, e2⟩ := putCstr_spec h2 t r hi
          simp only [BOut.put] at hp; rw [e1] at hp; cases hp; exact e2.width
        | char t =>
          obtain ⟨w, e1, e2⟩ := addChar_spec h2 t
          simp only [BOut.put] at hp; rw [e1] at hp; cases hp; exact e2.width
    refine ⟨⟨o', s.sent⟩, by simp [SOut.put, g6.1], ⟨g5.trans h1, g4, by simp only; omega⟩, rfl, ?_⟩
    simp only [itemText, g2, List.flatMap_cons, List.flatMap_nil, List.append_nil, BOut.capacity, h1]
  | int n =>
    obtain ⟨o', g1, g2⟩ := putInt_spec junk h2 h3 n
    refine ⟨⟨o', s.sent⟩, by simp [SOut.put, g1], ⟨g2.len.trans h1, g2.wf, by rw [g2.width]; exact h3⟩, rfl, ?_⟩
    simp only [itemText, g2.text, BOut.size, BOut.capacity, h1, htl]
    split <;> simp
  | bytes bs =>
    obtain ⟨o', g1, g2⟩ := putBytes_spec h2 bs
    refine ⟨⟨o', s.sent⟩, by simp [SOut.put, g1], ⟨g2.len.trans h1, g2.wf, by rw [g2.width]; exact h3⟩, rfl, ?_⟩
    simp only [itemText, g2.text, BOut.size, BOut.capacity, h1, htl]

private theorem items_ready (junk : Nat → Byte) {s : SOut} {cap : Nat} (h : Ready s cap) (is : List Item)
    (hi : ∀ i ∈ is, i.Valid) :
    ∃ s', s.putItems junk is = .ok s' ∧ Ready s' cap ∧ s'.sent = s.sent ∧
      s'.out.text = is.foldl (itemText cap) s.out.text := by
  induction is generalizing s with
  | nil => exact ⟨s, rfl, h, rfl, rfl⟩
  | cons i is ih =>
    simp only [List.mem_cons, forall_eq_or_imp] at hi
    obtain ⟨s1, g1, g2, g3, g4⟩ := put_ready junk h i hi.1
    obtain ⟨s2, e1, e2, e3, e4⟩ := ih g2 hi.2
    exact ⟨s2, by simp [SOut.putItems, g1, e1], e2, e3.trans g3, by rw [e4, g4]; rfl⟩

private theorem data_of_ready {s : SOut} {cap : Nat} (h : Ready s cap) (hc : cap ≤ 65535) :
    s.out.data = s.out.text :=
  (data_is_text_iff _ h.pos).2 (by have := h.pos; have := h.cap_eq; simp only [BOut.size]; omega)

private theorem flush_ready {s : SOut} {cap : Nat} (h : Ready s cap) (hc : cap ≤ 65535) :
    Ready s.flush cap ∧ s.flush.out.text = [] ∧ s.flush.sent = s.sent ++ [s.out.text] := by
  refine ⟨⟨h.cap_eq, Nat.zero_le _, Int.le_refl _⟩, by simp [SOut.flush, BOut.clear, BOut.text], ?_⟩
  rw [SOut.flush, data_of_ready h hc]

private theorem close_ready {s : SOut} {cap : Nat} (h : Ready s cap) (h0 : 0 < cap) (hc : cap ≤ 65535) (c : Close) :
    ∃ s', s.close c = .ok s' ∧ Ready s' cap ∧ s'.out.text = [] ∧
      s'.sent.flatten = s.sent.flatten ++ s.out.text ++ (match c with | .plain => [] | .line => [10]) := by
  cases c with
  | plain =>
    obtain ⟨g1, g2, g3⟩ := flush_ready h hc
    exact ⟨s.flush, rfl, g1, g2, by rw [g3]; simp⟩
  | line =>
    have key : ∀ s1 : SOut, Ready s1 cap → s1.out.size < s1.out.capacity →
        ∃ s', (do let o ← s1.out.addChar 10; .ok (SOut.flush ⟨o, s1.sent⟩) : Res SOut) = .ok s' ∧
          Ready s' cap ∧ s'.out.text = [] ∧ s'.sent.flatten = s1.sent.flatten ++ s1.out.text ++ [10] := by
      intro s1 hr hlt
      obtain ⟨o, e1, e2⟩ := addChar_spec hr.pos 10
      rw [List.take_of_length_le (by simp only [List.length_cons, List.length_nil]; omega)] at e2
      have hr2 : Ready ⟨o, s1.sent⟩ cap :=
        ⟨e2.len.trans hr.cap_eq, e2.wf, by rw [e2.width]; exact hr.width⟩
      obtain ⟨g1, g2, g3⟩ := flush_ready hr2 hc
      refine ⟨_, by rw [e1]; rfl, g1, g2, ?_⟩
      rw [g3, e2.text]; simp
    simp only [SOut.close, SOut.putEndl]
    by_cases hfull : s.out.size = s.out.capacity
    · rw [if_pos hfull]
      obtain ⟨g1, g2, g3⟩ := flush_ready h hc
      obtain ⟨s', e1, e2, e3, e4⟩ := key s.flush g1 (by
        have := g1.cap_eq
        simp only [SOut.flush, BOut.clear, BOut.size, BOut.capacity] at this ⊢; omega)
      refine ⟨s', e1, e2, e3, ?_⟩
      rw [e4, g3, g2]; simp
    · rw [if_neg hfull]
      exact key s h (by have := h.pos; simp only [BOut.size, BOut.capacity] at hfull ⊢; omega)

/-- **C22**: with a buffer of 1 to 65535 characters, the bytes handed to the UART by any sequence of
messages are the message texts, each closed by `endl` followed by a newline, in order; afterwards
the buffer is empty. -/
theorem messages_sent_in_order (junk : Nat → Byte) (s : SOut) (h0 : 0 < s.out.capacity)
    (hc : s.out.capacity ≤ 65535) (hempty : s.out.size = 0) (hw : s.out.integerWidth ≤ 0)
    (ms : List (List Item × Close)) (hv : ∀ m ∈ ms, ∀ i ∈ m.1, i.Valid) :
    ∃ s', s.run junk ms = .ok s' ∧
      s'.sent.flatten = s.sent.flatten ++ ms.flatMap (messageText s.out.capacity) ∧
      s'.out.text = [] := by
  have main : ∀ (ms : List (List Item × Close)) (s : SOut) (cap : Nat), Ready s cap → 0 < cap → cap ≤ 65535 →
      s.out.text = [] → (∀ m ∈ ms, ∀ i ∈ m.1, i.Valid) →
      ∃ s', s.run junk ms = .ok s' ∧ s'.sent.flatten = s.sent.flatten ++ ms.flatMap (messageText cap) ∧
        s'.out.text = [] := by
    intro ms
    induction ms with
    | nil => intro s cap _ _ _ ht _; exact ⟨s, rfl, by simp, ht⟩
    | cons m ms ih =>
      intro s cap hr h0 hc ht hv
      obtain ⟨is, c⟩ := m
      simp only [List.mem_cons, forall_eq_or_imp] at hv
      obtain ⟨s1, g1, g2, g3, g4⟩ := items_ready junk hr is hv.1
      obtain ⟨s2, e1, e2, e3, e4⟩ := close_ready g2 h0 hc c
      obtain ⟨s3, f1, f2, f3⟩ := ih s2 cap e2 h0 hc e3 hv.2
      refine ⟨s3, by simp [SOut.run, g1, e1, f1], ?_, f3⟩
      rw [f2, e4, g3, g4, ht, List.flatMap_cons, messageText]
      simp
  exact main ms s _ ⟨rfl, by simp only [BOut.size] at hempty; omega, hw⟩ h0 hc
    (by simp only [BOut.size] at hempty; simp [BOut.text, hempty]) hv

/-- **C22**: no formatting state leaks from one message into the next: whatever was inserted before
(width, precision, fill character included), after `end` or `endl` the buffer is empty, precision and
width are 0 and the fill character is a blank, as after construction. -/
theorem close_resets (s s' : SOut) (c : Close) (h : s.close c = .ok s') :
    s'.out = ⟨s'.out.mem, 0, 0, 0, 32⟩ ∧ BOut.new s'.out.mem = s'.out ∧
      s'.out.mem.length = s.out.mem.length := by
  cases c with
  | plain => cases h; exact ⟨rfl, rfl, rfl⟩
  | line =>
    simp only [SOut.close, SOut.putEndl] at h
    generalize h1 : (if s.out.size = s.out.capacity then s.flush else s) = s1 at h
    have hl : s1.out.mem.length = s.out.mem.length := by
      subst h1; split <;> rfl
    cases hc : s1.out.addChar 10 with
    | ub => rw [hc] at h; cases h
    | hang => rw [hc] at h; cases h
    | ok o =>
      rw [hc] at h
      cases h
      refine ⟨rfl, rfl, ?_⟩
      unfold BOut.addChar write at hc
      split at hc
      · split at hc
        · cases hc
          simpa [SOut.flush, BOut.clear] using hl
        · cases hc
      · cases hc; exact hl

-- Left-over width, precision and fill character disappear.
example : (SOut.mk ⟨[0, 0, 0], 1, 3, 7, 48⟩ []).close .line = .ok ⟨⟨[0, 10, 0], 0, 0, 0, 32⟩, [[0, 10]]⟩ := by
  decide

/-- "AB" fills the buffer of two: the line still comes out complete, in two packets. -/
example : (SOut.mk (BOut.new [0, 0]) []).run (fun _ => 0) [([.text (.str [65, 66, 67])], .line)] =
    .ok ⟨⟨[10, 66], 0, 0, 0, 32⟩, [[65, 66], [10]]⟩ := by decide

/-- With an empty buffer the newline is lost: the lower bound in `messages_sent_in_order` is
needed. -/
theorem empty_buffer_loses_newline :
    (SOut.mk (BOut.new []) []).run (fun _ => 0) [([], .line)] = .ok ⟨BOut.new [], [[], []]⟩ := by decide

end Verif.Out
