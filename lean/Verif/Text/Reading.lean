import Verif.Text.Legible
import Verif.Out.Order
/-!
# C107: texts and numbers shown on a cleared screen
-/
namespace Verif.Text
open Verif.Canvas Verif.FrameBuffer Verif.Font Verif.Out

/-- Clear the screen and write a text: `SimpleFrameBuffer::clear` (SimpleFrameBuffer.h:19-28), then
`Canvas::drawStringAt` (Canvas.h:63-69). -/
def page (c : Canvas) (g : Geom) (signed : Bool) (fb : FB) (paper : BitVec 32) (pos : Pt) (t : List Byte) : Res FB := do
  let fb ← fb.clear g paper
  drawStringAt c g signed freeSans fb pos t

/-- The two screens look the same. -/
def LookSame (c : Canvas) (g : Geom) (fb1 fb2 : FB) : Prop :=
  ∀ p, OnScreen c p → readPixel c g fb1 p = readPixel c g fb2 p

theorem cleared (c : Canvas) (g : Geom) (fb : FB) (h : Ready c g fb) (paper : BitVec 32) :
    ∃ fb0, fb.clear g paper = .ok fb0 ∧ fb0.sel = fb.sel ∧ Ready c g fb0 ∧
      ∀ p, OnScreen c p → readPixel c g fb0 p = some (storedValue g.depth paper) := by
  obtain ⟨fb0, h1, h2, h3, -, h5⟩ := clear_fills g h.compiles h.depth h.hlo fb h.img paper
  refine ⟨fb0, h1, h3, { h with img := by rw [h2]; exact h.img }, ?_⟩
  intro p hp
  obtain ⟨k1, -⟩ := rotation_bijective c g fb h
  obtain hr := (k1 p).1 hp
  exact h5 _ _ hr

/-- **C107**: whatever the screen showed before, two pages with visible texts look the same exactly if the texts are the
same. -/
theorem page_legible (c : Canvas) (g : Geom) (fb : FB) (h : Ready c g fb) (signed : Bool) (paper : BitVec 32)
    (hp : storedValue g.depth paper ≠ storedValue g.depth fb.sel) (pos : Pt) (s t : List Byte)
    (hs : ∀ b ∈ s, 0x20 ≤ b.toNat ∧ b.toNat < 0x7E) (ht : ∀ b ∈ t, 0x20 ≤ b.toNat ∧ b.toNat < 0x7E)
    (hs' : ∃ u b, s = u ++ [b] ∧ b ≠ 0x20) (ht' : ∃ u b, t = u ++ [b] ∧ b ≠ 0x20)
    (fs : Room c pos s.length) (ft : Room c pos t.length) :
    ∃ fb1 fb2, page c g signed fb paper pos s = .ok fb1 ∧ page c g signed fb paper pos t = .ok fb2 ∧
      (LookSame c g fb1 fb2 ↔ s = t) := by
  obtain ⟨fb0, k1, k2, k3, k4⟩ := cleared c g fb h paper
  obtain ⟨fb1, fb2, h1, h2, h3⟩ := legible_visible c g fb0 k3 signed pos s t hs ht hs' ht' fs ft (by
    intro p hp'
    rw [k4 p hp', k2]
    exact fun e => hp (Option.some.inj e))
  exact ⟨fb1, fb2, by rw [page, k1]; exact h1, by rw [page, k1]; exact h2, h3⟩

/-- A screen of 512 x 64 dots of 16 bits (declared width 32) for examples. -/
theorem screen_ready (img : List Byte) (hi : img.length = 65536) (sel : BitVec 32) (r : Rotation) :
    Ready ⟨⟨512, 64⟩, r⟩ ⟨32, 64, 16⟩ ⟨img, sel⟩ := by
  constructor
  · constructor <;> decide
  all_goals first | decide | (simp only [hi]; decide)

/-- "rn" and "m" can be told apart. -/
example (img : List Byte) (hi : img.length = 65536) : ∃ fb1 fb2,
    page ⟨⟨512, 64⟩, .r0⟩ ⟨32, 64, 16⟩ true ⟨img, 0xF800⟩ 0xFFFF ⟨4, 30⟩ [0x72, 0x6E] = .ok fb1 ∧
    page ⟨⟨512, 64⟩, .r0⟩ ⟨32, 64, 16⟩ true ⟨img, 0xF800⟩ 0xFFFF ⟨4, 30⟩ [0x6D] = .ok fb2 ∧
      (LookSame ⟨⟨512, 64⟩, .r0⟩ ⟨32, 64, 16⟩ fb1 fb2 ↔ [(0x72 : Byte), 0x6E] = [0x6D]) :=
  page_legible _ _ _ (screen_ready img hi 0xF800 .r0) true 0xFFFF (by simp only; decide) ⟨4, 30⟩ [0x72, 0x6E] [0x6D] (by decide)
    (by decide) ⟨[0x72], 0x6E, rfl, by decide⟩ ⟨[], 0x6D, rfl, by decide⟩ (by constructor <;> decide)
    (by constructor <;> decide)

/-! ## Numbers -/

theorem intDec_chars (n : Int) : ∀ b ∈ intDec n, 0x20 ≤ b.toNat ∧ b.toNat < 0x7E := by
  intro b hb
  unfold intDec at hb
  split at hb
  · rcases List.mem_cons.1 hb with rfl | h
    · decide
    · have := natDecF_digits _ _ b h; omega
  · have := natDecF_digits _ _ b hb; omega

theorem intDec_last (n : Int) : ∃ u b, intDec n = u ++ [b] ∧ b ≠ 0x20 := by
  have hne : intDec n ≠ [] := by have := intDec_length_pos n; intro h; rw [h] at this; simp at this
  refine ⟨_, _, (List.dropLast_concat_getLast hne).symm, ?_⟩
  obtain ⟨d, ds, h1, -⟩ := natDecF_head (n.natAbs + 1) n.natAbs (by omega)
  have hd : natDec n.natAbs ≠ [] := by unfold natDec; rw [h1]; simp
  have : (intDec n).getLast hne ∈ natDec n.natAbs := by
    unfold intDec
    split
    · rw [List.getLast_cons hd]; exact List.getLast_mem hd
    · exact List.getLast_mem _
  have := natDecF_digits _ _ _ this
  intro h
  rw [h] at this
  revert this
  decide

/-- Append a number to what is in the buffer (`BufferedOut::operator<<`, BufferedOut.cpp), clear the screen and show the text. -/
def numberPage (c : Canvas) (g : Geom) (signed : Bool) (fb : FB) (paper : BitVec 32) (pos : Pt) (junk : Nat → Byte)
    (o : BOut) (n : Int) : Res FB := do
  let o ← o.putInt junk n
  page c g signed fb paper pos o.text

/-- **C107**: a number printed behind some text into a buffer with enough room and shown on a cleared screen can be told
from every other. -/
theorem number_legible (c : Canvas) (g : Geom) (fb : FB) (h : Ready c g fb) (signed : Bool) (paper : BitVec 32)
    (hp : storedValue g.depth paper ≠ storedValue g.depth fb.sel) (pos : Pt) (junk : Nat → Byte) (o : BOut) (hw : o.WF)
    (hwidth : o.integerWidth ≤ 0) (hlabel : ∀ b ∈ o.text, 0x20 ≤ b.toNat ∧ b.toNat < 0x7E)
    (hroom : o.size + 11 ≤ o.capacity) (hscreen : Room c pos (o.size + 11)) (m n : Int) (hm : InInt m) (hn : InInt n) :
    ∃ fb1 fb2, numberPage c g signed fb paper pos junk o m = .ok fb1 ∧
      numberPage c g signed fb paper pos junk o n = .ok fb2 ∧ (LookSame c g fb1 fb2 ↔ m = n) := by
  have key : ∀ k : Int, InInt k → ∃ o', o.putInt junk k = .ok o' ∧ o'.text = o.text ++ intDec k := by
    intro k hk
    obtain ⟨o', h1, h2⟩ := putInt_spec junk hw hwidth k
    have := intDec_length k (by unfold InInt at hk; omega)
    rw [if_pos (by omega)] at h2
    exact ⟨o', h1, h2.text⟩
  obtain ⟨o1, a1, a2⟩ := key m hm
  obtain ⟨o2, b1, b2⟩ := key n hn
  have htl : o.text.length = o.size := text_length hw
  have room : ∀ k : Int, InInt k → Room c pos (o.text ++ intDec k).length := by
    intro k hk
    have := intDec_length k (by unfold InInt at hk; omega)
    rw [List.length_append]
    obtain ⟨r1, r2, r3, r4, r5⟩ := hscreen
    constructor <;> omega
  have chars : ∀ k : Int, ∀ b ∈ o.text ++ intDec k, 0x20 ≤ b.toNat ∧ b.toNat < 0x7E := by
    intro k b hb
    rcases List.mem_append.1 hb with hb | hb
    · exact hlabel b hb
    · exact intDec_chars k b hb
  have last : ∀ k : Int, ∃ u b, o.text ++ intDec k = u ++ [b] ∧ b ≠ 0x20 := by
    intro k
    obtain ⟨u, b, e, hb⟩ := intDec_last k
    exact ⟨o.text ++ u, b, by rw [e, List.append_assoc], hb⟩
  obtain ⟨fb1, fb2, h1, h2, h3⟩ := page_legible c g fb h signed paper hp pos _ _ (chars m) (chars n) (last m) (last n)
    (room m hm) (room n hn)
  refine ⟨fb1, fb2, by rw [numberPage, a1, Res.bind_ok, a2]; exact h1, by rw [numberPage, b1, Res.bind_ok, b2]; exact h2,
    h3.trans ⟨fun e => ?_, fun e => by rw [e]⟩⟩
  have := List.append_cancel_left e
  have e1 := intDec_parse m
  rw [this, intDec_parse n] at e1
  exact (Option.some.inj e1).symm

/-- "T=-5" and "T=5". -/
example (img : List Byte) (hi : img.length = 65536) : ∃ fb1 fb2,
    numberPage ⟨⟨512, 64⟩, .r180⟩ ⟨32, 64, 16⟩ false ⟨img, 0xF800⟩ 0xFFFF ⟨4, 30⟩ (fun _ => 0)
      ⟨[0x54, 0x3D, 0, 0, 0, 0, 0, 0, 0, 0, 0, 0, 0, 0], 2, 0, 0, 0x20⟩ (-5) = .ok fb1 ∧
    numberPage ⟨⟨512, 64⟩, .r180⟩ ⟨32, 64, 16⟩ false ⟨img, 0xF800⟩ 0xFFFF ⟨4, 30⟩ (fun _ => 0)
      ⟨[0x54, 0x3D, 0, 0, 0, 0, 0, 0, 0, 0, 0, 0, 0, 0], 2, 0, 0, 0x20⟩ 5 = .ok fb2 ∧
      (LookSame ⟨⟨512, 64⟩, .r180⟩ ⟨32, 64, 16⟩ fb1 fb2 ↔ (-5 : Int) = 5) :=
  number_legible _ _ _ (screen_ready img hi 0xF800 .r180) false 0xFFFF (by simp only; decide) ⟨4, 30⟩ (fun _ => 0) _
    (by decide) (by decide) (by decide) (by decide) (by constructor <;> decide) (-5) 5 (by decide) (by decide)

end Verif.Text
