import Verif.Uart.Lines
import Verif.Endian.Props
/-!
# C122: records of numbers in frames

Two programs written with the library.  The sender converts the numbers of a record with `changeEndianess`
(EndianConversion.h:8-17), puts a start byte before and an end byte behind them, and hands the frame to
`PacketUart::Send` (PacketUart.h:18).  The receiver calls `PacketUart::ReceiveBetween` (PacketUart.h:17) again and again
and decodes, with `changeEndianess` and `changeEndianessToFloat` (EndianConversion.h:19-27), the packets which have the
length of a frame.  The programs are the user's, everything they call is the code modelled elsewhere.
-/
namespace Verif.App.Telemetry
open Verif Verif.Uart Verif.Uart.Wire Verif.Uart.Portable Verif.Endian
open Verif.Uart.Esp (Env)

/-! ## The programs -/

/-- The type of a field of the record. -/
inductive Kind where
  | u16 | u32 | float
deriving DecidableEq, Repr

/-- A number; a `float` is its bit pattern. -/
inductive Val where
  | u16 (x : BitVec 16)
  | u32 (x : BitVec 32)
  | float (bits : BitVec 32)
deriving DecidableEq, Repr

def Val.kind : Val → Kind
  | .u16 _ => .u16
  | .u32 _ => .u32
  | .float _ => .float

/-- `sizeof`. -/
def Kind.size : Kind → Nat
  | .u16 => 2
  | .u32 => 4
  | .float => 4

/-- The number of bytes of a record. -/
def size (layout : List Kind) : Nat := (layout.map Kind.size).sum

/-- `memcpy(buffer, &x, sizeof x)` on a little-endian processor. -/
def store16 (x : BitVec 16) : List Byte := [x.extractLsb' 0 8, x.extractLsb' 8 8]

/-- `memcpy(buffer, &x, sizeof x)` on a little-endian processor. -/
def store32 (x : BitVec 32) : List Byte :=
  [x.extractLsb' 0 8, x.extractLsb' 8 8, x.extractLsb' 16 8, x.extractLsb' 24 8]

/-- The sender converts a number; `ul` is the width of its `unsigned long`. -/
def encode (ul : Nat) : Val → List Byte
  | .u16 x => store16 (changeEndianess16 x)
  | .u32 x => store32 (changeEndianess32 ul x)
  | .float bits => store32 (changeEndianess32 ul bits)

/-- The sender's frame. -/
def frame (ul : Nat) (sb e : Byte) (r : List Val) : List Byte := sb :: r.flatMap (encode ul) ++ [e]

/-- The sender: `uart.Send(frame, sizeof frame)` for each record. -/
def sendAll {σ : Type} (send : σ → List Byte → Res σ) (ul : Nat) (sb e : Byte) : List (List Val) → σ → Res σ
  | [], d => .ok d
  | r :: rs, d => do
    let d ← send d (frame ul sb e r)
    sendAll send ul sb e rs d

/-- `memcpy(&x, buffer, sizeof x)` on a little-endian processor. -/
def load16 : List Byte → Res (BitVec 16)
  | b0 :: b1 :: _ => .ok (b1 ++ b0)
  | _ => .ub

/-- `memcpy(&x, buffer, sizeof x)` on a little-endian processor. -/
def load32 : List Byte → Res (BitVec 32)
  | b0 :: b1 :: b2 :: b3 :: _ => .ok (b3 ++ b2 ++ b1 ++ b0)
  | _ => .ub

/-- The receiver converts a number. -/
def decode1 (ul : Nat) : Kind → List Byte → Res Val
  | .u16, bs => do
    let x ← load16 bs
    .ok (.u16 (changeEndianess16 x))
  | .u32, bs => do
    let x ← load32 bs
    .ok (.u32 (changeEndianess32 ul x))
  | .float, bs => do
    let x ← load32 bs
    .ok (.float (changeEndianessToFloat ul x))

/-- The receiver converts the numbers one after the other. -/
def decode (ul : Nat) : List Kind → List Byte → Res (List Val)
  | [], _ => .ok []
  | k :: ks, bs => do
    let v ← decode1 ul k bs
    let vs ← decode ul ks (bs.drop k.size)
    .ok (v :: vs)

/-- The receiver: `if (uart.ReceiveBetween(buffer, …) == sizeof frame) { decode(buffer + 1); … }`. -/
def accept (ul : Nat) (layout : List Kind) : List (List Byte) → Res (List (List Val))
  | [] => .ok []
  | p :: ps =>
    if p.length = size layout + 2 then do
      let r ← decode ul layout (p.drop 1)
      let rs ← accept ul layout ps
      .ok (r :: rs)
    else accept ul layout ps

/-! ## Specification -/

/-- Network byte order: the most significant byte first (Endian/Spec.lean). -/
def network : Val → List Nat
  | .u16 x => bytes16 x
  | .u32 x => bytes32 x
  | .float bits => bytes32 bits

/-- The record contains the end byte. -/
def Has (e : Byte) (r : List Val) : Prop := e.toNat ∈ r.flatMap network

instance (e : Byte) (r : List Val) : Decidable (Has e r) := inferInstanceAs (Decidable (_ ∈ _))

/-- The frames of records in network byte order. -/
def IsWire (sb e : Byte) (rs : List (List Val)) (wire : List Byte) : Prop :=
  wire.map BitVec.toNat = rs.flatMap fun r => sb.toNat :: r.flatMap network ++ [e.toNat]

/-- A receiver of frames with `n` bytes of data: a buffer which is longer than a frame in a memory of the caller, enough
fuel for two frames, a time-out of `T` ms at least, and a clock which does not advance by `T` ms during two frames. -/
structure Receiver (n size timeout fuel T : Nat) (env : Env) (mem : List Byte) : Prop where
  longer : n + 2 < size
  room : size ≤ mem.length
  small : size < 65536
  fuel : 2 * n + 3 ≤ fuel
  patient : T ≤ timeout
  short : timeout < 65536
  quick : Quick env (2 * n + 3) T

/-! ## Proof -/

theorem extract_toNat {w : Nat} (x : BitVec w) (s : Nat) : (x.extractLsb' s 8).toNat = x.toNat / 2 ^ s % 256 := by
  simp [BitVec.extractLsb'_toNat, Nat.shiftRight_eq_div_pow]

theorem toNat_append8 {m : Nat} (a : BitVec m) (b : BitVec 8) : (a ++ b).toNat = a.toNat * 256 + b.toNat := by
  rw [BitVec.toNat_append, ← Nat.shiftLeft_add_eq_or_of_lt b.isLt, Nat.shiftLeft_eq]

theorem store16_bytes (x : BitVec 16) : (store16 x).map BitVec.toNat = (bytes16 x).reverse := by
  have := x.isLt
  simp only [store16, List.map_cons, List.map_nil, extract_toNat, bytes16, List.reverse_cons, List.reverse_nil, List.nil_append,
    List.cons_append, List.cons.injEq, and_true]
  omega

theorem store32_bytes (x : BitVec 32) : (store32 x).map BitVec.toNat = (bytes32 x).reverse := by
  have := x.isLt
  simp only [store32, List.map_cons, List.map_nil, extract_toNat, bytes32, List.reverse_cons, List.reverse_nil, List.nil_append,
    List.cons_append, List.cons.injEq, and_true, true_and, Nat.reducePow]
  omega

/-- The sender puts numbers in network byte order. -/
theorem encode_network (ul : Nat) (hul : ul = 32 ∨ ul = 64) (v : Val) : (encode ul v).map BitVec.toNat = network v := by
  cases v with
  | u16 x => simp [encode, network, store16_bytes, changeEndianess16_reverses_bytes]
  | u32 x => simp [encode, network, store32_bytes, changeEndianess32_reverses_bytes ul hul]
  | float x => simp [encode, network, store32_bytes, changeEndianess32_reverses_bytes ul hul]

theorem encode_length (ul : Nat) (v : Val) : (encode ul v).length = v.kind.size := by
  cases v <;> rfl

theorem encodeAll_length (ul : Nat) (r : List Val) : (r.flatMap (encode ul)).length = size (r.map Val.kind) := by
  induction r with
  | nil => rfl
  | cons v r ih =>
    rw [List.flatMap_cons, List.length_append, ih, encode_length]
    simp [size]

theorem encodeAll_network (ul : Nat) (hul : ul = 32 ∨ ul = 64) (r : List Val) :
    (r.flatMap (encode ul)).map BitVec.toNat = r.flatMap network := by
  induction r with
  | nil => rfl
  | cons v r ih => rw [List.flatMap_cons, List.map_append, ih, encode_network ul hul, List.flatMap_cons]

theorem has_iff (ul : Nat) (hul : ul = 32 ∨ ul = 64) (e : Byte) (r : List Val) : Has e r ↔ e ∈ r.flatMap (encode ul) := by
  rw [Has, ← encodeAll_network ul hul]
  constructor
  · intro h
    obtain ⟨b, h1, h2⟩ := List.mem_map.1 h
    exact BitVec.eq_of_toNat_eq h2 ▸ h1
  · exact List.mem_map_of_mem

theorem load_store16 (x : BitVec 16) (l : List Byte) : load16 (store16 x ++ l) = .ok x := by
  simp only [store16, List.cons_append, load16, Res.ok.injEq]
  apply BitVec.eq_of_toNat_eq
  simp only [toNat_append8, extract_toNat, Nat.reducePow]
  have := x.isLt
  omega

theorem load_store32 (x : BitVec 32) (l : List Byte) : load32 (store32 x ++ l) = .ok x := by
  simp only [store32, List.cons_append, load32, Res.ok.injEq]
  apply BitVec.eq_of_toNat_eq
  simp only [toNat_append8, extract_toNat, Nat.reducePow]
  have := x.isLt
  omega

theorem decode1_encode (ul ul' : Nat) (hul : ul = 32 ∨ ul = 64) (hul' : ul' = 32 ∨ ul' = 64) (v : Val) (l : List Byte) :
    decode1 ul' v.kind (encode ul v ++ l) = .ok v := by
  cases v with
  | u16 x =>
    rw [encode, Val.kind, decode1, load_store16, Res.bind_ok]
    rw [changeEndianess16_involutive]
  | u32 x =>
    rw [encode, Val.kind, decode1, load_store32, Res.bind_ok]
    rw [changeEndianess32_involutive ul' ul hul' hul]
  | float x =>
    rw [encode, Val.kind, decode1, load_store32, Res.bind_ok]
    change Res.ok (Val.float (changeEndianess32 ul' _)) = _
    rw [changeEndianess32_involutive ul' ul hul' hul]

theorem decode_encode (ul ul' : Nat) (hul : ul = 32 ∨ ul = 64) (hul' : ul' = 32 ∨ ul' = 64) (r : List Val) (l : List Byte) :
    decode ul' (r.map Val.kind) (r.flatMap (encode ul) ++ l) = .ok r := by
  induction r with
  | nil => rfl
  | cons v r ih =>
    rw [List.map_cons, decode, List.flatMap_cons, List.append_assoc, decode1_encode ul ul' hul hul', Res.bind_ok,
      ← encode_length ul v, List.drop_left, ih, Res.bind_ok]

theorem accept_frames (ul ul' : Nat) (hul : ul = 32 ∨ ul = 64) (hul' : ul' = 32 ∨ ul' = 64) (layout : List Kind) (sb e : Byte)
    (rs : List (List Val)) (hrs : ∀ r ∈ rs, r.map Val.kind = layout) (ps : List (List Byte))
    (h : ps.filter (fun p => p.length = size layout + 2) = rs.map (frame ul sb e)) : accept ul' layout ps = .ok rs := by
  induction ps generalizing rs with
  | nil =>
    cases rs with
    | nil => rfl
    | cons r rs => simp at h
  | cons p ps ih =>
    rw [accept]
    by_cases hp : p.length = size layout + 2
    · rw [List.filter_cons_of_pos (by simpa using hp)] at h
      cases rs with
      | nil => simp at h
      | cons r rs =>
        rw [List.map_cons, List.cons.injEq] at h
        simp only [List.mem_cons, forall_eq_or_imp] at hrs
        obtain ⟨rfl, h⟩ := h
        rw [if_pos hp, ih rs hrs.2 h, show (frame ul sb e r).drop 1 = r.flatMap (encode ul) ++ [e] from rfl, ← hrs.1,
          decode_encode ul ul' hul hul', Res.bind_ok, Res.bind_ok]
    · rw [List.filter_cons_of_neg (by simpa using hp)] at h
      rw [if_neg hp, ih rs hrs h]

/-- The first occurrence of a byte. -/
theorem first_split {b : Byte} : ∀ {s : List Byte}, b ∈ s → ∃ p q, s = p ++ b :: q ∧ b ∉ p
  | [], h => by cases h
  | a :: s, h => by
    by_cases hab : a = b
    · exact ⟨[], s, by rw [hab, List.nil_append], by simp⟩
    · have hs : b ∈ s := by
        rcases List.mem_cons.1 h with rfl | h
        · exact absurd rfl hab
        · exact h
      obtain ⟨p, q, rfl, h2⟩ := first_split hs
      refine ⟨a :: p, q, rfl, ?_⟩
      simp only [List.mem_cons, not_or]
      exact ⟨fun h => hab h.symm, h2⟩

/-- The bytes of a packet preceded by other bytes. -/
def piece (sb e : Byte) (m : List Byte × List Byte) : List Byte := m.1 ++ (sb :: m.2 ++ [e])

/-- What is left of a frame: the packets in it are shorter than a frame. -/
theorem drain (sb e : Byte) (hne : sb ≠ e) (n N : Nat) (late : List Byte) (hN : late.length ≤ N)
    (hl : late = [] ∨ late.getLast? = some e) (hln : late.length ≤ n + 1) :
    ∃ (ms : List (List Byte × List Byte)) (rest : List Byte), late = ms.flatMap (piece sb e) ++ rest ∧ sb ∉ rest ∧
      rest.length ≤ n + 1 ∧ ∀ m ∈ ms, sb ∉ m.1 ∧ e ∉ m.2 ∧ m.1.length ≤ n + 1 ∧ m.2.length < n := by
  induction N generalizing late with
  | zero =>
    obtain rfl : late = [] := List.eq_nil_of_length_eq_zero (by omega)
    exact ⟨[], [], rfl, by simp, by simp, by simp⟩
  | succ N ih =>
    by_cases hsb : sb ∈ late
    · obtain ⟨noise, s2, rfl, h1⟩ := first_split hsb
      replace hl : (noise ++ sb :: s2).getLast? = some e := by
        rcases hl with hl | hl
        · simp at hl
        · exact hl
      have hs2 : s2.getLast? = some e := by
        rw [List.getLast?_append, List.getLast?_cons] at hl
        simp only [Option.some_or, Option.some.injEq] at hl
        cases h : s2.getLast? with
        | none => rw [h] at hl; exact absurd hl hne
        | some x => rw [h] at hl; simpa using hl
      obtain ⟨p, s3, rfl, h2⟩ := first_split (List.mem_of_getLast? hs2)
      simp only [List.length_append, List.length_cons] at hN hln
      have hl3 : s3 = [] ∨ s3.getLast? = some e := by
        rw [List.getLast?_append, List.getLast?_cons] at hs2
        simp only [Option.some_or, Option.some.injEq] at hs2
        cases h : s3.getLast? with
        | none => exact .inl (List.getLast?_eq_none_iff.1 h)
        | some x => rw [h] at hs2; exact .inr (by simpa using hs2)
      obtain ⟨ms, rest, k1, k2, k3, k4⟩ := ih s3 (by omega) hl3 (by omega)
      refine ⟨(noise, p) :: ms, rest, ?_, k2, k3, ?_⟩
      · rw [List.flatMap_cons, List.append_assoc, ← k1]
        simp [piece]
      · simp only [List.mem_cons, forall_eq_or_imp]
        exact ⟨⟨h1, h2, by omega, by omega⟩, k4⟩
    · exact ⟨[], late, rfl, hsb, hln, by simp⟩

theorem short_filtered (sb e : Byte) (n : Nat) (ms : List (List Byte × List Byte)) (h : ∀ m ∈ ms, m.2.length < n) :
    (ms.map fun m => sb :: m.2 ++ [e]).filter (fun p => p.length = n + 2) = [] := by
  rw [List.filter_eq_nil_iff]
  intro p hp
  obtain ⟨m, hm, rfl⟩ := List.mem_map.1 hp
  have := h m hm
  simp only [List.cons_append, List.length_cons, List.length_append, List.length_nil, decide_eq_true_eq]
  omega

/-- How a stream of frames is shared out: `late` is what is left of a frame, `fs` are the contents of the following ones. -/
theorem parse (sb e : Byte) (hne : sb ≠ e) (n : Nat) (fs : List (List Byte)) (hfs : ∀ f ∈ fs, f.length = n)
    (late : List Byte) (hl : late = [] ∨ late.getLast? = some e) (hln : late.length ≤ n + 1) :
    ∃ (ms : List (List Byte × List Byte)) (rest : List Byte),
      late ++ fs.flatMap (fun f => sb :: f ++ [e]) = ms.flatMap (piece sb e) ++ rest ∧ sb ∉ rest ∧
      (∀ m ∈ ms, sb ∉ m.1 ∧ e ∉ m.2 ∧ m.1.length ≤ n + 1 ∧ m.2.length ≤ n) ∧
      (ms.map fun m => sb :: m.2 ++ [e]).filter (fun p => p.length = n + 2) =
        (fs.filter fun f => e ∉ f).map fun f => sb :: f ++ [e] := by
  induction fs generalizing late with
  | nil =>
    obtain ⟨ms, rest, h1, h2, h3, h4⟩ := drain sb e hne n _ late (Nat.le_refl _) hl hln
    refine ⟨ms, rest, by rw [List.flatMap_nil, List.append_nil]; exact h1, h2, ?_, ?_⟩
    · intro m hm
      obtain ⟨a, b, c, d⟩ := h4 m hm
      exact ⟨a, b, c, by omega⟩
    · exact short_filtered sb e n ms fun m hm => (h4 m hm).2.2.2
  | cons f fs ih =>
    simp only [List.mem_cons, forall_eq_or_imp] at hfs
    obtain ⟨ms0, rest0, h1, h2, h3, h4⟩ := drain sb e hne n _ late (Nat.le_refl _) hl hln
    have h4' : ∀ m ∈ ms0, sb ∉ m.1 ∧ e ∉ m.2 ∧ m.1.length ≤ n + 1 ∧ m.2.length ≤ n := by
      intro m hm
      obtain ⟨a, b, c, d⟩ := h4 m hm
      exact ⟨a, b, c, by omega⟩
    have h5 := short_filtered sb e n ms0 fun m hm => (h4 m hm).2.2.2
    by_cases he : e ∈ f
    · obtain ⟨p, q, rfl, hp⟩ := first_split he
      have hlen := hfs.1
      simp only [List.length_append, List.length_cons] at hlen
      obtain ⟨ms, rest, k1, k2, k3, k4⟩ := ih hfs.2 (q ++ [e]) (.inr (by simp)) (by simp; omega)
      refine ⟨ms0 ++ (rest0, p) :: ms, rest, ?_, k2, ?_, ?_⟩
      · have k : ∀ a b : List Byte, a ++ (b ++ List.flatMap (piece sb e) ms) ++ rest =
            a ++ (b ++ (List.flatMap (piece sb e) ms ++ rest)) := by simp
        rw [List.flatMap_append, List.flatMap_cons, List.flatMap_cons, k, ← k1, h1]
        simp [piece]
      · intro m hm
        rcases List.mem_append.1 hm with hm | hm
        · exact h4' m hm
        · rcases List.mem_cons.1 hm with rfl | hm
          · exact ⟨h2, hp, h3, by change p.length ≤ n; omega⟩
          · exact k3 m hm
      · rw [List.map_append, List.filter_append, h5, List.nil_append, List.map_cons, List.filter_cons_of_neg, k4,
          List.filter_cons_of_neg]
        · simp
        · simp only [List.length_append, List.length_cons, List.length_nil, decide_eq_true_eq]
          omega
    · obtain ⟨ms, rest, k1, k2, k3, k4⟩ := ih hfs.2 [] (.inl rfl) (by simp)
      rw [List.nil_append] at k1
      refine ⟨ms0 ++ (rest0, f) :: ms, rest, ?_, k2, ?_, ?_⟩
      · have k : ∀ a b : List Byte, a ++ (b ++ List.flatMap (piece sb e) ms) ++ rest =
            a ++ (b ++ (List.flatMap (piece sb e) ms ++ rest)) := by simp
        rw [List.flatMap_append, List.flatMap_cons, List.flatMap_cons, k, ← k1, h1]
        simp [piece]
      · intro m hm
        rcases List.mem_append.1 hm with hm | hm
        · exact h4' m hm
        · rcases List.mem_cons.1 hm with rfl | hm
          · exact ⟨h2, he, h3, Nat.le_of_eq hfs.1⟩
          · exact k3 m hm
      · rw [List.map_append, List.filter_append, h5, List.nil_append, List.map_cons, List.filter_cons_of_pos, k4,
          List.filter_cons_of_pos, List.map_cons]
        · simpa using he
        · simp [hfs.1]

/-- What is left of a frame. -/
def Late (n : Nat) (sb e : Byte) (late : List Byte) : Prop :=
  late = [] ∨ ∃ f : List Byte, f.length = n ∧ late ≠ sb :: f ++ [e] ∧ late ≠ [] ∧ late <:+ sb :: f ++ [e]

theorem Late.spec {n : Nat} {sb e : Byte} {late : List Byte} (h : Late n sb e late) :
    (late = [] ∨ late.getLast? = some e) ∧ late.length ≤ n + 1 := by
  rcases h with rfl | ⟨f, h1, h2, h3, t, h4⟩
  · exact ⟨.inl rfl, by simp⟩
  · have hl := congrArg List.length h4
    have hg := congrArg List.getLast? h4
    simp only [List.length_append, List.length_cons, List.length_nil, h1] at hl
    refine ⟨.inr ?_, ?_⟩
    · rw [List.getLast?_append, List.getLast?_append] at hg
      cases h : late.getLast? with
      | none => exact absurd (List.getLast?_eq_none_iff.1 h) h3
      | some x => rw [h] at hg; simpa using hg
    · cases t with
      | nil => exact absurd h4 h2
      | cons a t => simp only [List.length_cons] at hl; omega

/-- Receptions from a stream which is made of packets preceded by other bytes. -/
theorem receptions {n size timeout fuel T : Nat} {env : Env} {mem : List Byte} (hr : Receiver n size timeout fuel T env mem)
    (sb e : Byte) (ms : List (List Byte × List Byte)) (rest : List Byte)
    (hm : ∀ m ∈ ms, sb ∉ m.1 ∧ e ∉ m.2 ∧ m.1.length ≤ n + 1 ∧ m.2.length ≤ n)
    (hf : Feeds env (ms.flatMap (piece sb e) ++ rest)) :
    Esp.runCalls fuel env mem (List.replicate ms.length (.between size sb e timeout)) =
      .ok (ms.map fun m => sb :: m.2 ++ [e], (ms.flatMap (piece sb e)).length) ∧
    Arduino.runCalls fuel env mem (List.replicate ms.length (.between size sb e timeout)) =
      .ok (ms.map fun m => sb :: m.2 ++ [e], (ms.flatMap (piece sb e)).length) := by
  have hw : (ms.map fun m => Msg.between size sb e timeout m.1 m.2).flatMap Msg.wire = ms.flatMap (piece sb e) := by
    rw [List.flatMap_map]; rfl
  have hp : (ms.map fun m => Msg.between size sb e timeout m.1 m.2).map Msg.packet = ms.map fun m => sb :: m.2 ++ [e] := by
    rw [List.map_map]; rfl
  have hE : (ms.map fun m => Msg.between size sb e timeout m.1 m.2).map Msg.espCall =
      List.replicate ms.length (.between size sb e timeout) := by
    rw [List.map_map]
    exact List.map_const'
  have hA : (ms.map fun m => Msg.between size sb e timeout m.1 m.2).map Msg.arduinoCall =
      List.replicate ms.length (.between size sb e timeout) := by
    rw [List.map_map]
    exact List.map_const'
  have hfine : ∀ m ∈ ms.map (fun m => Msg.between size sb e timeout m.1 m.2), m.Fine mem.length (2 * n + 3) T := by
    intro m hmem
    obtain ⟨m, hmm, rfl⟩ := List.mem_map.1 hmem
    obtain ⟨a, b, c, d⟩ := hm m hmm
    have := hr.longer
    exact ⟨a, b, by omega, hr.room, hr.small, by omega, hr.patient, hr.short⟩
  have hfuel : ∀ m ∈ ms.map (fun m => Msg.between size sb e timeout m.1 m.2), m.wire.length ≤ fuel := by
    intro m hmem
    obtain ⟨m, hmm, rfl⟩ := List.mem_map.1 hmem
    obtain ⟨a, b, c, d⟩ := hm m hmm
    have := hr.fuel
    simp only [Msg.wire, List.length_append, List.length_cons, List.length_nil]
    omega
  have hfeed : Feeds env ((ms.map fun m => Msg.between size sb e timeout m.1 m.2).flatMap Msg.wire) := by
    rw [hw]
    intro k hk
    rw [hf k (by rw [List.length_append]; omega), List.getElem?_append_left hk]
  have h1 := esp_messages env (2 * n + 3) T fuel mem _ hfine hr.quick hfeed hfuel
  have h2 := arduino_messages env (2 * n + 3) T fuel mem _ hfine hr.quick hfeed hfuel
  rw [hw, hp, hE] at h1
  rw [hw, hp, hA] at h2
  exact ⟨h1, h2⟩

theorem frame_network (ul : Nat) (hul : ul = 32 ∨ ul = 64) (sb e : Byte) (r : List Val) :
    (frame ul sb e r).map BitVec.toNat = sb.toNat :: r.flatMap network ++ [e.toNat] := by
  rw [frame, List.map_append, List.map_cons, encodeAll_network ul hul]; rfl

theorem toNat_map_inj : ∀ {a b : List Byte}, a.map BitVec.toNat = b.map BitVec.toNat → a = b
  | [], [], _ => rfl
  | [], b :: bs, h => by simp at h
  | a :: as, [], h => by simp at h
  | a :: as, b :: bs, h => by
    simp only [List.map_cons, List.cons.injEq] at h
    rw [BitVec.eq_of_toNat_eq h.1, toNat_map_inj h.2]

theorem isWire_iff (ul : Nat) (hul : ul = 32 ∨ ul = 64) (sb e : Byte) (rs : List (List Val)) (wire : List Byte) :
    IsWire sb e rs wire ↔ wire = rs.flatMap (frame ul sb e) := by
  have h : (rs.flatMap (frame ul sb e)).map BitVec.toNat = rs.flatMap fun r => sb.toNat :: r.flatMap network ++ [e.toNat] := by
    rw [List.map_flatMap]
    congr 1
    funext r
    exact frame_network ul hul sb e r
  constructor
  · intro hw
    exact toNat_map_inj (hw.trans h.symm)
  · rintro rfl
    exact h

theorem sendAll_ok {σ : Type} (send : σ → List Byte → Res σ) (f : σ → List Byte → σ)
    (hf : ∀ d p, p.length < 65536 → send d p = .ok (f d p)) (ul : Nat) (sb e : Byte) (rs : List (List Val))
    (hrs : ∀ r ∈ rs, size (r.map Val.kind) + 2 < 65536) (d : σ) :
    sendAll send ul sb e rs d = .ok ((rs.map (frame ul sb e)).foldl f d) := by
  induction rs generalizing d with
  | nil => rfl
  | cons r rs ih =>
    simp only [List.mem_cons, forall_eq_or_imp] at hrs
    rw [sendAll, hf, Res.bind_ok, ih hrs.2, List.map_cons, List.foldl_cons]
    rw [frame, List.length_append, List.length_cons, encodeAll_length]
    simpa using hrs.1

/-! ## Properties -/

/-- **C122**, the sender on ESP32: if the driver accepts what it is given, the records are on the wire one after the other,
each in network byte order between the two bytes, whatever the width of `unsigned long`. -/
theorem esp_sends (drv : Device.Driver) (port : Int) (ul : Nat) (hul : ul = 32 ∨ ul = 64) (sb e : Byte) (recs : List (List Val))
    (hrecs : ∀ r ∈ recs, size (r.map Val.kind) + 2 < 65536)
    (hdrv : ∀ l, ∀ r ∈ recs, ((size (r.map Val.kind) + 2 : Nat) : Int) ≤ drv.written l) (d : Device.St) :
    ∃ d' cs, sendAll (espSend drv port) ul sb e recs d = .ok d' ∧ d'.calls = d.calls ++ cs ∧
      IsWire sb e recs (onWire drv port d.calls cs) := by
  obtain ⟨cs, k1, -, -, k4⟩ := esp_calls drv port (recs.map (frame ul sb e)) d
  refine ⟨_, cs, sendAll_ok _ _ (espSend_ok drv port) ul sb e recs hrecs d, k1, ?_⟩
  rw [isWire_iff ul hul, k4, List.flatMap_def]
  intro l p hp
  obtain ⟨r, hr, rfl⟩ := List.mem_map.1 hp
  have := hdrv l r hr
  rw [frame, List.length_append, List.length_cons, encodeAll_length, List.length_singleton]
  exact this

/-- **C122**, the sender on Arduino. -/
theorem arduino_sends (arriving : List ACall → List Byte) (ul : Nat) (hul : ul = 32 ∨ ul = 64) (sb e : Byte)
    (recs : List (List Val)) (hrecs : ∀ r ∈ recs, size (r.map Val.kind) + 2 < 65536) (d : ADev) :
    ∃ d' cs, sendAll (fun d p => .ok (arduinoSend arriving 100 d p)) ul sb e recs d = .ok d' ∧ d'.calls = d.calls ++ cs ∧
      d'.timeout = d.timeout ∧ IsWire sb e recs ((written d.timeout cs).flatMap Prod.snd) := by
  have hlen : ∀ p ∈ recs.map (frame ul sb e), p.length < 65536 := by
    intro p hp
    obtain ⟨r, hr, rfl⟩ := List.mem_map.1 hp
    have := hrecs r hr
    rw [frame, List.length_append, List.length_cons, encodeAll_length]
    simpa using this
  obtain ⟨cs, k1, k2, k3, -⟩ := arduino_calls arriving 100 (by omega) (recs.map (frame ul sb e)) hlen d
  refine ⟨_, cs, sendAll_ok _ _ (fun _ _ _ => rfl) ul sb e recs hrecs d, k1, k2, ?_⟩
  rw [isWire_iff ul hul, k3, List.flatMap_map, List.flatMap_map]

/-- **C122**, the receiver, with different bytes at the start and at the end of frames.  It may begin to listen in the middle
of a frame, the two devices may differ in platform and in the width of `unsigned long`: after some number of calls of
`ReceiveBetween` it has consumed all frames (no start byte is left), and it has accepted exactly the records which do not
contain the end byte, whole and in order. -/
theorem frames_arrive (sb e : Byte) (hne : sb ≠ e) (layout : List Kind) (recs : List (List Val))
    (hrecs : ∀ r ∈ recs, r.map Val.kind = layout) {wire late : List Byte} (hw : IsWire sb e recs wire)
    (hl : Late (size layout) sb e late) {bufferSize timeout fuel T : Nat} {env : Env} {mem : List Byte}
    (hr : Receiver (size layout) bufferSize timeout fuel T env mem) (hf : Feeds env (late ++ wire))
    (ul : Nat) (hul : ul = 32 ∨ ul = 64) :
    ∃ calls packets consumed,
      Esp.runCalls fuel env mem (List.replicate calls (.between bufferSize sb e timeout)) = .ok (packets, consumed) ∧
      Arduino.runCalls fuel env mem (List.replicate calls (.between bufferSize sb e timeout)) = .ok (packets, consumed) ∧
      sb ∉ (late ++ wire).drop consumed ∧
      accept ul layout packets = .ok (recs.filter fun r => ¬ Has e r) := by
  rw [isWire_iff ul hul] at hw
  subst hw
  obtain ⟨hl1, hl2⟩ := hl.spec
  have hfs : ∀ f ∈ recs.map (fun r => r.flatMap (encode ul)), f.length = size layout := by
    intro f hf
    obtain ⟨r, h, rfl⟩ := List.mem_map.1 hf
    rw [encodeAll_length, hrecs r h]
  obtain ⟨ms, rest, k1, k2, k3, k4⟩ := parse sb e hne (size layout) _ hfs late hl1 hl2
  rw [List.flatMap_map] at k1
  change late ++ recs.flatMap (frame ul sb e) = _ at k1
  rw [k1] at hf
  obtain ⟨g1, g2⟩ := receptions hr sb e ms rest k3 hf
  refine ⟨ms.length, _, _, g1, g2, ?_, ?_⟩
  · rw [k1, List.drop_left]; exact k2
  · refine accept_frames ul ul hul hul layout sb e _ (fun r h => hrecs r ((List.mem_filter.1 h).1)) _ ?_
    rw [k4, List.filter_map, List.map_map]
    have hq : recs.filter ((fun f => decide (e ∉ f)) ∘ fun r => r.flatMap (encode ul)) = recs.filter fun r => ¬ Has e r := by
      apply List.filter_congr
      intro r _
      simp only [Function.comp_apply, has_iff ul hul]
    rw [hq]
    rfl

/-- Finding for **C122**: with the same byte at the start and at the end of frames, a receiver which begins to listen with the
last byte of a frame never gets a record: as long as no record contains that byte, it takes the end of each frame and the
start of the next one for a frame. -/
theorem equal_marks (e : Byte) (layout : List Kind) (hpos : 0 < size layout) (recs : List (List Val))
    (hrecs : ∀ r ∈ recs, r.map Val.kind = layout ∧ ¬ Has e r) {wire : List Byte} (hw : IsWire e e recs wire)
    {bufferSize timeout fuel T : Nat} {env : Env} {mem : List Byte}
    (hr : Receiver (size layout) bufferSize timeout fuel T env mem) (hf : Feeds env ([e] ++ wire))
    (ul : Nat) (hul : ul = 32 ∨ ul = 64) :
    ∃ packets consumed,
      Esp.runCalls fuel env mem (List.replicate recs.length (.between bufferSize e e timeout)) = .ok (packets, consumed) ∧
      Arduino.runCalls fuel env mem (List.replicate recs.length (.between bufferSize e e timeout)) = .ok (packets, consumed) ∧
      packets = List.replicate recs.length [e, e] ∧ accept ul layout packets = .ok [] ∧
      (recs ≠ [] → ([e] ++ wire).length ≤ consumed + (size layout + 1)) := by
  rw [isWire_iff ul hul] at hw
  subst hw
  have key : ∀ (recs : List (List Val)) (noise : List Byte), (∀ r ∈ recs, r.map Val.kind = layout ∧ ¬ Has e r) → e ∉ noise →
      noise.length ≤ size layout + 1 →
      ∃ (ms : List (List Byte × List Byte)) (rest : List Byte),
        noise ++ [e] ++ recs.flatMap (frame ul e e) = ms.flatMap (piece e e) ++ rest ∧ ms.length = recs.length ∧
        (∀ m ∈ ms, e ∉ m.1 ∧ e ∉ m.2 ∧ m.1.length ≤ size layout + 1 ∧ m.2.length ≤ size layout) ∧ (∀ m ∈ ms, m.2 = []) ∧
        (recs ≠ [] → rest.length ≤ size layout + 1) := by
    intro recs
    induction recs with
    | nil =>
      intro noise _ hn hlen
      exact ⟨[], noise ++ [e], by simp, rfl, by simp, by simp, by simp⟩
    | cons r recs ih =>
      intro noise hrecs hn hlen
      simp only [List.mem_cons, forall_eq_or_imp] at hrecs
      obtain ⟨⟨hk, hh⟩, hrecs⟩ := hrecs
      rw [has_iff ul hul] at hh
      have hln : (r.flatMap (encode ul)).length = size layout := by rw [encodeAll_length, hk]
      obtain ⟨ms, rest, k1, k2, k3, k4, k5⟩ := ih (r.flatMap (encode ul)) hrecs hh (by omega)
      refine ⟨(noise, []) :: ms, rest, ?_, by simp [k2], ?_, ?_, ?_⟩
      · rw [List.flatMap_cons, List.flatMap_cons, List.append_assoc (piece e e _), ← k1]
        simp [piece, frame]
      · simp only [List.mem_cons, forall_eq_or_imp]
        exact ⟨⟨hn, by simp, hlen, by simp⟩, k3⟩
      · simp only [List.mem_cons, forall_eq_or_imp, true_and]
        exact k4
      · intro _
        by_cases hne : recs = []
        · subst hne
          obtain rfl : ms = [] := List.eq_nil_of_length_eq_zero k2
          have := congrArg List.length k1
          simp only [List.flatMap_nil, List.append_nil, List.length_append, List.length_cons, List.length_nil, hln,
            List.nil_append] at this
          omega
        · exact k5 hne
  obtain ⟨ms, rest, k1, k2, k3, k4, k5⟩ := key recs [] hrecs (by simp) (by simp)
  rw [List.nil_append] at k1
  rw [k1] at hf
  obtain ⟨g1, g2⟩ := receptions hr e e ms rest k3 hf
  have hp : (ms.map fun m => e :: m.2 ++ [e]) = List.replicate recs.length [e, e] := by
    rw [← k2, List.eq_replicate_iff]
    refine ⟨by simp, ?_⟩
    intro p hp
    obtain ⟨m, hm, rfl⟩ := List.mem_map.1 hp
    rw [k4 m hm]; rfl
  rw [hp, k2] at g1 g2
  refine ⟨_, _, g1, g2, rfl, ?_, ?_⟩
  · refine accept_frames ul ul hul hul layout e e [] (by simp) _ ?_
    rw [List.map_nil, List.filter_eq_nil_iff]
    intro p hp
    rw [List.eq_of_mem_replicate hp]
    simp only [List.length_cons, List.length_nil, decide_eq_true_eq]
    omega
  · intro hne
    have := k5 hne
    rw [k1, List.length_append]
    omega

/-- A damaged frame never yields a record of the wrong length: the receiver decodes packets of the length of a frame only, and
decoding never reads behind the packet, whatever was received. -/
theorem accept_total (ul : Nat) (layout : List Kind) (packets : List (List Byte)) :
    ∃ rs, accept ul layout packets = .ok rs ∧ rs.length = (packets.filter fun p => p.length = size layout + 2).length ∧
      ∀ r ∈ rs, r.map Val.kind = layout := by
  have hd : ∀ (layout : List Kind) (bs : List Byte), size layout ≤ bs.length →
      ∃ r, decode ul layout bs = .ok r ∧ r.map Val.kind = layout := by
    intro layout
    induction layout with
    | nil => intro bs _; exact ⟨[], rfl, rfl⟩
    | cons k ks ih =>
      intro bs hlen
      have hs : size (k :: ks) = k.size + size ks := by simp [size]
      rw [hs] at hlen
      obtain ⟨r, h1, h2⟩ := ih (bs.drop k.size) (by rw [List.length_drop]; omega)
      have hv : ∃ v, decode1 ul k bs = .ok v ∧ v.kind = k := by
        cases k with
        | u16 =>
          match bs, hlen with
          | b0 :: b1 :: _, _ => exact ⟨_, rfl, rfl⟩
          | [_], h => simp [Kind.size] at h; omega
          | [], h => simp [Kind.size] at h
        | u32 =>
          match bs, hlen with
          | b0 :: b1 :: b2 :: b3 :: _, _ => exact ⟨_, rfl, rfl⟩
          | [_, _, _], h => simp [Kind.size] at h; omega
          | [_, _], h => simp [Kind.size] at h; omega
          | [_], h => simp [Kind.size] at h; omega
          | [], h => simp [Kind.size] at h
        | float =>
          match bs, hlen with
          | b0 :: b1 :: b2 :: b3 :: _, _ => exact ⟨_, rfl, rfl⟩
          | [_, _, _], h => simp [Kind.size] at h; omega
          | [_, _], h => simp [Kind.size] at h; omega
          | [_], h => simp [Kind.size] at h; omega
          | [], h => simp [Kind.size] at h
      obtain ⟨v, h3, h4⟩ := hv
      exact ⟨v :: r, by rw [decode, h3, Res.bind_ok, h1, Res.bind_ok], by rw [List.map_cons, h4, h2]⟩
  induction packets with
  | nil => exact ⟨[], rfl, rfl, by simp⟩
  | cons p ps ih =>
    obtain ⟨rs, h1, h2, h3⟩ := ih
    by_cases hp : p.length = size layout + 2
    · obtain ⟨r, g1, g2⟩ := hd layout (p.drop 1) (by rw [List.length_drop]; omega)
      refine ⟨r :: rs, by rw [accept, if_pos hp, g1, Res.bind_ok, h1, Res.bind_ok], ?_, ?_⟩
      · rw [List.filter_cons_of_pos (by simpa using hp), List.length_cons, List.length_cons, h2]
      · simp only [List.mem_cons, forall_eq_or_imp]
        exact ⟨g2, h3⟩
    · refine ⟨rs, by rw [accept, if_neg hp, h1], ?_, h3⟩
      rw [List.filter_cons_of_neg (by simpa using hp), h2]

/-! ## Concrete cases -/

/-- A record: a counter and a temperature of 20.5. -/
def sample (n : BitVec 16) : List Val := [.u16 n, .float 0x41a40000#32]

/-- The frame of a record, in network byte order. -/
example : frame 64 0x02#8 0x03#8 (sample 0x0107#16) = [0x02, 0x01, 0x07, 0x41, 0xa4, 0x00, 0x00, 0x03] := by decide

/-- Whose number is 3 contains the end byte: it is lost, and the records around it arrive. -/
example : [sample 1, sample 3, sample 2].filter (fun r => ¬ Has 0x03#8 r) = [sample 1, sample 2] := by decide

/-- The receiver in the middle of a frame. -/
example : Late 6 0x02#8 0x03#8 [0xa4, 0x00, 0x00, 0x03] :=
  .inr ⟨[0x01, 0x07, 0x41, 0xa4, 0x00, 0x00], rfl, by decide, by decide, [0x02, 0x01, 0x07, 0x41], rfl⟩

/-- A line on which everything has already arrived and a clock which stands still. -/
def lineOf (s : List Byte) : Env := ⟨fun _ => 0, fun k => s[k]?⟩

example (s : List Byte) : Receiver 6 9 100 20 50 (lineOf s) (List.replicate 9 0) :=
  ⟨by decide, by decide, by decide, by decide, by decide, by decide, by
    intro i j _ _
    change (0 : Nat) ≤ 0 ∧ (0 : Nat) < 0 + 50 ∧ 0 + 65536 < 2 ^ 32
    omega⟩

/-- The receiver begins in the middle of a frame, then three frames arrive, the second of which contains the end byte. -/
example : Esp.runCalls 20 (lineOf ([0xa4, 0x00, 0x00, 0x03] ++ [sample 1, sample 3, sample 2].flatMap (frame 64 0x02 0x03)))
      (List.replicate 9 0) (List.replicate 3 (.between 9 0x02 0x03 100)) =
    .ok ([frame 64 0x02 0x03 (sample 1), [0x02, 0x00, 0x03], frame 64 0x02 0x03 (sample 2)], 28) := by decide +kernel

example : accept 32 [.u16, .float] [frame 64 0x02 0x03 (sample 1), [0x02, 0x00, 0x03], frame 64 0x02 0x03 (sample 2)] =
    .ok [sample 1, sample 2] := by decide +kernel

/-- With equal bytes. -/
example : Esp.runCalls 20 (lineOf ([0x7e] ++ [sample 1, sample 3, sample 2].flatMap (frame 64 0x7e 0x7e)))
      (List.replicate 9 0) (List.replicate 3 (.between 9 0x7e 0x7e 100)) =
    .ok ([[0x7e, 0x7e], [0x7e, 0x7e], [0x7e, 0x7e]], 18) := by decide +kernel

end Verif.App.Telemetry
