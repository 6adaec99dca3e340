import Verif.Converter.Spec
import Verif.Text.Props
/-!
# C47-C50, C52: the converter
-/
namespace Verif.Converter
open Verif.Font Verif.Text Verif.Canvas Verif.FrameBuffer

/-! ## Bits -/

theorem byteBits_length (b : Byte) : (byteBits b).length = 8 := by simp [byteBits]

theorem byteBits_get (b : Byte) (i : Nat) (h : i < 8) : (byteBits b)[i]? = some (b.getMsbD i) := by
  unfold byteBits
  rw [List.getElem?_map, List.getElem?_range h]
  rfl

theorem byteBits_eq {b : Byte} {q : List Bool} (hl : q.length = 8) (h : ∀ i, i < 8 → q[i]? = some (b.getMsbD i)) :
    byteBits b = q := by
  apply List.ext_getElem?
  intro i
  by_cases hi : i < 8
  · rw [byteBits_get b i hi, h i hi]
  · rw [List.getElem?_eq_none (by rw [byteBits_length]; omega), List.getElem?_eq_none (by omega)]

/-- The bits waiting in the buffer are `p`. -/
structure Pending (s : BitStream) (p : List Bool) : Prop where
  count : p.length = s.bitCount
  lt : s.bitCount < 8
  buf : byteBits s.buffer = p ++ List.replicate (8 - s.bitCount) false

theorem Pending.get {s : BitStream} {p : List Bool} (h : Pending s p) (i : Nat) (hi : i < 8) :
    s.buffer.getMsbD i = (match p[i]? with | some b => b | none => false) := by
  have h1 := byteBits_get s.buffer i hi
  rw [h.buf] at h1
  by_cases hp : i < p.length
  · rw [List.getElem?_append_left hp] at h1
    rw [h1]
  · have hc := h.count
    rw [List.getElem?_append_right (by omega), List.getElem?_replicate, if_pos (by omega)] at h1
    rw [List.getElem?_eq_none (by omega)]
    exact (Option.some.inj h1).symm

theorem one_shift_bits : ∀ k < 8, ∀ i < 8, (1#8 <<< (7 - k)).getMsbD i = decide (i = k) := by decide

theorem getMsbD_putBit (b : Byte) (bit : Bool) (k i : Nat) (hk : k < 8) (hi : i < 8) :
    (if bit then b ||| (1#8 <<< (7 - k)) else b).getMsbD i = (b.getMsbD i || (bit && decide (i = k))) := by
  cases bit
  · simp
  · simp only [if_true, BitVec.getMsbD_or, one_shift_bits k hk i hi, Bool.true_and]

/-- One bit. -/
theorem putBit_ok {s : BitStream} {p : List Bool} (h : Pending s p) (bit : Bool) :
    ∃ s' p', s.putBit bit = .ok s' ∧ Pending s' p' ∧
      s'.out.flatMap byteBits ++ p' = s.out.flatMap byteBits ++ p ++ [bit] := by
  have hlt := h.lt
  have hc := h.count
  unfold BitStream.putBit
  rw [if_neg (by omega)]
  simp only
  have key : byteBits (if bit then s.buffer ||| (1#8 <<< (7 - s.bitCount)) else s.buffer) =
      p ++ [bit] ++ List.replicate (7 - s.bitCount) false := by
    apply byteBits_eq
    · simp only [List.length_append, List.length_cons, List.length_nil, List.length_replicate]; omega
    · intro i hi
      rw [getMsbD_putBit _ _ _ _ hlt hi, h.get i hi]
      by_cases h1 : i < p.length
      · rw [List.append_assoc, List.getElem?_append_left h1]
        have : decide (i = s.bitCount) = false := by simp; omega
        rw [this, List.getElem?_eq_getElem h1]
        simp
      · by_cases h2 : i = p.length
        · subst h2
          rw [hc]
          simp [hc]
        · rw [List.getElem?_append_right (by simp; omega)]
          rw [List.getElem?_replicate, if_pos (by simp; omega), List.getElem?_eq_none (show p.length ≤ i by omega)]
          have : decide (i = s.bitCount) = false := by simp; omega
          rw [this]
          simp
  split
  · rename_i h8
    refine ⟨_, [], rfl, ⟨rfl, by simp only; omega, by simp only; decide⟩, ?_⟩
    simp only [List.flatMap_append, List.flatMap_cons, List.flatMap_nil, List.append_nil, key]
    have : 7 - s.bitCount = 0 := by omega
    rw [this]
    simp
  · rename_i h8
    refine ⟨_, p ++ [bit], rfl, ⟨by simp; omega, by simp only; omega, ?_⟩, ?_⟩
    · simp only
      rw [key]
      have : 8 - (s.bitCount + 1) = 7 - s.bitCount := by omega
      rw [this]
    · simp only [List.append_assoc]

/-- One byte. -/
theorem putByte_ok {s : BitStream} {p : List Bool} (h : Pending s p) (b : Byte) :
    ∃ s' p', s.putByte b = .ok s' ∧ Pending s' p' ∧
      s'.out.flatMap byteBits ++ p' = s.out.flatMap byteBits ++ p ++ byteBits b := by
  have hlt := h.lt
  have hc := h.count
  unfold BitStream.putByte
  split
  · rename_i h0
    have hp : p = [] := List.eq_nil_of_length_eq_zero (by omega)
    subst hp
    refine ⟨_, [], rfl, ⟨h.count, h.lt, h.buf⟩, ?_⟩
    simp
  · rename_i h0
    rw [if_neg (by omega)]
    have k1 : byteBits (s.buffer ||| (b >>> s.bitCount)) = p ++ (byteBits b).take (8 - s.bitCount) := by
      apply byteBits_eq
      · rw [List.length_append, List.length_take, byteBits_length]; omega
      · intro i hi
        rw [BitVec.getMsbD_or, h.get i hi, BitVec.getMsbD_ushiftRight]
        by_cases h1 : i < p.length
        · rw [List.getElem?_append_left h1, List.getElem?_eq_getElem h1]
          have : decide (i < s.bitCount) = true := by simp; omega
          rw [this]; simp
        · rw [List.getElem?_append_right (by omega), List.getElem?_take, if_pos (by omega),
            byteBits_get _ _ (by omega), List.getElem?_eq_none (show p.length ≤ i by omega)]
          have : decide (i < s.bitCount) = false := by simp; omega
          rw [this, hc]
          simp [hi]
    have k2 : byteBits (b <<< (8 - s.bitCount)) = (byteBits b).drop (8 - s.bitCount) ++
        List.replicate (8 - s.bitCount) false := by
      apply byteBits_eq
      · rw [List.length_append, List.length_drop, byteBits_length, List.length_replicate]; omega
      · intro i hi
        rw [BitVec.getMsbD_shiftLeft]
        by_cases h1 : i < s.bitCount
        · rw [List.getElem?_append_left (by rw [List.length_drop, byteBits_length]; omega),
            List.getElem?_drop, byteBits_get _ _ (by omega), Nat.add_comm]
        · rw [List.getElem?_append_right (by rw [List.length_drop, byteBits_length]; omega),
            List.getElem?_replicate, if_pos (by rw [List.length_drop, byteBits_length]; omega)]
          rw [BitVec.getMsbD_of_ge _ _ (by omega)]
    refine ⟨_, (byteBits b).drop (8 - s.bitCount), rfl, ⟨?_, hlt, k2⟩, ?_⟩
    · rw [List.length_drop, byteBits_length]; simp only; omega
    · simp only [List.flatMap_append, List.flatMap_cons, List.flatMap_nil, List.append_nil, k1]
      rw [List.append_assoc, List.append_assoc, List.append_assoc, List.take_append_drop]

theorem writes_ok {s : BitStream} {p : List Bool} (h : Pending s p) (ws : List Write) :
    ∃ s' p', s.writes ws = .ok s' ∧ Pending s' p' ∧
      s'.out.flatMap byteBits ++ p' = s.out.flatMap byteBits ++ p ++ ws.flatMap Write.bits := by
  induction ws generalizing s p with
  | nil => exact ⟨s, p, rfl, h, by simp⟩
  | cons w ws ih =>
    cases w with
    | bit b =>
      obtain ⟨s1, p1, k1, k2, k3⟩ := putBit_ok h b
      obtain ⟨s2, p2, m1, m2, m3⟩ := ih k2
      refine ⟨s2, p2, by simp only [BitStream.writes, k1, Res.bind_ok, m1], m2, ?_⟩
      rw [m3, k3]
      simp [Write.bits]
    | byte b =>
      obtain ⟨s1, p1, k1, k2, k3⟩ := putByte_ok h b
      obtain ⟨s2, p2, m1, m2, m3⟩ := ih k2
      refine ⟨s2, p2, by simp only [BitStream.writes, k1, Res.bind_ok, m1], m2, ?_⟩
      rw [m3, k3]
      simp [Write.bits]

theorem flush_ok {s : BitStream} {p : List Bool} (h : Pending s p) :
    s.flush.bitCount = 0 ∧ s.flush.buffer = 0 ∧ ∃ pad, pad < 8 ∧
      s.flush.out.flatMap byteBits = s.out.flatMap byteBits ++ p ++ List.replicate pad false := by
  unfold BitStream.flush
  have hlt := h.lt
  split
  · refine ⟨rfl, rfl, 8 - s.bitCount, by omega, ?_⟩
    simp only [List.flatMap_append, List.flatMap_cons, List.flatMap_nil, List.append_nil, h.buf, List.append_assoc]
  · rename_i h0
    have h0' : s.bitCount = 0 := by omega
    have hp : p = [] := List.eq_nil_of_length_eq_zero (by rw [h.count]; exact h0')
    subst hp
    refine ⟨h0', ?_, 0, by omega, by simp⟩
    have := h.buf
    rw [h0'] at this
    apply BitVec.eq_of_getMsbD_eq
    intro i hi
    have e := byteBits_get s.buffer i hi
    rw [this, List.nil_append, List.getElem?_replicate, if_pos (by omega)] at e
    rw [← Option.some.inj e]
    simp

theorem pending_new : Pending BitStream.new [] := ⟨rfl, by decide, by decide⟩

/-- **C47**: any writes followed by a flush put out the written bits, most significant first, padded with
zero bits to a whole number of bytes. -/
theorem bitStream_exact (ws : List Write) :
    ∃ s, BitStream.new.writes ws = .ok s ∧ ∃ pad, pad < 8 ∧
      s.flush.out.flatMap byteBits = ws.flatMap Write.bits ++ List.replicate pad false := by
  obtain ⟨s, p, k1, k2, k3⟩ := writes_ok pending_new ws
  obtain ⟨_, _, pad, hp, k4⟩ := flush_ok k2
  refine ⟨s, k1, pad, hp, ?_⟩
  rw [k4, k3]
  simp [BitStream.new]

/-- The flushed stream is as new, but for the bytes put out: streams can be reused. -/
theorem bitStream_reusable (ws : List Write) :
    ∃ s, BitStream.new.writes ws = .ok s ∧ { s.flush with out := [] } = BitStream.new := by
  obtain ⟨s, p, k1, k2, _⟩ := writes_ok pending_new ws
  obtain ⟨h1, h2, _⟩ := flush_ok k2
  refine ⟨s, k1, ?_⟩
  cases hs : s.flush with
  | mk c b o =>
    rw [hs] at h1 h2
    simp only at h1 h2
    rw [h1, h2]
    rfl

example : (do let s ← BitStream.new.writes [.bit true, .byte 0xA5, .bit true, .bit false]; .ok s.flush.out) =
    .ok [0xD2, 0xE0 - 0x20] := by decide

/-! ## Packing a raster -/

theorem flatMap_bits_length (bs : List Byte) : (bs.flatMap byteBits).length = 8 * bs.length := by
  induction bs with
  | nil => rfl
  | cons b bs ih => rw [List.flatMap_cons, List.length_append, ih, byteBits_length, List.length_cons]; omega

/-- Bit `k` of a byte sequence. -/
theorem flatMap_bits_get (bs : List Byte) (k : Nat) :
    (bs.flatMap byteBits)[k]? = (match bs[k / 8]? with | some b => some (b.getLsbD (7 - k % 8)) | none => none) := by
  induction bs generalizing k with
  | nil => simp
  | cons b bs ih =>
    rw [List.flatMap_cons]
    by_cases hk : k < 8
    · rw [List.getElem?_append_left (by rw [byteBits_length]; exact hk), byteBits_get _ _ hk]
      have : k / 8 = 0 := by omega
      have h2 : k % 8 = k := by omega
      rw [this, h2]
      simp only [List.getElem?_cons_zero]
      rw [BitVec.getMsbD_eq_getLsbD]
      simp [hk]
    · rw [List.getElem?_append_right (by rw [byteBits_length]; omega), byteBits_length, ih]
      have : k / 8 = (k - 8) / 8 + 1 := by omega
      have h2 : k % 8 = (k - 8) % 8 := by omega
      rw [this, h2, List.getElem?_cons_succ]

/-- The bits of a raster row. -/
def rowBits (r : Rendered) (y x n : Nat) : List Bool := (List.range' x n).map (r.isSet · y)

/-- The bits of raster rows. -/
def rasterBits (r : Rendered) (y n : Nat) : List Bool := (List.range' y n).flatMap (fun y => rowBits r y 0 r.width)

theorem read_ok {r : Rendered} {pitch : Nat} (h : r.WF pitch) (x y : Nat) (hx : x < r.width) (hy : y < r.rows) :
    r.read x y = .ok (r.isSet x y) := by
  have h1 : (y + 1) * pitch ≤ r.rows * pitch := Nat.mul_le_mul_right _ hy
  rw [Nat.add_mul, Nat.one_mul] at h1
  have hrow := h.row
  have hin := h.inside
  have hsz := h.size
  have hlt : y * pitch + x / 8 < r.buffer.length := by omega
  unfold Rendered.read Rendered.isSet
  rw [h.pitch_eq]
  have e : (((y : Int) * (pitch : Nat) + (x : Int) / 8) % 2 ^ 32).toNat = y * pitch + x / 8 := by
    have e1 : ((y : Int) * (pitch : Nat) + (x : Int) / 8) = ((y * pitch + x / 8 : Nat) : Int) := by push_cast; rfl
    rw [e1]
    generalize y * pitch + x / 8 = t at hlt
    omega
  rw [e, Int.toNat_natCast, List.getElem?_eq_getElem hlt]
  simp only [Res.ofOption_some, Res.bind_ok]
  congr 1
  generalize r.buffer[y * pitch + x / 8] = b
  by_cases hb : b &&& (0x80#8 >>> (x % 8)) ≠ 0#8
  · rw [(bit_test b _ (Nat.mod_lt _ (by decide))).1 hb]
    exact decide_eq_true hb
  · have : ¬ b.getLsbD (7 - x % 8) = true := fun hh => hb ((bit_test b _ (Nat.mod_lt _ (by decide))).2 hh)
    rw [Bool.not_eq_true] at this
    rw [this]
    exact decide_eq_false hb

theorem packRow_ok {r : Rendered} {pitch : Nat} (h : r.WF pitch) (y : Nat) (hy : y < r.rows) (n x : Nat)
    (hx : x + n = r.width) {s : BitStream} {p : List Bool} (hp : Pending s p) :
    ∃ s' p', packRow r y x n s = .ok s' ∧ Pending s' p' ∧
      s'.out.flatMap byteBits ++ p' = s.out.flatMap byteBits ++ p ++ rowBits r y x n := by
  induction n generalizing x s p with
  | zero => exact ⟨s, p, rfl, hp, by simp [rowBits]⟩
  | succ n ih =>
    obtain ⟨s1, p1, k1, k2, k3⟩ := putBit_ok hp (r.isSet x y)
    obtain ⟨s2, p2, m1, m2, m3⟩ := ih (x + 1) (by omega) k2
    refine ⟨s2, p2, ?_, m2, ?_⟩
    · unfold packRow
      rw [read_ok h x y (by omega) hy]
      simp only [Res.bind_ok, k1, m1]
    · rw [m3, k3]
      simp only [rowBits, List.range'_succ, List.map_cons, List.append_assoc, List.cons_append, List.nil_append]

theorem packRows_ok {r : Rendered} {pitch : Nat} (h : r.WF pitch) (n y : Nat) (hy : y + n = r.rows)
    {s : BitStream} {p : List Bool} (hp : Pending s p) :
    ∃ s' p', packRows r y n s = .ok s' ∧ Pending s' p' ∧
      s'.out.flatMap byteBits ++ p' = s.out.flatMap byteBits ++ p ++ rasterBits r y n := by
  induction n generalizing y s p with
  | zero => exact ⟨s, p, rfl, hp, by simp [rasterBits]⟩
  | succ n ih =>
    obtain ⟨s1, p1, k1, k2, k3⟩ := packRow_ok h y (by omega) r.width 0 (by omega) hp
    obtain ⟨s2, p2, m1, m2, m3⟩ := ih (y + 1) (by omega) k2
    refine ⟨s2, p2, ?_, m2, ?_⟩
    · unfold packRows
      simp only [Res.bind_ok, k1, m1]
    · rw [m3, k3]
      simp only [rasterBits, List.range'_succ, List.flatMap_cons, List.append_assoc]

theorem rasterBits_length (r : Rendered) (y n : Nat) : (rasterBits r y n).length = n * r.width := by
  induction n generalizing y with
  | zero => simp [rasterBits]
  | succ n ih =>
    have : rasterBits r y (n + 1) = rowBits r y 0 r.width ++ rasterBits r (y + 1) n := by
      simp only [rasterBits, List.range'_succ, List.flatMap_cons]
    rw [this, List.length_append, ih, Nat.add_mul]
    simp only [rowBits, List.length_map, List.length_range']
    omega

theorem rasterBits_get (r : Rendered) (y n i j : Nat) (hi : i < r.width) (hj : j < n) :
    (rasterBits r y n)[i + j * r.width]? = some (r.isSet i (y + j)) := by
  induction n generalizing y j with
  | zero => omega
  | succ n ih =>
    have : rasterBits r y (n + 1) = rowBits r y 0 r.width ++ rasterBits r (y + 1) n := by
      simp only [rasterBits, List.range'_succ, List.flatMap_cons]
    have hl : (rowBits r y 0 r.width).length = r.width := by simp [rowBits]
    rw [this]
    cases j with
    | zero =>
      rw [List.getElem?_append_left (by rw [hl]; omega)]
      simp only [Nat.zero_mul, Nat.add_zero, rowBits, List.getElem?_map]
      rw [List.getElem?_range' hi]
      simp
    | succ j =>
      have e : i + (j + 1) * r.width = r.width + (i + j * r.width) := by
        rw [Nat.add_mul, Nat.one_mul]; omega
      rw [e, List.getElem?_append_right (by rw [hl]; omega), hl]
      have e2 : r.width + (i + j * r.width) - r.width = i + j * r.width := by omega
      rw [e2, ih (y + 1) j (by omega)]
      congr 2
      omega

/-- The data made from one rendered glyph: the metrics and the packed raster. -/
structure Packs (r : Rendered) (d : GlyphData) : Prop where
  size : d.bitmapData.length = bitmapBytes r.width r.rows
  bits : ∀ i j, i < r.width → j < r.rows → glyphBit d.bitmapData 0 r.width i j = r.isSet i j
  descr : d.descriptor = ⟨BitVec.ofNat 16 d.bitmapData.length, BitVec.ofNat 8 r.width, BitVec.ofNat 8 r.rows,
    BitVec.ofInt 8 (r.advance / 65536), BitVec.ofInt 8 r.left, BitVec.ofInt 8 (1 - r.top)⟩

theorem convertGlyph_ok {r : Rendered} {pitch : Nat} (h : r.WF pitch) :
    ∃ d, convertGlyph r BitStream.new = .ok (d, BitStream.new) ∧ Packs r d := by
  obtain ⟨s, p, k1, k2, k3⟩ := packRows_ok h r.rows 0 (by omega) pending_new
  obtain ⟨f1, f2, pad, hp, f3⟩ := flush_ok k2
  unfold convertGlyph
  rw [k1]
  simp only [Res.bind_ok]
  rw [k3] at f3
  simp only [BitStream.new, List.flatMap_nil, List.nil_append] at f3
  have hnew : { s.flush with out := [] } = BitStream.new := by
    cases hs : s.flush with
    | mk c b o =>
      rw [hs] at f1 f2
      simp only at f1 f2
      rw [f1, f2]
      rfl
  have hlen : s.flush.out.length = bitmapBytes r.width r.rows := by
    have := congrArg List.length f3
    rw [flatMap_bits_length, List.length_append, rasterBits_length, List.length_replicate] at this
    unfold bitmapBytes
    rw [Nat.mul_comm r.width]
    omega
  refine ⟨_, by rw [hnew], hlen, ?_, rfl⟩
  intro i j hi hj
  have e := rasterBits_get r 0 r.rows i j hi hj
  have hk : i + j * r.width < (rasterBits r 0 r.rows).length := by
    by_contra hc
    rw [List.getElem?_eq_none (by omega)] at e
    cases e
  have e2 := flatMap_bits_get s.flush.out (i + j * r.width)
  rw [f3, List.getElem?_append_left hk, e] at e2
  unfold glyphBit
  simp only [Nat.zero_add] at e2 ⊢
  cases hb : s.flush.out[(i + j * r.width) / 8]? with
  | none => rw [hb] at e2; cases e2
  | some b =>
    rw [hb] at e2
    exact (Option.some.inj e2).symm

/-- All glyphs are packed. -/
theorem convertAll_ok (rs : List Rendered) (h : ∀ r ∈ rs, ∃ pitch, r.WF pitch) :
    ∃ ds, convertAll rs BitStream.new = .ok ds ∧ ds.length = rs.length ∧
      ∀ (n : Nat) r, rs[n]? = some r → ∃ d, ds[n]? = some d ∧ Packs r d := by
  induction rs with
  | nil => exact ⟨[], rfl, rfl, by simp⟩
  | cons r rs ih =>
    obtain ⟨pitch, hr⟩ := h r (List.mem_cons_self ..)
    obtain ⟨d, k1, k2⟩ := convertGlyph_ok hr
    obtain ⟨ds, m1, m2, m3⟩ := ih (fun r hr => h r (List.mem_cons_of_mem _ hr))
    refine ⟨d :: ds, ?_, by simp [m2], ?_⟩
    · unfold convertAll
      rw [k1]; simp only [Res.bind_ok]
      rw [m1]; rfl
    · intro n r' hn
      cases n with
      | zero =>
        simp only [List.getElem?_cons_zero, Option.some.injEq] at hn
        subst hn
        exact ⟨d, rfl, k2⟩
      | succ n =>
        rw [List.getElem?_cons_succ] at hn ⊢
        exact m3 n r' hn

/-! ## C49: offsets -/

theorem binaryGlyphs_get (o : BitVec 16) (ds : List GlyphData) (n : Nat) (d : GlyphData) (h : ds[n]? = some d) :
    (binaryGlyphs o ds)[n]? = some { d.descriptor with
      bitmapOffset := o + BitVec.ofNat 16 (bitmapsFile (ds.take n)).length } := by
  induction ds generalizing o n with
  | nil => simp at h
  | cons a ds ih =>
    cases n with
    | zero =>
      simp only [List.getElem?_cons_zero, Option.some.injEq] at h
      subst h
      simp [binaryGlyphs, bitmapsFile]
    | succ n =>
      rw [List.getElem?_cons_succ] at h
      simp only [binaryGlyphs, List.getElem?_cons_succ]
      rw [ih _ n h]
      simp only [bitmapsFile, List.take_succ_cons, List.flatMap_cons, List.length_append]
      rw [BitVec.ofNat_add, BitVec.add_assoc]

theorem bitmapsFile_split (ds : List GlyphData) (n : Nat) (d : GlyphData) (h : ds[n]? = some d) :
    bitmapsFile ds = bitmapsFile (ds.take n) ++ d.bitmapData ++ bitmapsFile (ds.drop (n + 1)) := by
  have hl : n < ds.length := (List.getElem?_eq_some_iff.1 h).1
  have e : ds = ds.take n ++ d :: ds.drop (n + 1) := by
    have := List.getElem?_eq_some_iff.1 h
    rw [← this.2, ← List.drop_eq_getElem_cons hl, List.take_append_drop]
  conv => lhs; rw [e]
  simp only [bitmapsFile, List.flatMap_append, List.flatMap_cons, List.append_assoc]

/-- **C49** (binary format): the offset written for a glyph is the total size of the bitmaps before it, and its
bytes are found there, if these take less than 65536 bytes. -/
theorem binary_offsets (ds : List GlyphData) (n : Nat) (d : GlyphData) (h : ds[n]? = some d)
    (hs : (bitmapsFile (ds.take n)).length < 65536) :
    ∃ g, (binaryGlyphs 0 ds)[n]? = some g ∧ g = { d.descriptor with bitmapOffset := g.bitmapOffset } ∧
      g.bitmapOffset.toNat = ((ds.take n).map (fun d => d.bitmapData.length)).sum ∧
      ((bitmapsFile ds).drop g.bitmapOffset.toNat).take d.bitmapData.length = d.bitmapData := by
  have e := binaryGlyphs_get 0 ds n d h
  have hn : (0 + BitVec.ofNat 16 (bitmapsFile (ds.take n)).length).toNat = (bitmapsFile (ds.take n)).length := by
    have h0 : ∀ x : BitVec 16, 0 + x = x := by intro x; exact BitVec.zero_add x
    rw [h0, BitVec.toNat_ofNat]
    exact Nat.mod_eq_of_lt hs
  refine ⟨_, e, rfl, ?_, ?_⟩
  · simp only
    rw [hn]
    simp only [bitmapsFile, List.length_flatMap]
  · simp only
    rw [hn, bitmapsFile_split ds n d h, List.append_assoc, List.drop_left' rfl, List.take_left' rfl]

/-- **C49** (binary format), beyond: the offset wraps, so that the glyph is not found at it. -/
theorem binary_offset_wraps (ds : List GlyphData) (n : Nat) (d : GlyphData) (h : ds[n]? = some d)
    (hs : 65536 ≤ (bitmapsFile (ds.take n)).length) :
    ∃ g, (binaryGlyphs 0 ds)[n]? = some g ∧
      g.bitmapOffset.toNat = (bitmapsFile (ds.take n)).length % 65536 ∧
      g.bitmapOffset.toNat < (bitmapsFile (ds.take n)).length := by
  have e := binaryGlyphs_get 0 ds n d h
  have h0 : ∀ x : BitVec 16, 0 + x = x := by intro x; exact BitVec.zero_add x
  refine ⟨_, e, ?_, ?_⟩
  · simp only; rw [h0, BitVec.toNat_ofNat]
  · simp only; rw [h0, BitVec.toNat_ofNat]; omega

/-- The glyphs file can be read back. -/
theorem glyphsFile_reads (gs : List Glyph) : readGlyphs (gs.flatMap glyphBytes) = some gs := by
  induction gs with
  | nil => rfl
  | cons g gs ih =>
    rw [List.flatMap_cons]
    simp only [glyphBytes, List.cons_append, List.nil_append, readGlyphs]
    rw [ih]
    have : BitVec.ofNat 16 ((g.bitmapOffset.setWidth 8).toNat + 256 * ((g.bitmapOffset >>> 8).setWidth 8).toNat) =
        g.bitmapOffset := by
      apply BitVec.eq_of_toNat_eq
      rw [BitVec.toNat_ofNat, BitVec.toNat_setWidth, BitVec.toNat_setWidth, BitVec.toNat_ushiftRight]
      have := g.bitmapOffset.isLt
      rw [Nat.shiftRight_eq_div_pow]
      omega
    show some _ = some _
    rw [this]

/-! ## C50: character order -/

/-- The codes converted, for both kinds of fonts. -/
theorem codes_ascii : codes 0x20 0x7E = List.range' 0x20 95 := by decide +kernel
theorem codes_8bit : codes 0x20 0xFF = List.range' 0x20 95 ++ List.range' 0xA0 96 := by decide +kernel

/-- **C50**: the glyph of a repertoire character is at the index at which `getBitmap` looks it up. -/
theorem codes_order (last : Nat) (hl : last = 0x7E ∨ last = 0xFF) (code : Nat) (hr : inRepertoire code)
    (hc : code ≤ last) : (codes 0x20 last)[ordinal code - ordinal 0x20]? = some code := by
  have h0 : ordinal 0x20 = 0 := rfl
  rw [h0, Nat.sub_zero]
  unfold inRepertoire at hr
  unfold ordinal
  rcases hl with rfl | rfl
  · rw [codes_ascii, if_pos (by omega), List.getElem?_range' (by omega)]
    congr 1
    omega
  · rw [codes_8bit]
    split
    · rw [List.getElem?_append_left (by rw [List.length_range']; omega), List.getElem?_range' (by omega)]
      congr 1
      omega
    · rw [List.getElem?_append_right (by rw [List.length_range']; omega), List.length_range',
        List.getElem?_range' (by omega), Option.some.injEq]
      omega

/-- **C50**: exactly the repertoire is converted, each character once. -/
theorem codes_exact (last : Nat) (hl : last = 0x7E ∨ last = 0xFF) (code : Nat) :
    code ∈ codes 0x20 last ↔ inRepertoire code ∧ code ≤ last := by
  unfold inRepertoire
  rcases hl with rfl | rfl
  · rw [codes_ascii, List.mem_range'_1]; omega
  · rw [codes_8bit, List.mem_append, List.mem_range'_1, List.mem_range'_1]; omega

theorem codes_nodup (last : Nat) (hl : last = 0x7E ∨ last = 0xFF) : (codes 0x20 last).Nodup := by
  rcases hl with rfl | rfl <;> decide +kernel

/-- **C50** as seen by `getBitmap`: in a font made of the converted glyphs the character `b` is looked up at
the index of its code. -/
theorem lookup_agrees (signed : Bool) (f : Font) (b : Byte) (last : Nat) (hl : last = 0x7E ∨ last = 0xFF)
    (hf : f.first = 0x20) (hfl : f.last.toNat = last) (hs : signed = false ∨ b.toNat < 128)
    (hr : inRepertoire b.toNat) (hb : b.toNat ≤ last) :
    ∃ n : Nat, (codes 0x20 last)[n]? = some b.toNat ∧ lookup signed f b = lookupAt f n := by
  refine ⟨ordinal b.toNat - ordinal 0x20, codes_order last hl _ hr hb, ?_⟩
  have h20 : f.first.toNat = 0x20 := by rw [hf]; rfl
  have := lookup_eq (f := f) hs (by rw [h20]; unfold inRepertoire at hr; omega) (by omega) hr
    (by rw [h20]; unfold inRepertoire; omega)
  rw [h20] at this
  exact this

end Verif.Converter
