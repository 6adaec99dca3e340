import Verif.Converter.Props
import Mathlib.Data.List.Nodup
/-!
# C48: a converted glyph draws as rendered; C52: encoding conversion
-/
namespace Verif.Converter
open Verif.Font Verif.Text Verif.Canvas Verif.FrameBuffer

/-! ## C48 -/

/-- The font made from a table of converted glyphs (binary format, characters from blank to `last`). -/
def fontOf (ds : List GlyphData) (last : BitVec 8) : Font := ⟨bitmapsFile ds, binaryGlyphs 0 ds, 0x20, last⟩

theorem binaryGlyphs_length (o : BitVec 16) (ds : List GlyphData) : (binaryGlyphs o ds).length = ds.length := by
  induction ds generalizing o with
  | nil => rfl
  | cons d ds ih => simp only [binaryGlyphs, List.length_cons, ih]

theorem paints_congr {c : Canvas} {g : Geom} {fb fb' : FB} {S T : Pt → Prop} (h : Paints c g fb fb' S)
    (hst : ∀ p, S p ↔ T p) : Paints c g fb fb' T :=
  ⟨fun p hp ht => h.inside p hp ((hst p).2 ht), fun p hp ht => h.outside p hp (fun hs => ht ((hst p).1 hs)),
    h.sel, h.len⟩

theorem toInt_ofInt8 (v : Int) (h : -128 ≤ v ∧ v ≤ 127) : (BitVec.ofInt 8 v).toInt = v := by
  rw [BitVec.toInt_ofInt]
  unfold Int.bmod
  norm_num
  split <;> omega

theorem toNat_ofInt8 (v : Int) (h : 0 ≤ v ∧ v < 256) : ((BitVec.ofInt 8 v).toNat : Int) = v := by
  rw [BitVec.toNat_ofInt]
  norm_num
  omega

theorem glyphBit_shift (pre bm post : List Byte) (w i j : Nat) (h : (i + j * w) / 8 < bm.length) :
    glyphBit (pre ++ bm ++ post) pre.length w i j = glyphBit bm 0 w i j := by
  unfold glyphBit
  rw [List.append_assoc, List.getElem?_append_right (by omega), Nat.zero_add]
  have : pre.length + (i + j * w) / 8 - pre.length = (i + j * w) / 8 := by omega
  rw [this, List.getElem?_append_left h]

/-- **C48**: the rendered glyphs of all characters, converted to a font, draw as rendered: drawing the
character of glyph `n` paints exactly the set pixels of its raster, at the rendered position, and returns
the rendered advance.  For every raster size, content and pitch; partial because of the last glyph, which
cannot be drawn (`last_glyph_ub`), and for 8-bit characters `char` must be unsigned. -/
theorem converted_glyph_draws_partial (rs : List Rendered) (last : BitVec 8)
    (hl : last.toNat = 0x7E ∨ last.toNat = 0xFF)
    (hlen : rs.length = (codes 0x20 last.toNat).length) (hwf : ∀ r ∈ rs, (∃ pitch, r.WF pitch) ∧ r.Fits)
    (hsize : (rs.map fun r => bitmapBytes r.width r.rows).sum < 65536) :
    ∃ ds, convertAll rs BitStream.new = .ok ds ∧
      ∀ (c : Canvas) (g : Geom) (fb : FB) (signed : Bool) (pos : Pt) (b : Byte) (n : Nat) (r : Rendered),
        Ready c g fb → SmallPt pos → (signed = false ∨ b.toNat < 128) →
        (codes 0x20 last.toNat)[n]? = some b.toNat → rs[n]? = some r → n + 1 < rs.length →
        ∃ fb', drawCharAt c g fb signed (fontOf ds last) pos b = .ok (fb', r.advance / 65536) ∧
          Paints c g fb fb' (fun p => ∃ x y : Nat, x < r.width ∧ y < r.rows ∧ r.isSet x y = true ∧
            p = ⟨pos.x + r.left + x, pos.y + (1 - r.top) + y⟩) := by
  obtain ⟨ds, k1, k2, k3⟩ := convertAll_ok rs (fun r hr => (hwf r hr).1)
  refine ⟨ds, k1, ?_⟩
  intro c g fb signed pos b n r hready hpos hs hcode hn hlast
  obtain ⟨d, d1, d2⟩ := k3 n r hn
  have hfit := (hwf r (List.mem_of_getElem? hn)).2
  -- sizes
  have hmap : ds.map (fun d => d.bitmapData.length) = rs.map (fun r => bitmapBytes r.width r.rows) := by
    apply List.ext_getElem?
    intro m
    rw [List.getElem?_map, List.getElem?_map]
    cases hm : rs[m]? with
    | none =>
      have := List.getElem?_eq_none_iff.1 hm
      rw [List.getElem?_eq_none (by omega)]
      rfl
    | some r' =>
      obtain ⟨d', e1, e2⟩ := k3 m r' hm
      rw [e1]
      simp only [Option.map_some, e2.size]
  have htotal : (bitmapsFile ds).length < 65536 := by
    simp only [bitmapsFile, List.length_flatMap]
    rw [hmap]; exact hsize
  have hsplit := bitmapsFile_split ds n d d1
  have hpre : (bitmapsFile (ds.take n)).length + d.bitmapData.length ≤ (bitmapsFile ds).length := by
    rw [hsplit]; simp only [List.length_append]; omega
  have hg := binaryGlyphs_get 0 ds n d d1
  have hoff : (0 + BitVec.ofNat 16 (bitmapsFile (ds.take n)).length).toNat = (bitmapsFile (ds.take n)).length := by
    have h0 : ∀ x : BitVec 16, 0 + x = x := fun x => BitVec.zero_add x
    rw [h0, BitVec.toNat_ofNat]
    exact Nat.mod_eq_of_lt (by omega)
  rw [d2.descr] at hg
  simp only at hg
  -- the index
  have hrange := (codes_exact last.toNat hl b.toNat).1 (List.mem_of_getElem? hcode)
  have hidx : ordinal b.toNat - ordinal (0x20 : BitVec 8).toNat = n := by
    have e := codes_order last.toNat hl b.toNat hrange.1 hrange.2
    have hnd := codes_nodup last.toNat hl
    have h1 := (List.getElem?_eq_some_iff.1 hcode)
    have h2 := (List.getElem?_eq_some_iff.1 e)
    exact (List.Nodup.getElem_inj_iff hnd).1 (h2.2.trans h1.2.symm)
  -- the descriptor
  have hw : (BitVec.ofNat 8 r.width).toNat = r.width := by
    rw [BitVec.toNat_ofNat]; exact Nat.mod_eq_of_lt hfit.width
  have hh : (BitVec.ofNat 8 r.rows).toNat = r.rows := by
    rw [BitVec.toNat_ofNat]; exact Nat.mod_eq_of_lt hfit.rows
  have hadv := toNat_ofInt8 _ hfit.advance
  have hleft := toInt_ofInt8 _ hfit.left
  have htop := toInt_ofInt8 _ hfit.top
  have h20 : (0x20 : BitVec 8).toNat = 0x20 := rfl
  have hrep := hrange.1
  obtain ⟨fb', q1, q2⟩ := drawCharAt_glyph_partial c g fb hready signed (fontOf ds last) pos hpos b hs
    (by show (0x20 : BitVec 8).toNat ≤ _; rw [h20]; unfold inRepertoire at hrep; omega)
    hrange.2 hrep (by show inRepertoire (0x20 : BitVec 8).toNat ∧ (0x20 : BitVec 8).toNat ≤ _; rw [h20]; unfold inRepertoire; omega)
    _ (by show (binaryGlyphs 0 ds)[ordinal b.toNat - ordinal (0x20 : BitVec 8).toNat]? = _; rw [hidx]; exact hg)
    (by show ordinal b.toNat - ordinal (0x20 : BitVec 8).toNat + 1 < (binaryGlyphs 0 ds).length
        rw [hidx, binaryGlyphs_length, k2]; exact hlast)
    (by
      show BitVec.toNat _ + bitmapBytes (BitVec.toNat _) (BitVec.toNat _) ≤ (bitmapsFile ds).length
      rw [hoff, hw, hh, ← d2.size]; exact hpre)
  refine ⟨fb', by rw [q1, hadv], ?_⟩
  refine paints_congr q2 (fun p => ?_)
  simp only [hoff, hw, hh, hleft, htop]
  have hbits : ∀ x y, x < r.width → y < r.rows →
      glyphBit (fontOf ds last).bitmap (bitmapsFile (ds.take n)).length r.width x y = r.isSet x y := by
    intro x y hx hy
    show glyphBit (bitmapsFile ds) _ _ _ _ = _
    rw [hsplit, glyphBit_shift, d2.bits x y hx hy]
    have h1 : (y + 1) * r.width ≤ r.rows * r.width := Nat.mul_le_mul_right _ hy
    rw [Nat.add_mul, Nat.one_mul] at h1
    rw [d2.size]
    unfold bitmapBytes
    rw [Nat.mul_comm r.width]
    omega
  constructor
  · rintro ⟨x, y, h1, h2, h3, h4⟩
    exact ⟨x, y, h1, h2, by rw [← hbits x y h1 h2]; exact h3, h4⟩
  · rintro ⟨x, y, h1, h2, h3, h4⟩
    exact ⟨x, y, h1, h2, by rw [hbits x y h1 h2]; exact h3, h4⟩

/-- The hypotheses are met, for example, by a font all of whose characters are a 3 × 2 raster. -/
def blob : Rendered := ⟨2, 3, 2, [0xA0, 0xFF, 0x40, 0xFF], 1, 2, 4 * 65536⟩

theorem blob_ok : (∃ pitch, blob.WF pitch) ∧ blob.Fits := by
  refine ⟨⟨2, ?_, ?_, ?_, ?_⟩, ?_, ?_, ?_, ?_, ?_⟩ <;> decide

example : ∀ r ∈ List.replicate 95 blob, (∃ pitch, r.WF pitch) ∧ r.Fits := by
  intro r hr
  rw [List.eq_of_mem_replicate hr]
  exact blob_ok

example : (List.replicate 95 blob).length = (codes 0x20 0x7E).length ∧
    ((List.replicate 95 blob).map fun r => bitmapBytes r.width r.rows).sum < 65536 := by
  rw [codes_ascii]
  decide +kernel

/-! ## C52 -/

/-- The state of an encoding converter is in bounds. -/
def Enc.InBounds (e : Enc) : Prop := e.buf.length = 4 ∧ e.inSize ≤ 2

theorem input_ok {e : Enc} (h : e.InBounds) (c : Byte) :
    ∃ e', e.input c = .ok (e', (e.buf.take e.inSize) ++ [c]) ∧ e'.InBounds ∧ e'.inSize = e.inSize ∧
      e'.buf.take (e.inSize + 1) = e.buf.take e.inSize ++ [c] := by
  obtain ⟨h1, h2⟩ := h
  have hlt : e.inSize < e.buf.length := by omega
  have ht : (e.buf.set e.inSize c).take (e.inSize + 1) = e.buf.take e.inSize ++ [c] := by
    rw [List.take_set, List.take_succ_eq_append_getElem hlt, List.set_append_right _ _ (by simp)]
    congr 1
    simp [List.length_take, Nat.min_eq_left (Nat.le_of_lt hlt)]
  refine ⟨{ e with buf := e.buf.set e.inSize c }, ?_, ⟨by simp [h1], h2⟩, rfl, ht⟩
  unfold Enc.input
  rw [if_pos hlt]
  simp only
  rw [Nat.add_comm, ht]

/-- **C52**: whatever `iconv` answers, every call is defined and the state stays in bounds. -/
theorem convertRaw_in_bounds {σ : Type} (iconv : σ → List Byte → Answer × σ) (e : Enc) (t : σ) (h : e.InBounds)
    (c : Byte) : ∃ v e' t', Enc.convertRaw iconv (e, t) c = .ok (v, e', t') ∧ e'.InBounds := by
  obtain ⟨e', k1, k2, k3, _⟩ := input_ok h c
  unfold Enc.convertRaw
  rw [k1]
  simp only [Res.bind_ok]
  cases iconv t (e.buf.take e.inSize ++ [c]) with
  | mk a t' =>
    cases a with
    | done out => exact ⟨_, e', t', rfl, k2⟩
    | incomplete => exact ⟨_, _, t', rfl, k2.1, by simp only; omega⟩
    | failed => exact ⟨_, _, t', rfl, k2.1, by simp⟩

/-- **C52**: the same for `convert`. -/
theorem convert_in_bounds {σ : Type} (iconv : σ → List Byte → Answer × σ) (e : Enc) (t : σ) (h : e.InBounds)
    (c : Byte) : ∃ v e' t', Enc.convert iconv (e, t) c = .ok (v, e', t') ∧ e'.InBounds := by
  obtain ⟨e', k1, k2, k3, _⟩ := input_ok h c
  unfold Enc.convert
  rw [k1]
  simp only [Res.bind_ok]
  cases iconv t (e.buf.take e.inSize ++ [c]) with
  | mk a t' =>
    cases a with
    | done out => exact ⟨_, e', t', rfl, k2⟩
    | incomplete => exact ⟨_, _, t', rfl, k2.1, by simp only; omega⟩
    | failed => exact ⟨_, _, t', rfl, k2.1, by simp⟩

/-- **C52**: every history of calls on a new converter is defined. -/
theorem convert_history_ok {σ : Type} (iconv : σ → List Byte → Answer × σ) (t : σ) (cs : List Byte) :
    ∃ vs e' t', Enc.run iconv (Enc.new, t) cs = .ok (vs, e', t') ∧ vs.length = cs.length ∧ e'.InBounds := by
  have main : ∀ (e : Enc) (t : σ), e.InBounds →
      ∃ vs e' t', Enc.run iconv (e, t) cs = .ok (vs, e', t') ∧ vs.length = cs.length ∧ e'.InBounds := by
    induction cs with
    | nil => intro e t h; exact ⟨[], e, t, rfl, rfl, h⟩
    | cons c cs ih =>
      intro e t h
      obtain ⟨v, e1, t1, k1, k2⟩ := convertRaw_in_bounds iconv e t h c
      obtain ⟨vs, e2, t2, m1, m2, m3⟩ := ih e1 t1 k2
      refine ⟨v :: vs, e2, t2, ?_, by simp [m2], m3⟩
      unfold Enc.run
      rw [k1]; simp only [Res.bind_ok]
      rw [m1]; rfl
  exact main _ t ⟨rfl, by decide⟩

/-- What a call returns for an answer of a stateless `iconv`. -/
def answerValue : Answer → Nat
  | .done out => rawResult out
  | _ => 0

/-- **C52**: if a (stateless) `iconv` never reports an incomplete sequence, as for single-byte encodings, the
value of each call is the conversion of its own argument, whatever came before. -/
theorem convert_stateless (conv : List Byte → Answer) (hc : ∀ c, conv [c] ≠ .incomplete) (cs : List Byte) :
    ∃ e', Enc.run (fun (_ : Unit) bs => (conv bs, ())) (Enc.new, ()) cs =
      .ok (cs.map (fun c => answerValue (conv [c])), e', ()) := by
  have main : ∀ e : Enc, e.InBounds → e.inSize = 0 →
      ∃ e', Enc.run (fun (_ : Unit) bs => (conv bs, ())) (e, ()) cs =
        .ok (cs.map (fun c => answerValue (conv [c])), e', ()) := by
    induction cs with
    | nil => intro e _ _; exact ⟨e, rfl⟩
    | cons c cs ih =>
      intro e h h0
      obtain ⟨e', k1, k2, k3, _⟩ := input_ok h c
      rw [h0, List.take_zero, List.nil_append] at k1
      have key : ∃ e1 : Enc, Enc.convertRaw (fun (_ : Unit) bs => (conv bs, ())) (e, ()) c =
          .ok (answerValue (conv [c]), e1, ()) ∧ e1.InBounds ∧ e1.inSize = 0 := by
        unfold Enc.convertRaw
        rw [k1]
        simp only [Res.bind_ok]
        cases ha : conv [c] with
        | done out => exact ⟨e', rfl, k2, by omega⟩
        | incomplete => exact absurd ha (hc c)
        | failed => exact ⟨_, rfl, ⟨k2.1, by simp⟩, rfl⟩
      obtain ⟨e1, m1, m2, m3⟩ := key
      obtain ⟨e2, n1⟩ := ih e1 m2 m3
      refine ⟨e2, ?_⟩
      unfold Enc.run
      rw [m1]; simp only [Res.bind_ok]
      rw [n1]; rfl
  exact main _ ⟨rfl, by decide⟩ rfl

/-- The answer of `iconv` for a symbol with this code point: UCS-4LE, least significant byte first. -/
def ucs4le (code : Option (BitVec 32)) : Answer :=
  match code with
  | some v => .done [BitVec.ofNat 8 v.toNat, BitVec.ofNat 8 (v.toNat / 256), BitVec.ofNat 8 (v.toNat / 65536),
      BitVec.ofNat 8 (v.toNat / 16777216)]
  | none => .failed

/-- **C52**: for a single-byte encoding the calls deliver the code points of their arguments, 0 for symbols the encoding
does not define. -/
theorem convert_code_points (table : Byte → Option (BitVec 32)) (conv : List Byte → Answer)
    (hc : ∀ c, conv [c] = ucs4le (table c)) (cs : List Byte) :
    ∃ e', Enc.run (fun (_ : Unit) bs => (conv bs, ())) (Enc.new, ()) cs =
      .ok (cs.map (fun c => ((table c).map BitVec.toNat).getD 0), e', ()) := by
  obtain ⟨e', h⟩ := convert_stateless conv (by intro c; rw [hc]; unfold ucs4le; split <;> simp) cs
  refine ⟨e', ?_⟩
  rw [h]
  congr 2
  apply List.map_congr_left
  intro c _
  rw [hc]
  cases table c with
  | none => rfl
  | some v =>
    have := v.isLt
    simp only [ucs4le, answerValue, rawResult, List.foldr_cons, List.foldr_nil, Option.map_some, Option.getD_some,
      BitVec.toNat_ofNat]
    omega

/-- **C52**: `convert` delivers the bytes of a completed character and changes the state like `convertRaw`. -/
theorem convert_bytes {σ : Type} (iconv : σ → List Byte → Answer × σ) (e : Enc) (t : σ) (h : e.InBounds) (c : Byte) :
    ∃ e' t' v, Enc.convert iconv (e, t) c = .ok (v, e', t') ∧
      (∃ n, Enc.convertRaw iconv (e, t) c = .ok (n, e', t')) ∧
      v = match (iconv t (e.buf.take e.inSize ++ [c])).1 with | .done out => out | _ => [] := by
  obtain ⟨e1, k1, k2, k3, _⟩ := input_ok h c
  unfold Enc.convert Enc.convertRaw
  rw [k1]
  simp only [Res.bind_ok]
  cases iconv t (e.buf.take e.inSize ++ [c]) with
  | mk a t' => cases a <;> exact ⟨_, t', _, rfl, ⟨_, rfl⟩, rfl⟩

/-- The results of a history of calls, and the bytes waiting for the rest of a character: an incomplete sequence waits until it has three
bytes, a failure drops it, a completed one leaves it (which is the finding below). -/
def history {σ : Type} (iconv : σ → List Byte → Answer × σ) : List Byte → σ → List Byte → List Nat × List Byte × σ
  | waiting, t, [] => ([], waiting, t)
  | waiting, t, c :: cs =>
    let r := iconv t (waiting ++ [c])
    let waiting' := match r.1 with
      | .done _ => waiting
      | .incomplete => if waiting.length = 2 then [] else waiting ++ [c]
      | .failed => []
    let (vs, x) := history iconv waiting' r.2 cs
    (answerValue r.1 :: vs, x)

/-- **C52**: every history of calls, for every conversion; the contents of the buffer behind the waiting bytes (such as those at the
beginning) do not matter. -/
theorem convert_history_exact {σ : Type} (iconv : σ → List Byte → Answer × σ) (e : Enc) (h : e.InBounds) (t : σ) (cs : List Byte) :
    ∃ e', Enc.run iconv (e, t) cs =
        .ok ((history iconv (e.buf.take e.inSize) t cs).1, e', (history iconv (e.buf.take e.inSize) t cs).2.2) ∧
      e'.InBounds ∧ e'.buf.take e'.inSize = (history iconv (e.buf.take e.inSize) t cs).2.1 := by
  induction cs generalizing e t with
  | nil => exact ⟨e, rfl, h, rfl⟩
  | cons c cs ih =>
    obtain ⟨e1, k1, k2, k3, k4⟩ := input_ok h c
    have hlen : (e.buf.take e.inSize).length = e.inSize := by
      rw [List.length_take]; have := h.1; have := h.2; omega
    have hle := h.2
    unfold Enc.run history Enc.convertRaw
    simp only [k1, Res.bind_ok]
    generalize hr : iconv t (e.buf.take e.inSize ++ [c]) = r
    obtain ⟨a, t'⟩ := r
    have step : ∀ e2 : Enc, e2.InBounds → ∀ waiting, e2.buf.take e2.inSize = waiting → ∀ v,
        ∃ e', ((Enc.run iconv (e2, t') cs) >>= fun x => Res.ok (v :: x.1, x.2)) =
            .ok (v :: (history iconv waiting t' cs).1, e', (history iconv waiting t' cs).2.2) ∧
          e'.InBounds ∧ e'.buf.take e'.inSize = (history iconv waiting t' cs).2.1 := by
      intro e2 h2 waiting hw v
      obtain ⟨e', i1, i2, i3⟩ := ih e2 h2 t'
      rw [hw] at i1 i3
      refine ⟨e', ?_, i2, i3⟩
      rw [i1, Res.bind_ok]
    cases a with
    | done out =>
      exact step e1 k2 _ (by
        rw [k3]
        have := congrArg (List.take e.inSize) k4
        rw [List.take_take, Nat.min_eq_left (by omega), List.take_append_of_le_length (by omega), List.take_take,
          Nat.min_self] at this
        exact this) (rawResult out)
    | incomplete =>
      simp only [hlen, k3]
      by_cases h2 : e.inSize = 2
      · rw [h2]
        exact step { e1 with inSize := (2 + 1) % 3 } ⟨k2.1, Nat.zero_le _⟩ _ rfl 0
      · have hm : (e.inSize + 1) % 3 = e.inSize + 1 := Nat.mod_eq_of_lt (by omega)
        rw [hm, if_neg h2]
        exact step { e1 with inSize := e.inSize + 1 } ⟨k2.1, by simp only; omega⟩ _ k4 0
    | failed =>
      exact step { e1 with inSize := 0 } ⟨k2.1, Nat.zero_le _⟩ _ rfl 0

/-- A lead byte, its trail byte, and a failure. -/
example : (history (fun (_ : Unit) bs => (if bs = [0xD0] then Answer.incomplete else
    if bs = [0xD0, 0xB0] then ucs4le (some 0x430) else .failed, ())) [] () [0xD0, 0xB0, 0xB0, 0x41, 0xD0]) =
    ([0, 0x430, 0x430, 0, 0], [0xD0], ()) := by decide

/-- KOI8-R: 0xC1 is U+0430. -/
example : (Enc.run (fun (_ : Unit) bs => (if bs = [0xC1] then ucs4le (some 0x430) else .failed, ())) (Enc.new, ())
    [0xC1, 0x80, 0xC1]).bind (fun r => .ok r.1) = .ok [0x430, 0, 0x430] := by decide

/-- Finding: after a completed two-byte character the first byte stays in the buffer: the next character is
converted together with it. -/
theorem completed_sequence_not_reset (conv : List Byte → Answer) (lead trail next : Byte) (out : List Byte)
    (h1 : conv [lead] = .incomplete) (h2 : conv [lead, trail] = .done out) :
    ∃ e', Enc.run (fun (_ : Unit) bs => (conv bs, ())) (Enc.new, ()) [lead, trail, next] =
      .ok ([0, rawResult out, answerValue (conv [lead, next])], e', ()) := by
  simp only [Enc.run, Enc.convertRaw, Enc.input, Enc.new, List.length_cons, List.length_nil]
  norm_num
  simp only [h1, Res.bind_ok]
  norm_num
  simp only [h2, Res.bind_ok]
  norm_num
  cases hn : conv [lead, next] with
  | done o => exact ⟨_, rfl⟩
  | incomplete => exact ⟨_, rfl⟩
  | failed => exact ⟨_, rfl⟩

end Verif.Converter
