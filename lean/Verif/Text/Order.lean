import Verif.Text.Picture
/-!
# C110: the order of drawing matters only where different colours overlap
-/
namespace Verif.Text
open Verif.Canvas Verif.FrameBuffer Verif.Font

/-! ## Specification -/

/-- Shapes and texts. -/
def Cmd.Drawing : Cmd → Prop
  | .shape _ => True
  | .text .. => True
  | _ => False

/-- A drawing with the colour and the rotation to draw it in. -/
structure Op where
  color : BitVec 32
  rotation : Rotation
  cmd : Cmd

/-- The calls drawing it. -/
def Op.calls (op : Op) : List Cmd := [.color op.color, .rotate op.rotation, op.cmd]

/-- The physical pixels of a drawing. -/
def Op.pixels (signed : Bool) (g : Geom) (op : Op) (q : Pt) : Prop :=
  InRange g q.x q.y ∧ ∃ p, covered signed op.rotation op.cmd p ∧ phys op.rotation g.getWidth g.getHeight p = q

/-- Two drawings have the same colour (in the bits of the depth), or no pixel of the screen in common. -/
def Op.Compatible (signed : Bool) (g : Geom) (a b : Op) : Prop :=
  a.color.toNat % 2 ^ g.depth = b.color.toNat % 2 ^ g.depth ∨ ∀ q, ¬ (a.pixels signed g q ∧ b.pixels signed g q)

/-! ## Images are determined by their pixels -/

private theorem fold_inj (f f' : Nat → Option Bool) (d : Nat) (v : Nat)
    (h : (List.range d).foldl (fun acc k => do let a ← acc; let b ← f k; some (2 * a + b.toNat)) (some 0) = some v)
    (h' : (List.range d).foldl (fun acc k => do let a ← acc; let b ← f' k; some (2 * a + b.toNat)) (some 0) = some v) :
    ∀ k, k < d → f k = f' k := by
  induction d generalizing v with
  | zero => intro k hk; omega
  | succ d ih =>
    rw [List.range_succ, List.foldl_append] at h h'
    simp only [List.foldl_cons, List.foldl_nil, Option.bind_eq_bind, Option.bind_eq_some_iff, Option.some.injEq] at h h'
    obtain ⟨a, h1, b, h2, h3⟩ := h
    obtain ⟨a', h1', b', h2', h3'⟩ := h'
    have hb : b = b' ∧ a = a' := by
      cases b <;> cases b' <;> simp only [Bool.toNat_true, Bool.toNat_false] at h3 h3' <;> simp <;> omega
    intro k hk
    rcases Nat.lt_succ_iff_lt_or_eq.1 hk with hk | rfl
    · refine ih a h1 ?_ k hk
      rw [hb.2]; exact h1'
    · rw [h2, h2', hb.1]

private theorem fold_some (f : Nat → Option Bool) (d : Nat) (h : ∀ k, k < d → ∃ b, f k = some b) :
    ∃ v, (List.range d).foldl (fun acc k => do let a ← acc; let b ← f k; some (2 * a + b.toNat)) (some 0) = some v := by
  induction d with
  | zero => exact ⟨0, rfl⟩
  | succ d ih =>
    obtain ⟨v, hv⟩ := ih (fun k hk => h k (by omega))
    obtain ⟨b, hb⟩ := h d (by omega)
    refine ⟨2 * v + b.toNat, ?_⟩
    rw [List.range_succ, List.foldl_append, hv]
    simp [hb]

/-- Every pixel of the screen has a value. -/
theorem pixel_defined {g : Geom} (hg : g.Compiles) {img : List Byte} (hl : (img.length : Int) = g.bufSize) {x y : Int}
    (h : InRange g x y) : ∃ v, pixel img g.depth (pixelNo g x y) = some v := by
  obtain ⟨W, hi⟩ := inRange_index hg hl h
  refine fold_some (fun k => imgBit img (pixelNo g x y * g.depth + k)) g.depth ?_
  intro k hk
  have h1 := hi.last
  have h2 : (pixelNo g x y + 1) * g.depth = pixelNo g x y * g.depth + g.depth := Nat.succ_mul _ _
  simp only [imgBit, List.getElem?_eq_getElem (show (pixelNo g x y * g.depth + k) / 8 < img.length by omega)]
  exact ⟨_, rfl⟩

/-- Frame buffers with the same pixels are the same memory. -/
theorem img_ext (g : Geom) (hg : g.Compiles) (hh : 0 ≤ g.height) (img img' : List Byte) (hl : (img.length : Int) = g.bufSize)
    (hl' : (img'.length : Int) = g.bufSize)
    (h : ∀ x y, InRange g x y → pixel img g.depth (pixelNo g x y) = pixel img' g.depth (pixelNo g x y)) :
    img = img' := by
  have hD : 0 < g.depth := by rcases hg.depth_ok with h | h | h | h | h | h | h <;> omega
  have hbits : ∀ i, i < 8 * img.length → imgBit img i = imgBit img' i := by
    intro i hi
    have htot := bufSize_eq g
    have hpos : 0 < g.effW * g.height * g.depth := by rw [← htot]; omega
    obtain ⟨H, hH⟩ := Int.eq_ofNat_of_zero_le hh
    have hw : 0 < g.effW := by
      by_contra hc
      have h1 : g.effW * g.height ≤ 0 := Int.mul_nonpos_of_nonpos_of_nonneg (by omega) hh
      have h2 : g.effW * g.height * g.depth ≤ 0 := Int.mul_nonpos_of_nonpos_of_nonneg h1 (by omega)
      omega
    obtain ⟨W, hW⟩ := Int.eq_ofNat_of_zero_le (Int.le_of_lt hw)
    have hlen : 8 * img.length = W * H * g.depth := by
      have : ((8 * img.length : Nat) : Int) = ((W * H * g.depth : Nat) : Int) := by
        push_cast; rw [hl, htot, hW, hH]
      exact_mod_cast this
    rw [hlen] at hi
    have hW0 : 0 < W := by omega
    have hp : i / g.depth < W * H := by rwa [Nat.div_lt_iff_lt_mul hD]
    have hno : pixelNo g ((i / g.depth % W : Nat) : Int) ((i / g.depth / W : Nat) : Int) = i / g.depth := by
      unfold pixelNo Geom.getWidth
      rw [hW]
      have := Nat.div_add_mod (i / g.depth) W
      have e : ((i / g.depth / W : Nat) : Int) * ((W : Nat) : Int) + ((i / g.depth % W : Nat) : Int) =
          ((i / g.depth : Nat) : Int) := by
        rw [← Int.natCast_mul, ← Int.natCast_add, Nat.mul_comm, this]
      rw [e, Int.toNat_natCast]
    have hr : InRange g ((i / g.depth % W : Nat) : Int) ((i / g.depth / W : Nat) : Int) := by
      refine ⟨Int.natCast_nonneg _, ?_, Int.natCast_nonneg _, ?_⟩
      · show _ < g.effW
        rw [hW]
        exact Int.ofNat_lt.2 (Nat.mod_lt _ hW0)
      · show _ < g.height
        rw [hH]
        exact Int.ofNat_lt.2 (Nat.div_lt_of_lt_mul hp)
    obtain ⟨v, v1⟩ := pixel_defined hg hl hr
    have v2 := v1
    rw [h _ _ hr] at v2
    rw [hno] at v1 v2
    have := fold_inj (fun k => imgBit img (i / g.depth * g.depth + k)) (fun k => imgBit img' (i / g.depth * g.depth + k))
      g.depth v v1 v2 (i % g.depth) (Nat.mod_lt _ hD)
    rwa [show i / g.depth * g.depth + i % g.depth = i by rw [Nat.mul_comm]; exact Nat.div_add_mod i g.depth] at this
  apply List.ext_getElem (by omega)
  intro i hi hi'
  apply BitVec.eq_of_getMsbD_eq
  intro k hk
  have e1 := hbits (8 * i + k) (by omega)
  unfold imgBit at e1
  rw [show (8 * i + k) / 8 = i by omega, show (8 * i + k) % 8 = k by omega, List.getElem?_eq_getElem hi,
    List.getElem?_eq_getElem hi'] at e1
  simpa using e1

/-! ## Proof -/

/-- The value seen is that of a layer covering the pixel, or the background. -/
theorem seen_cases {q : Pt} {bg v : Option Nat} {ls : List Layer} (h : Seen q bg ls v) :
    (∃ l ∈ ls, l.1 q ∧ v = some l.2) ∨ (v = bg ∧ ∀ l ∈ ls, ¬ l.1 q) := by
  induction h with
  | background => exact .inr ⟨rfl, by simp⟩
  | covered ls S n hS => exact .inl ⟨(S, n), by simp, hS, rfl⟩
  | uncovered ls S n r hS _ ih =>
    rcases ih with ⟨l, l1, l2⟩ | ⟨e, l1⟩
    · exact .inl ⟨l, by simp [l1], l2⟩
    · refine .inr ⟨e, fun l hl => ?_⟩
      rcases List.mem_append.1 hl with hl | hl
      · exact l1 l hl
      · rw [List.mem_singleton.1 hl]; exact hS

private theorem seen_same {q : Pt} {bg v w : Option Nat} {ls ls' : List Layer}
    (hsub : ∀ l, l.1 q → (l ∈ ls ↔ l ∈ ls')) (hc : ∀ l ∈ ls, ∀ l' ∈ ls, l.1 q → l'.1 q → l.2 = l'.2)
    (h1 : Seen q bg ls v) (h2 : Seen q bg ls' w) : v = w := by
  rcases seen_cases h1 with ⟨l, a1, a2, rfl⟩ | ⟨rfl, a1⟩ <;> rcases seen_cases h2 with ⟨l', b1, b2, rfl⟩ | ⟨rfl, b1⟩
  · rw [hc l a1 l' ((hsub l' b2).2 b1) a2 b2]
  · exact absurd a2 (b1 l ((hsub l a2).1 a1))
  · exact absurd b2 (a1 l' ((hsub l' b2).2 b1))
  · rfl

/-- Programs whose layers at every pixel are the same, all of one value, draw the same. -/
private theorem same_layers (signed : Bool) (g : Geom) (c : Canvas) (fb : FB) (h : Ready c g fb) (hd : g.depth ≠ 32)
    (cmds cmds' : List Cmd) (hv : ∀ cmd ∈ cmds, cmd.Valid signed) (hv' : ∀ cmd ∈ cmds', cmd.Valid signed)
    (hsub : ∀ q, InRange g q.x q.y → ∀ l : Layer, l.1 q →
      (l ∈ layers signed g (penOf g c fb) cmds ↔ l ∈ layers signed g (penOf g c fb) cmds'))
    (hc : ∀ q, InRange g q.x q.y → ∀ l ∈ layers signed g (penOf g c fb) cmds, ∀ l' ∈ layers signed g (penOf g c fb) cmds,
      l.1 q → l'.1 q → l.2 = l'.2) :
    ∃ c1 fb1 c2 fb2, execAll signed g c fb cmds = .ok (c1, fb1) ∧ execAll signed g c fb cmds' = .ok (c2, fb2) ∧
      fb1.img = fb2.img := by
  obtain ⟨c1, fb1, a1, a2, -, a4⟩ := picture signed g c fb h hd cmds hv
  obtain ⟨c2, fb2, b1, b2, -, b4⟩ := picture signed g c fb h hd cmds' hv'
  refine ⟨c1, fb1, c2, fb2, a1, b1, ?_⟩
  refine img_ext g h.compiles h.hlo _ _ a2.img b2.img ?_
  intro x y hxy
  exact seen_same (hsub ⟨x, y⟩ hxy) (hc ⟨x, y⟩ hxy) (a4 ⟨x, y⟩ hxy) (b4 ⟨x, y⟩ hxy)

private theorem layers_drawing (signed : Bool) (g : Geom) (pen : Pen) (cmds : List Cmd) (h : ∀ cmd ∈ cmds, cmd.Drawing) :
    layers signed g pen cmds = cmds.map (Cmd.layer signed g pen) := by
  induction cmds with
  | nil => rfl
  | cons cmd cmds ih =>
    have hp : cmd.pen g pen = pen := by
      have := h cmd (by simp)
      cases cmd <;> first | rfl | exact absurd this id
    unfold layers
    rw [hp, ih (fun c hc => h c (by simp [hc]))]
    rfl

private theorem keeps (signed : Bool) (g : Geom) (c : Canvas) (fb : FB) (h : Ready c g fb) (cmds : List Cmd)
    (hv : ∀ cmd ∈ cmds, cmd.Valid signed ∧ cmd.Drawing) :
    ∃ fb', execAll signed g c fb cmds = .ok (c, fb') ∧ fb'.sel = fb.sel := by
  induction cmds generalizing fb with
  | nil => exact ⟨fb, rfl, rfl⟩
  | cons cmd cmds ih =>
    obtain ⟨v1, v2⟩ := hv cmd (by simp)
    obtain ⟨fb1, k1, k2⟩ := draw_covers signed g c fb h cmd v1 (by rintro x rfl; exact v2) (by rintro x rfl; exact v2)
      (by rintro x rfl; exact v2)
    obtain ⟨fb', k3, k4⟩ := ih fb1 (paints_ready h k2) (fun c hc => hv c (by simp [hc]))
    exact ⟨fb', by simp [execAll, k1, k3], by rw [k4, k2.sel]⟩

/-- **C110**, one colour: shapes and texts drawn in the current colour and rotation leave the same frame buffer in whatever order
and however often they are drawn. -/
theorem one_colour (signed : Bool) (g : Geom) (c : Canvas) (fb : FB) (h : Ready c g fb) (hd : g.depth ≠ 32)
    (cmds cmds' : List Cmd) (hv : ∀ cmd ∈ cmds, cmd.Valid signed ∧ cmd.Drawing) (hs : ∀ cmd, cmd ∈ cmds ↔ cmd ∈ cmds') :
    ∃ fb', execAll signed g c fb cmds = .ok (c, fb') ∧ execAll signed g c fb cmds' = .ok (c, fb') := by
  have hv' : ∀ cmd ∈ cmds', cmd.Valid signed ∧ cmd.Drawing := fun cmd hc => hv cmd ((hs cmd).2 hc)
  have e1 := layers_drawing signed g (penOf g c fb) cmds (fun cmd hc => (hv cmd hc).2)
  have e2 := layers_drawing signed g (penOf g c fb) cmds' (fun cmd hc => (hv' cmd hc).2)
  have hval : ∀ l ∈ layers signed g (penOf g c fb) cmds, l.2 = (penOf g c fb).value := by
    intro l hl
    rw [e1, List.mem_map] at hl
    obtain ⟨cmd, h1, rfl⟩ := hl
    have := (hv cmd h1).2
    cases cmd <;> first | rfl | exact absurd this id
  obtain ⟨c1, fb1, c2, fb2, k1, k2, k3⟩ := same_layers signed g c fb h hd cmds cmds' (fun cmd hc => (hv cmd hc).1)
    (fun cmd hc => (hv' cmd hc).1)
    (fun q _ l _ => by
      rw [e1, e2]
      simp only [List.mem_map, hs])
    (fun q _ l hl l' hl' _ _ => by rw [hval l hl, hval l' hl'])
  obtain ⟨fb1', m1, m2⟩ := keeps signed g c fb h cmds hv
  obtain ⟨fb2', n1, n2⟩ := keeps signed g c fb h cmds' hv'
  rw [k1] at m1
  rw [k2] at n1
  simp only [Res.ok.injEq, Prod.mk.injEq] at m1 n1
  obtain ⟨rfl, rfl⟩ := m1
  obtain ⟨rfl, rfl⟩ := n1
  refine ⟨fb1, k1, ?_⟩
  rw [k2]
  cases fb1; cases fb2
  simp only at k3 m2 n2
  rw [k3, m2, n2]

private theorem mem_ops (signed : Bool) (g : Geom) (pen : Pen) (ops : List Op) (hd : ∀ op ∈ ops, op.cmd.Drawing) (q : Pt)
    (l : Layer) (hl : l.1 q) :
    l ∈ layers signed g pen (ops.flatMap Op.calls) ↔
      ∃ op ∈ ops, l = op.cmd.layer signed g ⟨op.rotation, op.color.toNat % 2 ^ g.depth⟩ := by
  induction ops generalizing pen with
  | nil => simp [layers]
  | cons op ops ih =>
    have h0 := hd op (by simp)
    rw [List.flatMap_cons]
    simp only [Op.calls, List.cons_append, List.nil_append, layers, List.mem_cons]
    rw [ih _ (fun o ho => hd o (by simp [ho]))]
    have n1 : l ≠ (Cmd.color op.color).layer signed g pen := by
      rintro rfl
      obtain ⟨p, hp, -⟩ := hl
      exact hp
    have n2 : l ≠ (Cmd.rotate op.rotation).layer signed g ((Cmd.color op.color).pen g pen) := by
      rintro rfl
      obtain ⟨p, hp, -⟩ := hl
      exact hp
    simp only [n1, n2, false_or, exists_eq_or_imp]
    rfl

/-- **C110**: drawings in any colours and rotations, of which any two have the same colour or no pixel in common, leave the same
memory of the frame buffer in whatever order and however often they are drawn. -/
theorem order_irrelevant (signed : Bool) (g : Geom) (c : Canvas) (fb : FB) (h : Ready c g fb) (hd : g.depth ≠ 32)
    (ops ops' : List Op) (hv : ∀ op ∈ ops, op.cmd.Valid signed ∧ op.cmd.Drawing) (hs : ∀ op, op ∈ ops ↔ op ∈ ops')
    (hc : ∀ a ∈ ops, ∀ b ∈ ops, Op.Compatible signed g a b) :
    ∃ c1 fb1 c2 fb2, execAll signed g c fb (ops.flatMap Op.calls) = .ok (c1, fb1) ∧
      execAll signed g c fb (ops'.flatMap Op.calls) = .ok (c2, fb2) ∧ fb1.img = fb2.img := by
  have hv' : ∀ op ∈ ops', op.cmd.Valid signed ∧ op.cmd.Drawing := fun op ho => hv op ((hs op).2 ho)
  have hval : ∀ ops : List Op, (∀ op ∈ ops, op.cmd.Valid signed ∧ op.cmd.Drawing) →
      ∀ cmd ∈ ops.flatMap Op.calls, cmd.Valid signed := by
    intro ops hv cmd hcmd
    rw [List.mem_flatMap] at hcmd
    obtain ⟨op, h1, h2⟩ := hcmd
    simp only [Op.calls, List.mem_cons, List.not_mem_nil, or_false] at h2
    rcases h2 with rfl | rfl | rfl
    · trivial
    · trivial
    · exact (hv op h1).1
  have hlay : ∀ (op : Op), op.cmd.Drawing → ∀ q, InRange g q.x q.y →
      (op.cmd.layer signed g ⟨op.rotation, op.color.toNat % 2 ^ g.depth⟩).1 q →
      op.pixels signed g q ∧ (op.cmd.layer signed g ⟨op.rotation, op.color.toNat % 2 ^ g.depth⟩).2 =
        op.color.toNat % 2 ^ g.depth := by
    rintro ⟨col, r, cmd⟩ hdr q hq hl
    cases cmd <;> first | exact ⟨⟨hq, hl⟩, rfl⟩ | exact absurd hdr id
  refine same_layers signed g c fb h hd _ _ (hval ops hv) (hval ops' hv') ?_ ?_
  · intro q _ l hl
    rw [mem_ops signed g _ ops (fun o ho => (hv o ho).2) q l hl, mem_ops signed g _ ops' (fun o ho => (hv' o ho).2) q l hl]
    simp only [hs]
  · intro q hq l hl l' hl' h1 h2
    rw [mem_ops signed g _ ops (fun o ho => (hv o ho).2) q _ h1] at hl
    rw [mem_ops signed g _ ops (fun o ho => (hv o ho).2) q _ h2] at hl'
    obtain ⟨a, ha, rfl⟩ := hl
    obtain ⟨b, hb, rfl⟩ := hl'
    obtain ⟨p1, v1⟩ := hlay a (hv a ha).2 q hq h1
    obtain ⟨p2, v2⟩ := hlay b (hv b hb).2 q hq h2
    rcases hc a ha b hb with e | e
    · rw [v1, v2, e]
    · exact absurd ⟨p1, p2⟩ (e q)

/-- **C110**: where two drawings overlap in different colours, the order does matter. -/
theorem order_matters (signed : Bool) (g : Geom) (c : Canvas) (fb : FB) (h : Ready c g fb) (hd : g.depth ≠ 32) (a b : Op)
    (ha : a.cmd.Valid signed ∧ a.cmd.Drawing) (hb : b.cmd.Valid signed ∧ b.cmd.Drawing)
    (hab : ¬ Op.Compatible signed g a b) :
    ∃ c1 fb1 c2 fb2, execAll signed g c fb (a.calls ++ b.calls) = .ok (c1, fb1) ∧
      execAll signed g c fb (b.calls ++ a.calls) = .ok (c2, fb2) ∧ fb1.img ≠ fb2.img := by
  have hval : ∀ a b : Op, a.cmd.Valid signed ∧ a.cmd.Drawing → b.cmd.Valid signed ∧ b.cmd.Drawing →
      ∀ cmd ∈ a.calls ++ b.calls, cmd.Valid signed := by
    intro a b ha hb cmd hcmd
    simp only [Op.calls, List.cons_append, List.nil_append, List.mem_cons, List.not_mem_nil, or_false] at hcmd
    rcases hcmd with rfl | rfl | rfl | rfl | rfl | rfl
    · trivial
    · trivial
    · exact ha.1
    · trivial
    · trivial
    · exact hb.1
  obtain ⟨c1, fb1, a1, a2, -, a4⟩ := picture signed g c fb h hd _ (hval a b ha hb)
  obtain ⟨c2, fb2, b1, b2, -, b4⟩ := picture signed g c fb h hd _ (hval b a hb ha)
  refine ⟨c1, fb1, c2, fb2, a1, b1, ?_⟩
  simp only [Op.Compatible, not_or, not_forall, not_not] at hab
  obtain ⟨hne, q, hqa, hqb⟩ := hab
  -- the upper drawing is seen
  have top : ∀ (a b : Op), b.cmd.Drawing → b.pixels signed g q → ∀ bg pen v,
      Seen q bg (layers signed g pen (a.calls ++ b.calls)) v → v = some (b.color.toNat % 2 ^ g.depth) := by
    intro a b hdr hq bg pen v hseen
    obtain ⟨ls, hls⟩ : ∃ ls, layers signed g pen (a.calls ++ b.calls) =
        ls ++ [b.cmd.layer signed g ⟨b.rotation, b.color.toNat % 2 ^ g.depth⟩] := by
      have hp : ∀ pen, ∃ ls, layers signed g pen b.calls =
          ls ++ [b.cmd.layer signed g ⟨b.rotation, b.color.toNat % 2 ^ g.depth⟩] := by
        intro pen
        exact ⟨[_, _], rfl⟩
      have happ : ∀ (xs ys : List Cmd) (pen : Pen), ∃ ls pen', layers signed g pen (xs ++ ys) = ls ++ layers signed g pen' ys := by
        intro xs ys
        induction xs with
        | nil => intro pen; exact ⟨[], pen, rfl⟩
        | cons x xs ih =>
          intro pen
          obtain ⟨ls, pen', e⟩ := ih (x.pen g pen)
          exact ⟨x.layer signed g pen :: ls, pen', by simp only [List.cons_append, layers, e]⟩
      obtain ⟨ls, pen', e⟩ := happ a.calls b.calls pen
      obtain ⟨ls', e'⟩ := hp pen'
      exact ⟨ls ++ ls', by rw [e, e', List.append_assoc]⟩
    have hcov : (b.cmd.layer signed g ⟨b.rotation, b.color.toNat % 2 ^ g.depth⟩).1 q ∧
        (b.cmd.layer signed g ⟨b.rotation, b.color.toNat % 2 ^ g.depth⟩).2 = b.color.toNat % 2 ^ g.depth := by
      obtain ⟨col, r, cmd⟩ := b
      cases cmd <;> first | exact ⟨hq.2, rfl⟩ | exact absurd hdr id
    rw [hls] at hseen
    have := seen_unique hseen (.covered ls _ _ hcov.1)
    exact this.trans (congrArg some hcov.2)
  intro e
  have h1 := top a b hb.2 hqb _ _ _ (a4 q hqa.1)
  have h2 := top b a ha.2 hqa _ _ _ (b4 q hqa.1)
  unfold physPixel at h1 h2
  rw [e, h2] at h1
  injection h1 with h1
  exact hne h1

/-- The hypotheses hold for two lines which cross, in one colour, and a rectangle beside them in another one. -/
example : Op.Compatible false ⟨16, 8, 1⟩ ⟨1, .r0, .shape (.line ⟨0, 0⟩ ⟨4, 4⟩)⟩ ⟨1, .r0, .shape (.line ⟨0, 4⟩ ⟨4, 0⟩)⟩ ∧
    Op.Compatible false ⟨16, 8, 1⟩ ⟨1, .r0, .shape (.pixel ⟨0, 0⟩)⟩ ⟨0, .r90, .shape (.fillRect ⟨⟨1, 6⟩, ⟨2, 2⟩⟩)⟩ ∧
    ¬ Op.Compatible false ⟨16, 8, 1⟩ ⟨1, .r0, .shape (.pixel ⟨0, 0⟩)⟩ ⟨0, .r180, .shape (.pixel ⟨15, 7⟩)⟩ := by
  refine ⟨.inl rfl, .inr ?_, ?_⟩
  · rintro q ⟨⟨-, p, rfl, rfl⟩, -, p', h1, h2⟩
    have h1 : 1 ≤ p'.x ∧ _ := h1
    have h2 : (⟨_, p'.x⟩ : Pt) = ⟨0, 0⟩ := h2
    rw [Pt.mk.injEq] at h2
    omega
  · rintro (h | h)
    · exact absurd h (by decide)
    · exact h ⟨0, 0⟩ ⟨⟨⟨by decide, by decide, by decide, by decide⟩, ⟨0, 0⟩, rfl, rfl⟩,
        ⟨by decide, by decide, by decide, by decide⟩, ⟨15, 7⟩, rfl, rfl⟩

end Verif.Text
