import Verif.Storage.Props
/-!
# The bytes of the region, exactly

The storage format is what survives a power cycle and what a flashed image of the region has to
look like.  This file says what every byte of the region is after every history of calls on an
initialised storage: the records in the order in which they were first stored, each as its length,
its name and its object, and zeros behind them.
-/
namespace Verif.Storage

/-! ## Specification: a log of entries and its bytes -/

/-- An entry: the first four characters of the name, filled up with NUL, and the object. -/
structure Entry where
  key : List Byte
  obj : List Byte
deriving DecidableEq, Repr

/-- Four characters: cut, or filled up with NUL. -/
def four (name : List Byte) : List Byte := (name ++ [0, 0, 0, 0]).take 4

/-- The entry to overwrite for this name and this size.  Names of more than four characters never
find one. -/
def Entry.For (e : Entry) (name : List Byte) (n : Nat) : Prop :=
  name.length ≤ 4 ∧ e.key = four name ∧ e.obj.length = n

instance (e : Entry) (name : List Byte) (n : Nat) : Decidable (e.For name n) := by
  unfold Entry.For; infer_instance

/-- The bytes of an entry: the length of the whole entry (low byte first), name, object. -/
def Entry.bytes (e : Entry) : List Byte :=
  [BitVec.ofNat 8 (6 + e.obj.length), BitVec.ofNat 8 ((6 + e.obj.length) / 256)] ++ e.key ++ e.obj

/-- Length of a log in bytes. -/
def size (log : List Entry) : Nat := (log.map fun e => 6 + e.obj.length).sum

/-- Overwrite the first entry for this name and size, if there is one. -/
def overwrite (name obj : List Byte) : List Entry → Option (List Entry)
  | [] => none
  | e :: es =>
    if e.For name obj.length then some (⟨e.key, obj⟩ :: es) else (overwrite name obj es).map (e :: ·)

/-- What a call does to the log: overwrite in place, or append if there is room; reading and
re-opening do nothing. -/
def logStep (cap : Nat) (log : List Entry) : Op → List Entry
  | .set name obj =>
    match overwrite name obj log with
    | some log' => log'
    | none => if size log + (6 + obj.length) ≤ cap then log ++ [⟨four name, obj⟩] else log
  | _ => log

/-- The log after a history. -/
def logOf (cap : Nat) (ops : List Op) : List Entry := ops.foldl (logStep cap) []

/-- The region of `cap` bytes that holds a log. -/
def image (cap : Nat) (log : List Entry) : List Byte :=
  log.flatMap Entry.bytes ++ List.replicate (cap - size log) 0

/-- The record fits the 16-bit size field; names have any length. -/
def Op.Small : Op → Prop
  | .set _ obj => 6 + obj.length < 65536
  | .get _ _ => True
  | .reopen => True

/-! ## The region holds the image of the log -/

def Entry.record (e : Entry) : Rec := ⟨e.key, e.obj⟩

theorem four_eq (name : List Byte) : four name = storedIdx name := by
  unfold four storedIdx
  rw [List.take_append]
  congr 1
  have : ∀ k, k ≤ 4 → ([0, 0, 0, 0] : List Byte).take k = List.replicate k 0 := by
    intro k hk
    match k, hk with
    | 0, _ | 1, _ | 2, _ | 3, _ | 4, _ => rfl
  exact this _ (by omega)

theorem entry_bytes {e : Entry} (h : e.record.Good) : e.bytes = e.record.enc := by
  have h2 : 6 + e.obj.length < 65536 := h.2
  simp only [Entry.bytes, Rec.enc, Entry.record, le16, Nat.mod_eq_of_lt (show 6 + e.obj.length < 2 ^ 16 from h2)]
  congr 3
  apply BitVec.eq_of_toNat_eq
  simp

theorem log_encs {log : List Entry} (h : ∀ e ∈ log, e.record.Good) :
    log.flatMap Entry.bytes = encs (log.map Entry.record) := by
  induction log with
  | nil => rfl
  | cons e es ih =>
    simp only [List.flatMap_cons, List.map_cons, encs_cons]
    rw [ih fun x hx => h x (by simp [hx]), entry_bytes (h e (by simp))]

theorem size_encs {log : List Entry} (h : ∀ e ∈ log, e.record.Good) :
    (encs (log.map Entry.record)).length = size log := by
  induction log with
  | nil => rfl
  | cons e es ih =>
    simp only [List.map_cons, encs_cons, List.length_append, size, List.sum_cons]
    rw [ih fun x hx => h x (by simp [hx]), Rec.enc_length (h e (by simp))]
    rfl

theorem for_hits (e : Entry) (name : List Byte) (n : Nat) : e.record.hits name n = decide (e.For name n) := by
  unfold Rec.hits
  exact decide_eq_decide.2 (by simp only [Entry.For, Entry.record, four_eq])

/-- The storage holds the log. -/
structure Holds (cap : Nat) (s : Store) (log : List Entry) : Prop where
  len : s.mem.length = cap
  rep : Rep s (log.map Entry.record) (List.replicate (cap - size log) 0)
  fits : size log ≤ cap

theorem Holds.good {cap : Nat} {s : Store} {log : List Entry} (h : Holds cap s log) : ∀ e ∈ log, e.record.Good :=
  fun e he => h.rep.good e.record (List.mem_map_of_mem he)

theorem Holds.image {cap : Nat} {s : Store} {log : List Entry} (h : Holds cap s log) :
    s.mem = image cap log ∧ s.freeHead = size log := by
  refine ⟨?_, by rw [h.rep.head, size_encs h.good]⟩
  rw [h.rep.mem, Storage.image, log_encs h.good]

theorem overwrite_cases (name obj : List Byte) (log : List Entry) :
    (∃ a e b, log = a ++ e :: b ∧ (∀ x ∈ a, ¬ x.For name obj.length) ∧ e.For name obj.length ∧
      overwrite name obj log = some (a ++ ⟨e.key, obj⟩ :: b)) ∨
    ((∀ x ∈ log, ¬ x.For name obj.length) ∧ overwrite name obj log = none) := by
  induction log with
  | nil => exact .inr ⟨by simp, rfl⟩
  | cons x xs ih =>
    by_cases hx : x.For name obj.length
    · exact .inl ⟨[], x, xs, rfl, by simp, hx, by simp [overwrite, hx]⟩
    · rcases ih with ⟨a, e, b, rfl, ha, he, ho⟩ | ⟨hn, ho⟩
      · refine .inl ⟨x :: a, e, b, rfl, ?_, he, by simp [overwrite, hx, ho]⟩
        intro y hy
        rcases List.mem_cons.1 hy with rfl | hy
        · exact hx
        · exact ha y hy
      · refine .inr ⟨?_, by simp [overwrite, hx, ho]⟩
        intro y hy
        rcases List.mem_cons.1 hy with rfl | hy
        · exact hx
        · exact hn y hy

theorem size_append (a b : List Entry) : size (a ++ b) = size a + size b := by simp [size]

/-- A call takes the log to the next log. -/
theorem Holds.step {cap : Nat} {s : Store} {log : List Entry} (h : Holds cap s log) (op : Op) (hop : op.Small) :
    ∃ s' o, Storage.step s op = .ok (s', o) ∧ Holds cap s' (logStep cap log op) := by
  cases op with
  | get name n => exact ⟨s, _, by simp only [Storage.step]; rw [h.rep.get_eq]; rfl, h⟩
  | reopen =>
    refine ⟨s, .opened, ?_, h⟩
    simp only [Storage.step]
    rw [h.rep.reopen (stops_zeros _)]
    rfl
  | set name obj =>
    have hsz : 6 + obj.length < 65536 := hop
    have hhead := h.image.2
    rcases overwrite_cases name obj log with ⟨a, e, b, rfl, ha, he, ho⟩ | ⟨hn, ho⟩
    · have hr := h.rep
      rw [List.map_append, List.map_cons] at hr
      obtain ⟨s', h1, h2, -, h4⟩ := hr.set_hit (name := name) (obj := obj)
        (by
          intro r hr
          obtain ⟨x, hx, rfl⟩ := List.mem_map.1 hr
          rw [for_hits]; simpa using ha x hx)
        (by rw [for_hits]; simpa using he)
      have hs : size (a ++ ⟨e.key, obj⟩ :: b) = size (a ++ e :: b) := by
        simp [size, he.2.2]
      refine ⟨s', .flag true, by simp only [Storage.step]; rw [h1]; rfl, ?_⟩
      simp only [logStep, ho]
      refine ⟨by rw [h4, h.len], ?_, by rw [hs]; exact h.fits⟩
      rw [hs, List.map_append, List.map_cons]
      exact h2
    · have hno : ∀ r ∈ log.map Entry.record, r.hits name obj.length = false := by
        intro r hr
        obtain ⟨x, hx, rfl⟩ := List.mem_map.1 hr
        rw [for_hits]; simpa using hn x hx
      by_cases hroom : size log + (6 + obj.length) ≤ cap
      · obtain ⟨s', h1, h2, -, h4⟩ := h.rep.set_new hno hsz (by rw [hhead, h.len]; omega)
        refine ⟨s', .flag true, by simp only [Storage.step]; rw [h1]; rfl, ?_⟩
        simp only [logStep, ho, if_pos hroom]
        have hs : size (log ++ [⟨four name, obj⟩]) = size log + (6 + obj.length) := by
          rw [size_append]; simp [size]
        refine ⟨by rw [h4, h.len], ?_, by omega⟩
        rw [List.drop_replicate] at h2
        rw [hs, List.map_append, Nat.sub_add_eq, List.map_singleton, Entry.record, four_eq]
        exact h2
      · refine ⟨s, .flag false, ?_, ?_⟩
        · simp only [Storage.step]
          rw [h.rep.set_full hno (by rw [hhead, h.len]; omega)]
          rfl
        · simp only [logStep, ho, if_neg hroom]
          exact h

theorem Holds.run {cap : Nat} {s : Store} {log : List Entry} (h : Holds cap s log) (ops : List Op)
    (hops : ∀ op ∈ ops, op.Small) :
    ∃ s' outs, Storage.run s ops = .ok (s', outs) ∧ Holds cap s' (ops.foldl (logStep cap) log) := by
  induction ops generalizing s log with
  | nil => exact ⟨s, [], rfl, h⟩
  | cons op ops ih =>
    obtain ⟨s1, o, h1, h2⟩ := h.step op (hops op (by simp))
    obtain ⟨s2, os, h3, h4⟩ := ih h2 fun x hx => hops x (by simp [hx])
    exact ⟨s2, o :: os, by simp only [Storage.run]; rw [h1]; simp only [Res.bind_ok]; rw [h3]; rfl, h4⟩

/-- **C99.** After every history of calls on an initialised storage — names of any length, objects
that fit the size field, whatever the region held before — the region is, byte for byte, the image
of the log of the history. -/
theorem image_exact (m : List Byte) (hcap : CapOk m.length) (ops : List Op) (hops : ∀ op ∈ ops, op.Small) :
    ∃ s0 s outs, create m true = .ok s0 ∧ run s0 ops = .ok (s, outs) ∧
      s.mem = image m.length (logOf m.length ops) ∧ s.freeHead = size (logOf m.length ops) ∧
      size (logOf m.length ops) ≤ m.length := by
  obtain ⟨s0, h0, hr⟩ := Rep.create_true m hcap
  have hh : Holds m.length s0 [] := by
    refine ⟨?_, by simpa [size] using hr, by simp [size]⟩
    rw [hr.mem]; simp
  obtain ⟨s, outs, h1, h2⟩ := hh.run ops hops
  exact ⟨s0, s, outs, h0, h1, h2.image.1, h2.image.2, h2.fits⟩

/-- Two bytes longer records, an overwrite in place, a name that is cut, a refused record. -/
example : image 24 (logOf 24 [.set [97, 98] [1, 2], .get [97, 98] 2, .set [97, 98, 99, 100, 101] [9], .set [97, 98] [3, 4], .reopen,
      .set [120] [1, 1, 1, 1]]) =
    [8, 0, 0x61, 0x62, 0, 0, 3, 4, 7, 0, 0x61, 0x62, 0x63, 0x64, 9] ++ List.replicate 9 0 := by decide

/-- **C99.** The bytes of the region depend on nothing but the `set` calls: neither on what it held
before, nor on calls that read or re-open. -/
theorem image_only_sets (m m' : List Byte) (hcap : CapOk m.length) (hlen : m'.length = m.length) (ops ops' : List Op)
    (hops : ∀ op ∈ ops, op.Small)
    (heq : ops'.filter (fun op => match op with | .set _ _ => true | _ => false) =
      ops.filter (fun op => match op with | .set _ _ => true | _ => false)) :
    ∃ s0 s s0' s' outs outs', create m true = .ok s0 ∧ run s0 ops = .ok (s, outs) ∧
      create m' true = .ok s0' ∧ run s0' ops' = .ok (s', outs') ∧ s' = s := by
  have hlog : ∀ (l : List Op) (log : List Entry), l.foldl (logStep m.length) log =
      (l.filter (fun op => match op with | .set _ _ => true | _ => false)).foldl (logStep m.length) log := by
    intro l
    induction l with
    | nil => intro log; rfl
    | cons op l ih =>
      intro log
      cases op with
      | set name obj => simp only [List.foldl_cons, List.filter_cons_of_pos]; exact ih _
      | get name n => simp only [List.foldl_cons]; rw [List.filter_cons_of_neg (by simp)]; exact ih _
      | reopen => simp only [List.foldl_cons]; rw [List.filter_cons_of_neg (by simp)]; exact ih _
  have hops' : ∀ op ∈ ops', op.Small := by
    intro op hop
    cases op with
    | set name obj =>
      have : Op.set name obj ∈ ops'.filter (fun op => match op with | .set _ _ => true | _ => false) :=
        List.mem_filter.2 ⟨hop, rfl⟩
      rw [heq] at this
      exact hops _ (List.mem_filter.1 this).1
    | get name n => trivial
    | reopen => trivial
  obtain ⟨s0, s, outs, h1, h2, h3, h4, -⟩ := image_exact m hcap ops hops
  obtain ⟨s0', s', outs', h1', h2', h3', h4', -⟩ := image_exact m' (by rw [hlen]; exact hcap) ops' hops'
  refine ⟨s0, s, s0', s', outs, outs', h1, h2, h1', h2', ?_⟩
  have e : logOf m'.length ops' = logOf m.length ops := by
    unfold logOf
    rw [hlen, hlog ops', hlog ops, heq]
  rw [e, hlen] at h3'
  rw [e] at h4'
  cases s; cases s'
  simp only at h3 h4 h3' h4'
  simp [h3, h4, h3', h4']

/-! ## Regions prepared elsewhere -/

/-- An entry as it can be written down: four characters of name, an object that fits the size
field. -/
def Entry.Proper (e : Entry) : Prop := e.key.length = 4 ∧ 6 + e.obj.length < 65536

/-- What a log answers. -/
def answer (log : List Entry) (name : List Byte) (n : Nat) : Option (List Byte) :=
  match log with
  | [] => none
  | e :: es => if e.For name n then some e.obj else answer es name n

theorem answer_lookup (log : List Entry) (name : List Byte) (n : Nat) :
    lookup (log.map Entry.record) name n = answer log name n := by
  induction log with
  | nil => rfl
  | cons e es ih =>
    unfold lookup at ih ⊢
    simp only [List.map_cons, answer]
    by_cases h : e.For name n
    · rw [List.find?_cons_of_pos (by rw [for_hits]; simpa using h), if_pos h]; rfl
    · rw [List.find?_cons_of_neg (by rw [for_hits]; simpa using h), if_neg h, ih]

/-- **C99.** A region that was filled by other means — flashed from an image file, copied from
another device — with the image of any log is opened as that log: every call answers from it and
every later state is again an image. -/
theorem image_opens (cap : Nat) (hcap : CapOk cap) (log : List Entry) (hlog : ∀ e ∈ log, e.Proper)
    (hfits : size log ≤ cap) (ops : List Op) (hops : ∀ op ∈ ops, op.Small) :
    ∃ s0 s outs, create (image cap log) false = .ok s0 ∧ s0.freeHead = size log ∧
      (∀ name n, get s0 name n = .ok (answer log name n)) ∧
      run s0 ops = .ok (s, outs) ∧ s.mem = image cap (ops.foldl (logStep cap) log) ∧
      s.freeHead = size (ops.foldl (logStep cap) log) := by
  have hg : ∀ e ∈ log, e.record.Good := hlog
  have hg' : ∀ r ∈ log.map Entry.record, r.Good := by
    intro r hr
    obtain ⟨e, he, rfl⟩ := List.mem_map.1 hr
    exact hg e he
  have hlen : (image cap log).length = cap := by
    rw [image, log_encs hg, List.length_append, size_encs hg, List.length_replicate]; omega
  have hm : image cap log = encs (log.map Entry.record) ++ List.replicate (cap - size log) 0 := by
    rw [image, log_encs hg]
  have hc : CapOk (encs (log.map Entry.record) ++ List.replicate (cap - size log) 0).length := by
    rw [← hm, hlen]; exact hcap
  have h0 := create_false_stops (log.map Entry.record) hg' _ hc (stops_zeros _)
  rw [← hm] at h0
  have hh : Holds cap ⟨image cap log, (encs (log.map Entry.record)).length⟩ log :=
    ⟨hlen, ⟨hm, rfl, hg', by simp only [hlen]; exact hcap⟩, hfits⟩
  obtain ⟨s, outs, h1, h2⟩ := hh.run ops hops
  refine ⟨_, s, outs, h0, hh.image.2, ?_, h1, h2.image.1, h2.image.2⟩
  intro name n
  rw [hh.rep.get_eq, answer_lookup]

/-- A region written by hand, opened and used. -/
example : (∀ e ∈ [(⟨[0x61, 0, 0, 0], [5]⟩ : Entry)], e.Proper) ∧
    image 10 [⟨[0x61, 0, 0, 0], [5]⟩] = [7, 0, 0x61, 0, 0, 0, 5, 0, 0, 0] ∧
    answer [⟨[0x61, 0, 0, 0], [5]⟩] [0x61] 1 = some [5] := by
  refine ⟨?_, by decide, by decide⟩
  intro e he
  simp only [List.mem_singleton] at he
  subst he
  exact ⟨rfl, by decide⟩

theorem encs_inj {a b : List Rec} (ha : ∀ r ∈ a, r.Good) (hb : ∀ r ∈ b, r.Good) (h : encs a = encs b) : a = b := by
  induction a generalizing b with
  | nil =>
    cases b with
    | nil => rfl
    | cons r b =>
      have := congrArg List.length h
      simp [Rec.enc_length (hb r (by simp))] at this
      omega
  | cons r a ih =>
    cases b with
    | nil =>
      have := congrArg List.length h
      simp [Rec.enc_length (ha r (by simp))] at this
    | cons q b =>
      have hr := ha r (by simp)
      have hq := hb q (by simp)
      have n1 := nodeSize_enc hr [] (encs a)
      have n2 := nodeSize_enc hq [] (encs b)
      simp only [encs_cons] at h
      simp only [List.nil_append, h] at n1 n2
      rw [n1] at n2
      have hl : r.data.length = q.data.length := by
        have := Res.ok.inj n2
        omega
      have := List.append_inj h (by rw [Rec.enc_length hr, Rec.enc_length hq, hl])
      have e := ih (fun x hx => ha x (by simp [hx])) (fun x hx => hb x (by simp [hx])) this.2
      have e2 := this.1
      simp only [Rec.enc, hl] at e2
      have e3 := List.append_inj e2 (by simp [hr.1, hq.1])
      have e4 := List.append_inj_right e3.1 rfl
      rw [e]
      cases r; cases q
      simp only at e3 e4
      simp [e3.2, e4]

/-- **C99.** Different logs have different bytes: the region determines its records, their order and
their contents. -/
theorem image_injective (cap : Nat) (hcap : CapOk cap) (log log' : List Entry) (hlog : ∀ e ∈ log, e.Proper)
    (hlog' : ∀ e ∈ log', e.Proper) (hfits : size log ≤ cap) (hfits' : size log' ≤ cap)
    (heq : image cap log = image cap log') : log = log' := by
  obtain ⟨s, -, -, h1, h2, -⟩ := image_opens cap hcap log hlog hfits [] (by simp)
  obtain ⟨s', -, -, h1', h2', -⟩ := image_opens cap hcap log' hlog' hfits' [] (by simp)
  rw [heq, h1'] at h1
  cases h1
  have hs : size log = size log' := by rw [← h2, ← h2']
  have e1 : ∀ (l : List Entry), (∀ e ∈ l, e.Proper) → l.flatMap Entry.bytes = encs (l.map Entry.record) :=
    fun l h => log_encs h
  have hb := List.append_inj heq (by
    rw [e1 _ hlog, e1 _ hlog', size_encs (fun e he => hlog e he), size_encs (fun e he => hlog' e he), hs])
  rw [e1 _ hlog, e1 _ hlog'] at hb
  have := encs_inj (by
    intro r hr; obtain ⟨e, he, rfl⟩ := List.mem_map.1 hr; exact hlog e he) (by
    intro r hr; obtain ⟨e, he, rfl⟩ := List.mem_map.1 hr; exact hlog' e he) hb.1
  have hinj : ∀ x y : Entry, x.record = y.record → x = y := by
    intro x y h
    cases x; cases y
    simp only [Entry.record, Rec.mk.injEq] at h
    simp [h.1, h.2]
  have key : ∀ (l l' : List Entry), l.map Entry.record = l'.map Entry.record → l = l' := by
    intro l
    induction l with
    | nil => intro l' h; cases l' with
      | nil => rfl
      | cons _ _ => simp at h
    | cons x l ih => intro l' h; cases l' with
      | nil => simp at h
      | cons y l' =>
        simp only [List.map_cons, List.cons.injEq] at h
        rw [hinj x y h.1, ih l' h.2]
  exact key _ _ this

end Verif.Storage
