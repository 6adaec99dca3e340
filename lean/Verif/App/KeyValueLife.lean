import Verif.App.KeyValue
import Verif.Storage.Uniform
/-!
# C133: the key-value store across power losses

The program of C121, in a device whose power may fail at any time: between two requests, or while a value is being
written, when any of the bytes to be written may have reached memory.  After every power loss the program starts again and
opens the storage it finds (`create … false`); the first time it initialises it (`create … true`).
-/
namespace Verif.App.KeyValue
open Verif Verif.Storage Verif.Out Verif.Uart Verif.Uart.Wire Verif.Uart.Lines Verif.Uart.Portable Verif.Uart.Server

/-! ## Specification -/

/-- What may happen to the device: a request is answered, or power is lost and comes back. -/
inductive Happening where
  /-- The request was answered with the text. -/
  | served (r : Req) (answer : List Byte)
  /-- Power was lost while no value was being written. -/
  | died
  /-- Power was lost while the value was being written. -/
  | torn (name value : List Byte)

/-- The lives of the device since the storage was initialised, with the storage it has now. -/
inductive Past (bufSize : Nat) (signed : Bool) : List Happening → Store → Prop where
  | first (m : List Byte) (s : Store) : CapOk m.length → create m true = .ok s → Past bufSize signed [] s
  | served (hs : List Happening) (s s' : Store) (r : Req) (items : List SItem) (t : List Byte) : Past bufSize signed hs s →
      r.Fine → handle s (r.line ++ [10]) = .ok (s', items) → Reads bufSize signed items t →
      Past bufSize signed (hs ++ [.served r t]) s'
  | died (hs : List Happening) (s s' : Store) : Past bufSize signed hs s → create s.mem false = .ok s' →
      Past bufSize signed (hs ++ [.died]) s'
  | torn (hs : List Happening) (s s' : Store) (name value : List Byte) (plan : Plan) (m' : List Byte) :
      Past bufSize signed hs s → (Req.put name value).Fine → setPlan s name value = .ok plan →
      Crashed s.mem plan.writes m' → create m' false = .ok s' → Past bufSize signed (hs ++ [.torn name value]) s'

/-- The client has sent this value for the name: the request was answered, or power was lost meanwhile. -/
def Happening.Sent (name : List Byte) : Happening → List Byte → Prop
  | .served (.put name' value) _, v => name' = name ∧ v = value
  | .served _ _, _ => False
  | .died, _ => False
  | .torn name' value, v => name' = name ∧ v = value

/-! ## Single requests -/

/-- A line which stores a value. -/
theorem handle_put {bufSize : Nat} {signed : Bool} (hb : 8 ≤ bufSize) {s s1 : Store} {name value : List Byte}
    (hr : (Req.put name value).Fine) {items : List SItem} {t : List Byte}
    (hh : handle s ((Req.put name value).line ++ [10]) = .ok (s1, items)) (ht : Reads bufSize signed items t) :
    ∃ b, Storage.set s name value = .ok (s1, b) ∧ t = if b then [0x31] else [0x30] := by
  obtain ⟨h1, h2, h3, h4⟩ := hr
  have e1 : ((0x53 :: name ++ value ++ [10] : List Byte).drop 1).take 4 = name := by
    rw [List.cons_append, List.cons_append, List.drop_one, List.tail_cons, List.append_assoc, ← h1, List.take_left]
  have e2 : ((0x53 :: name ++ value ++ [10] : List Byte).drop 5).take 4 = value := by
    rw [List.cons_append, List.cons_append, List.drop_succ_cons, List.append_assoc, ← h1, List.drop_left, h1, ← h2,
      List.take_left]
  change handle s (0x53 :: name ++ value ++ [10]) = _ at hh
  unfold handle at hh
  rw [if_pos ⟨by simp; omega, rfl⟩, e1, e2, Res.bind_eq_ok] at hh
  obtain ⟨⟨s', b⟩, k1, hh⟩ := hh
  simp only [Res.ok.injEq, Prod.mk.injEq] at hh
  obtain ⟨rfl, rfl⟩ := hh
  refine ⟨b, k1, ?_⟩
  obtain ⟨sh, ⟨d, he1, he2⟩, rfl⟩ := reads_one ht
  rw [dec_unique he1] at he2
  cases b with
  | true =>
    have hl : (intDec (if true = true then 1 else 0)).length = 1 := by decide
    rw [if_neg (by rw [hl]; simp [Shown.fresh]; omega), if_pos (by simp [Shown.fresh])] at he2
    rw [he2]
    show [] ++ intDec (if true = true then 1 else 0) = _
    decide
  | false =>
    have hl : (intDec (if false = true then 1 else 0)).length = 1 := by decide
    rw [if_neg (by rw [hl]; simp [Shown.fresh]; omega), if_pos (by simp [Shown.fresh])] at he2
    rw [he2]
    show [] ++ intDec (if false = true then 1 else 0) = _
    decide

/-- A line which asks for one. -/
theorem handle_get {bufSize : Nat} {signed : Bool} (hb : 8 ≤ bufSize) {s s1 : Store} {name : List Byte}
    (hr : (Req.get name).Fine) {items : List SItem} {t : List Byte}
    (hh : handle s ((Req.get name).line ++ [10]) = .ok (s1, items)) (ht : Reads bufSize signed items t) :
    s1 = s ∧ ∃ v, Storage.get s name 4 = .ok v ∧ Says (some (.value v)) t := by
  obtain ⟨h1, h2⟩ := hr
  have e1 : ((0x47 :: name ++ [10] : List Byte).drop 1).take 4 = name := by
    rw [List.cons_append, List.drop_one, List.tail_cons, ← h1, List.take_left]
  change handle s (0x47 :: name ++ [10]) = _ at hh
  unfold handle at hh
  rw [if_neg (by simp; try omega), if_pos ⟨by simp; try omega, rfl⟩, e1, Res.bind_eq_ok] at hh
  obtain ⟨v, hg, hh⟩ := hh
  cases v with
  | some v =>
    simp only [Res.ok.injEq, Prod.mk.injEq] at hh
    obtain ⟨rfl, rfl⟩ := hh
    have hl := get_size hg
    obtain ⟨sh, ⟨hx, k1, k2, k3⟩, rfl⟩ := reads_one ht
    have hw : (bufSize - (Shown.fresh.text).length) / 2 = bufSize / 2 := by simp [Shown.fresh]
    rw [hw] at k1 k2
    rw [List.take_of_length_le (by omega)] at k1
    rw [k3]
    refine ⟨rfl, some v, hg, ?_, ?_⟩
    · show unhex ([] ++ hx) = _
      exact k1
    · show ([] ++ hx).length = _
      rw [List.nil_append, k2]
      omega
  | none =>
    simp only [Res.ok.injEq, Prod.mk.injEq] at hh
    obtain ⟨rfl, rfl⟩ := hh
    refine ⟨rfl, none, hg, ?_⟩
    obtain ⟨sh, he, rfl⟩ := reads_one ht
    change sh = _ at he
    rw [he]
    show ([] ++ [_]).take bufSize = _
    rw [List.nil_append, List.take_of_length_le (by simp; omega)]

/-- Any other line leaves the storage alone. -/
theorem handle_other {s s1 : Store} {line : List Byte} (hr : (Req.other line).Fine) {items : List SItem}
    (hh : handle s ((Req.other line).line ++ [10]) = .ok (s1, items)) : s1 = s := by
  obtain ⟨h1, h2, h3⟩ := hr
  have h0 : ∀ k, ¬ k = 0 → ∀ c : Byte, ¬ (line.length = k ∧ line[0]? = some c) →
      ¬ ((line ++ [10]).length = k + 1 ∧ (line ++ [10])[0]? = some c) := by
    intro k hk c hn ⟨g1, g2⟩
    simp at g1
    rw [List.getElem?_append_left (by omega)] at g2
    exact hn ⟨g1, g2⟩
  change handle s (line ++ [10]) = _ at hh
  unfold handle at hh
  rw [if_neg (show ¬ (_ = 10 ∧ _) from h0 9 (by omega) _ h2),
    if_neg (show ¬ (_ = 6 ∧ _) from h0 5 (by omega) _ h3)] at hh
  simp only [Res.ok.injEq, Prod.mk.injEq] at hh
  exact hh.1.symm

/-! ## The storage underneath -/

/-- What a happening does to the storage. -/
def Happening.events : Happening → List Event
  | .served (.put name value) _ => [.set name value]
  | .served _ _ => []
  | .died => [.reopen]
  | .torn name value => [.crash name value]

/-- The requests are well-formed. -/
def Happening.Fine : Happening → Prop
  | .served r _ => r.Fine
  | .died => True
  | .torn name value => (Req.put name value).Fine

theorem Happening.Fine.fits {x : Happening} (h : x.Fine) : ∀ e ∈ x.events, e.Fits 4 := by
  intro e he
  rcases x with ⟨r, t⟩ | _ | ⟨n, v⟩
  · rcases r with ⟨n, v⟩ | _ | _
    · cases List.mem_singleton.1 he
      exact ⟨by rw [h.1], h.2.1⟩
    · cases he
    · cases he
  · cases List.mem_singleton.1 he
    exact trivial
  · cases List.mem_singleton.1 he
    exact ⟨by rw [h.1], h.2.1⟩

theorem later_snoc {s s1 s2 : Store} {es : List Event} {e : Event} (h : Later s es s1) (he : Happens s1 e s2) :
    Later s (es ++ [e]) s2 := by
  induction h with
  | nil s => exact .cons _ _ _ _ _ he (.nil _)
  | cons s s1 s3 e' es h1 _ ih => exact .cons _ _ _ _ _ h1 (ih he)

/-- The last happening. -/
theorem Past.snoc {bufSize : Nat} {signed : Bool} (hb : 8 ≤ bufSize) {hs : List Happening} {x : Happening} {s' : Store}
    (h : Past bufSize signed (hs ++ [x]) s') :
    ∃ s, Past bufSize signed hs s ∧ x.Fine ∧ ∀ s0 es, Later s0 es s → Later s0 (es ++ x.events) s' := by
  generalize hg : hs ++ [x] = l at h
  cases h with
  | first m s _ _ => simp at hg
  | served hs1 s _ r items t hp hf hh ht =>
    obtain ⟨rfl, hx⟩ := List.append_inj' hg rfl
    cases hx
    refine ⟨s, hp, ?_⟩
    cases r with
    | put name value =>
      obtain ⟨b, hset, -⟩ := handle_put hb hf hh ht
      exact ⟨hf, fun s0 es hl => later_snoc hl (.set _ _ _ _ _ hset)⟩
    | get name =>
      obtain ⟨rfl, -⟩ := handle_get hb hf hh ht
      exact ⟨hf, fun s0 es hl => by simpa [Happening.events] using hl⟩
    | other line =>
      obtain rfl := handle_other hf hh
      exact ⟨hf, fun s0 es hl => by simpa [Happening.events] using hl⟩
  | died hs1 s _ hp hc =>
    obtain ⟨rfl, hx⟩ := List.append_inj' hg rfl
    cases hx
    exact ⟨s, hp, trivial, fun s0 es hl => later_snoc hl (.reopen _ _ hc)⟩
  | torn hs1 s _ name value plan m' hp hf h1 h2 h3 =>
    obtain ⟨rfl, hx⟩ := List.append_inj' hg rfl
    cases hx
    exact ⟨s, hp, hf, fun s0 es hl => later_snoc hl (.crash _ _ _ _ plan m' h1 h2 h3)⟩

/-- The happenings since a moment. -/
theorem Past.since {bufSize : Nat} {signed : Bool} (hb : 8 ≤ bufSize) (a : List Happening) : ∀ (n : Nat) (b : List Happening),
    b.length = n → ∀ {s' : Store}, Past bufSize signed (a ++ b) s' →
    ∃ s, Past bufSize signed a s ∧ Later s (b.flatMap Happening.events) s' ∧ ∀ x ∈ b, x.Fine := by
  intro n
  induction n with
  | zero =>
    intro b hn s' h
    cases List.length_eq_zero_iff.1 hn
    rw [List.append_nil] at h
    exact ⟨s', h, .nil _, by simp⟩
  | succ n ih =>
    intro b hn s' h
    rcases List.eq_nil_or_concat b with rfl | ⟨b', x, rfl⟩
    · simp at hn
    · rw [List.concat_eq_append, ← List.append_assoc] at h
      obtain ⟨s1, h1, h2, h3⟩ := h.snoc hb
      obtain ⟨s, k1, k2, k3⟩ := ih b' (by simpa using hn) h1
      refine ⟨s, k1, ?_, ?_⟩
      · rw [List.concat_eq_append, List.flatMap_append]
        simpa using h3 _ _ k2
      · intro y hy
        rw [List.concat_eq_append, List.mem_append] at hy
        rcases hy with hy | hy
        · exact k3 y hy
        · rw [List.mem_singleton.1 hy]; exact h2

theorem fits_all {b : List Happening} (h : ∀ x ∈ b, x.Fine) : ∀ e ∈ b.flatMap Happening.events, e.Fits 4 := by
  intro e he
  obtain ⟨x, hx, he⟩ := List.mem_flatMap.1 he
  exact (h x hx).fits e he

theorem Past.uniform {bufSize : Nat} {signed : Bool} (hb : 8 ≤ bufSize) {hs : List Happening} {s : Store}
    (h : Past bufSize signed hs s) : Uniform 4 s := by
  have h' : Past bufSize signed ([] ++ hs) s := h
  obtain ⟨s0, h0, h1, h2⟩ := h'.since hb [] _ hs rfl
  have : Uniform 4 s0 := by
    generalize hg : ([] : List Happening) = l at h0
    cases h0 with
    | first m s h3 h4 => exact .init m _ h3 h4
    | _ => simp at hg
  exact this.later h1 (fits_all h2)

/-- Names of four bytes which are equal without the NULs at their ends are equal. -/
theorem stripNul_inj {a b : List Byte} (ha : a.length = 4) (hb : b.length = 4) (h : stripNul a = stripNul b) : a = b := by
  obtain ⟨i, hi⟩ := eq_stripNul_append a
  obtain ⟨j, hj⟩ := eq_stripNul_append b
  have h1 := congrArg List.length hi
  have h2 := congrArg List.length hj
  rw [List.length_append, List.length_replicate, ha, h] at h1
  rw [List.length_append, List.length_replicate, hb] at h2
  rw [hi, hj, h, show i = j by omega]

theorem writes_sent {name o : List Byte} (hn : name.length = 4) {b : List Happening} (hf : ∀ x ∈ b, x.Fine) {e : Event}
    (he : e ∈ b.flatMap Happening.events) (hw : e.Writes name 4 o) : ∃ x ∈ b, x.Sent name o := by
  obtain ⟨x, hx, he⟩ := List.mem_flatMap.1 he
  have hf := hf x hx
  refine ⟨x, hx, ?_⟩
  rcases x with ⟨r, t⟩ | _ | ⟨n, v⟩
  · rcases r with ⟨n, v⟩ | _ | _
    · cases List.mem_singleton.1 he
      exact ⟨stripNul_inj hf.1 hn hw.1, hw.2.2⟩
    · cases he
    · cases he
  · cases List.mem_singleton.1 he
    cases hw
  · cases List.mem_singleton.1 he
    exact ⟨stripNul_inj hf.1 hn hw.1, hw.2.2⟩

/-! ## The theorems -/

/-- **C133**: an acknowledged value is never lost.  If a request to store `value` was answered `1`, then every later
request for that name is answered with eight hexadecimal digits, whatever happened in between; they are the digits of
`value` unless the client has sent another value since; and if it has, each byte is that of one of the values sent. -/
theorem acknowledged_kept {bufSize : Nat} {signed : Bool} (hb : 8 ≤ bufSize) {a b : List Happening} {name value t : List Byte}
    {s : Store} (h : Past bufSize signed (a ++ .served (.put name value) [0x31] :: b ++ [.served (.get name) t]) s) :
    ∃ v, unhex t = some v ∧ t.length = 8 ∧ ((∀ x ∈ b, ∀ o, ¬ x.Sent name o) → v = value) ∧
      ∀ i : Nat, v[i]? = value[i]? ∨ ∃ x ∈ b, ∃ o, x.Sent name o ∧ v[i]? = o[i]? := by
  have hget : ∃ s2, Past bufSize signed (a ++ .served (.put name value) [0x31] :: b) s2 ∧ (Req.get name).Fine ∧
      ∃ v, Storage.get s2 name 4 = .ok v ∧ Says (some (.value v)) t := by
    generalize hg : a ++ .served (.put name value) [0x31] :: b ++ [.served (.get name) t] = l at h
    cases h with
    | first => simp at hg
    | served hs1 s2 _ r items t hp hf hh ht =>
      obtain ⟨rfl, hx⟩ := List.append_inj' hg rfl
      cases hx
      exact ⟨s2, hp, hf, (handle_get hb hf hh ht).2⟩
    | died => obtain ⟨-, hx⟩ := List.append_inj' hg rfl; cases hx
    | torn => obtain ⟨-, hx⟩ := List.append_inj' hg rfl; cases hx
  obtain ⟨s2, h2, hn, w, hw, hsays⟩ := hget
  rw [show a ++ .served (.put name value) [0x31] :: b = (a ++ [.served (.put name value) [0x31]]) ++ b from by simp] at h2
  obtain ⟨s1, h1, hl, hf⟩ := h2.since hb _ _ b rfl
  have hset : ∃ s0, Past bufSize signed a s0 ∧ (Req.put name value).Fine ∧ Storage.set s0 name value = .ok (s1, true) := by
    generalize hg : a ++ [.served (.put name value) [0x31]] = l at h1
    cases h1 with
    | first => simp at hg
    | served hs1 s0 _ r items t hp hf hh ht =>
      obtain ⟨rfl, hx⟩ := List.append_inj' hg rfl
      cases hx
      obtain ⟨b, h3, h4⟩ := handle_put hb hf hh ht
      cases b with
      | true => exact ⟨s0, hp, hf, h3⟩
      | false => simp at h4
    | died => obtain ⟨-, hx⟩ := List.append_inj' hg rfl; cases hx
    | torn => obtain ⟨-, hx⟩ := List.append_inj' hg rfl; cases hx
  obtain ⟨s0, h0, hp, hset⟩ := hset
  obtain ⟨-, v, hv, k1, k2⟩ := uniform_kept (n := 4) (by omega) (h0.uniform hb) name value (by rw [hp.1])
    hp.2.1 hset _ (fits_all hf) hl
  rw [hw] at hv
  cases hv
  refine ⟨v, hsays.1, hsays.2, fun hno => k1 fun e he o ho => ?_, fun i => ?_⟩
  · obtain ⟨x, hx, hs⟩ := writes_sent hn.1 hf he ho
    exact hno x hx o hs
  · rcases k2 i with k2 | ⟨e, he, o, ho, hi⟩
    · exact .inl k2
    · obtain ⟨x, hx, hs⟩ := writes_sent hn.1 hf he ho
      exact .inr ⟨x, hx, o, hs, hi⟩

/-- The program's own part does nothing undefined, whatever the line and whatever happened before. -/
theorem sound_uniform (bufSize : Nat) (signed : Bool) : Sound handle bufSize signed (Uniform 4) := by
  intro s p h
  obtain ⟨-, -, hget, hset, -⟩ := uniform_inUse (n := 4) (by omega) h
  have hint : ∀ n : Int, ¬ Wrong bufSize signed [.int n] := fun n => not_wrong (fun s hs => by
    rintro ⟨d, -, -, h, -⟩
    omega)
  unfold handle
  by_cases h1 : p.length = 10 ∧ p[0]? = some 0x53
  · rw [if_pos h1]
    obtain ⟨s', b, k1⟩ := hset ((p.drop 1).take 4) ((p.drop 5).take 4) (by simp) (by simp; omega)
    exact ⟨s', _, by rw [k1]; rfl, .event _ _ (.set _ _) h ⟨by simp, by simp; omega⟩ (.set _ _ _ _ _ k1),
      by simp [SItem.Valid], hint _⟩
  · rw [if_neg h1]
    by_cases h2 : p.length = 6 ∧ p[0]? = some 0x47
    · obtain ⟨v, hv⟩ := hget ((p.drop 1).take 4) 4
      rw [if_pos h2, hv, Res.bind_ok]
      cases v with
      | some v => exact ⟨s, _, rfl, h, by simp [SItem.Valid], not_wrong (fun _ _ h => h)⟩
      | none => exact ⟨s, _, rfl, h, by simp [SItem.Valid], not_wrong (fun _ _ h => h)⟩
    · rw [if_neg h2]
      exact ⟨s, _, rfl, h, by simp [SItem.Valid], not_wrong (fun _ _ h => h)⟩

theorem Past.answers {bufSize : Nat} {signed : Bool} (rs : List Req) (hr : ∀ r ∈ rs, r.Fine) : ∀ {hs : List Happening} {s s' : Store}
    {ts : List (List Byte)}, Past bufSize signed hs s → Answers handle bufSize signed s (rs.map Req.line) ts s' →
    ts.length = rs.length ∧ Past bufSize signed (hs ++ List.zipWith Happening.served rs ts) s' := by
  induction rs with
  | nil => intro hs s s' ts h ha; cases ha; exact ⟨rfl, by simpa using h⟩
  | cons r rs ih =>
    intro hs s s' ts h ha
    simp only [List.mem_cons, forall_eq_or_imp] at hr
    cases ha with
    | cons _ s1 _ items _ t _ ts hh ht ha =>
      obtain ⟨h1, h2⟩ := ih hr.2 (.served _ _ _ _ _ _ h hr.1 hh ht) ha
      exact ⟨by simp [h1], by simpa using h2⟩

/-- **C133**: after any power loss the program can start again.  Whatever has happened, opening the storage succeeds and
yields the storage which was in use. -/
theorem restarts {bufSize : Nat} {signed : Bool} (hb : 8 ≤ bufSize) {hs : List Happening} {s : Store}
    (h : Past bufSize signed hs s) :
    create s.mem false = .ok s ∧ ∀ name value plan m', (Req.put name value).Fine → setPlan s name value = .ok plan →
      Crashed s.mem plan.writes m' → ∃ s', create m' false = .ok s' := by
  refine ⟨(uniform_inUse (n := 4) (by omega) (h.uniform hb)).2.2.2.2, fun name value plan m' hf hp hc => ?_⟩
  obtain ⟨-, k, hk, hfh⟩ := (h.uniform hb).slots (by omega)
  obtain ⟨m, fh⟩ := s
  simp only at hk hfh
  subst hfh
  obtain ⟨ws, hws, hm⟩ := hc
  rcases hk.writes (by omega) hf.2.1 hp hws hm with h | h
  · exact ⟨_, h.reopen (by omega)⟩
  · exact ⟨_, h.1.reopen (by omega)⟩

/-- The program has just started, for the first time or again: the serial output is new, nothing has been received. -/
structure Restarted (c : Setup) (s : State Store δ) (bufSize : Nat) : Prop where
  out : ∃ buf, buf.length = bufSize ∧ s.out = BOut.new buf
  mem : c.Fine s.mem
  idle : s.unread = []

theorem restarted_idle {c : Setup} {s : State Store δ} {bufSize : Nat} (h : Restarted c s bufSize) (h0 : 8 ≤ bufSize)
    (h1 : bufSize ≤ 65535) : Idle s.out bufSize := by
  obtain ⟨buf, rfl, ho⟩ := h.out
  rw [ho]
  exact ⟨Nat.zero_le _, rfl, rfl, by omega, h1⟩

/-- **C133**, ESP32: between two power losses each line the client sends is answered, in order, and the answers continue
the past, so `acknowledged_kept` applies to them. -/
theorem esp_life (c : Setup) (drv : Device.Driver) (port : Int) (bufSize : Nat) (hb : 8 ≤ bufSize) (hb' : bufSize ≤ 65535)
    (T : Nat) (hfuel : c.size ≤ c.fuel) (hto : c.timeout = 0 ∨ T ≤ c.timeout) (hto' : c.timeout < 65536) (turns : List Turn)
    (hq : ∀ t ∈ turns, Quick ⟨t.clock, fun _ => none⟩ c.size T) (hs : List Happening) (s : State Store Device.St)
    (hp : Past bufSize c.signed hs s.st) (hst : Restarted c s bufSize)
    (rs : List Req) (hr : ∀ r ∈ rs, r.Fine ∧ r.line.length + 1 < c.size) (rest : List Byte)
    (hin : InTime [] turns (rs.map Req.line) rest) :
    ∃ s' ts cs, serve (espRound handle c drv port) s turns = .ok s' ∧ s'.dev.calls = s.dev.calls ++ cs ∧ s'.unread = rest ∧
      ts.length = rs.length ∧ Past bufSize c.signed (hs ++ List.zipWith Happening.served rs ts) s'.st ∧
      (packets port cs).flatten = wireOf ts ∧ ((∀ l, 65535 ≤ drv.written l) → onWire drv port s.dev.calls cs = wireOf ts) := by
  obtain ⟨s', ts, cs, k1, k2, -, -, -, k6, k7, k8, k9⟩ := esp_serves handle c drv port bufSize _
    (sound_uniform bufSize c.signed) T hfuel hto hto' turns hq s (hp.uniform hb) (restarted_idle hst hb hb')
    hst.mem (rs.map Req.line) rest (hst.idle ▸ hin) (by
      intro q hq
      obtain ⟨r, h1, rfl⟩ := List.mem_map.1 hq
      exact (hr r h1).2)
  obtain ⟨h1, h2⟩ := Past.answers rs (fun r h => (hr r h).1) hp k2
  exact ⟨s', ts, cs, k1, k7, k6, h1, h2, k8, k9⟩

/-- **C133**, Arduino: the same for a client which waits for each answer. -/
theorem arduino_life (c : Setup) (bufSize : Nat) (hb : 8 ≤ bufSize) (hb' : bufSize ≤ 65535) (turns : List Turn)
    (hs : List Happening) (s : State Store ADev) (hp : Past bufSize c.signed hs s.st) (hst : Restarted c s bufSize)
    (rs : List Req) (hr : ∀ r ∈ rs, r.Fine ∧ r.line.length + 1 < c.size) (hl : LockStep turns (rs.map Req.line)) :
    ∃ s' ts cs, serve (arduinoRound handle c) s turns = .ok s' ∧ s'.dev.calls = s.dev.calls ++ cs ∧ s'.unread = [] ∧
      ts.length = rs.length ∧ Past bufSize c.signed (hs ++ List.zipWith Happening.served rs ts) s'.st ∧
      ((written s.dev.timeout cs).map Prod.snd).flatten = wireOf ts := by
  obtain ⟨s', ts, cs, k1, k2, -, -, -, k6, k7, k8, k9⟩ := arduino_serves handle c bufSize _
    (sound_uniform bufSize c.signed) turns s (hp.uniform hb) (restarted_idle hst hb hb') hst.mem hst.idle
  rw [lockStep_cut hl c.size (by
      intro q hq
      obtain ⟨r, h1, rfl⟩ := List.mem_map.1 hq
      exact line_fine (hr r h1).1) (by
      intro q hq
      obtain ⟨r, h1, rfl⟩ := List.mem_map.1 hq
      exact (hr r h1).2)] at k2
  obtain ⟨h1, h2⟩ := Past.answers rs (fun r h => (hr r h).1) hp k2
  exact ⟨s', ts, cs, k1, k8, k6, h1, h2, k9⟩

/-! ## An example -/

/-- What is *not* guaranteed: that only values which were sent can be read.  Power is lost while the first value is stored
for the name `oops`; its size has reached memory, the name has not.  Then there is a value for the name of four NULs, for
which nothing was ever sent. -/
theorem phantom : ∃ hs s, Past 8 true hs s ∧ (∀ x ∈ hs, ∀ o, ¬ x.Sent [0, 0, 0, 0] o) ∧
    Storage.get s [0, 0, 0, 0] 4 = .ok (some [1, 0, 0, 0]) := by
  have hc : CapOk (List.replicate 16 (0xFF : Byte)).length := by rw [List.length_replicate]; unfold CapOk; omega
  have h0 : Past 8 true [] ⟨List.replicate 16 0, 0⟩ := .first (List.replicate 16 0xFF) _ hc (by decide +kernel)
  refine ⟨[.torn [111, 111, 112, 115] [1, 2, 3, 4]], ⟨[10, 0, 0, 0, 0, 0, 1] ++ List.replicate 9 0, 10⟩, ?_, ?_, by decide +kernel⟩
  · exact .torn _ _ _ _ _ ⟨[(2, 111), (3, 111), (4, 112), (5, 115), (0, 10), (1, 0), (6, 1), (7, 2), (8, 3), (9, 4)], 10, true⟩
      ([10, 0, 0, 0, 0, 0, 1] ++ List.replicate 9 0) h0 ⟨rfl, rfl, by decide, by decide⟩
      (by decide +kernel) ⟨[(0, 10), (6, 1)], by decide, by decide +kernel⟩ (by decide +kernel)
  · intro x hx o
    cases List.mem_singleton.1 hx
    rintro ⟨h, -⟩
    exact absurd h (by decide)

/-- The storage after `S` `name` `abcd`. -/
def kept : Store := ⟨[10, 0, 110, 97, 109, 101, 97, 98, 99, 100] ++ List.replicate 22 0, 10⟩

/-- After power was lost while `wxyz` was written for the same name: `w` and `z` have reached memory. -/
def torn : Store := ⟨[10, 0, 110, 97, 109, 101, 119, 98, 99, 122] ++ List.replicate 22 0, 10⟩

theorem reads_ack : Reads 8 true [.int 1] [0x31] :=
  ⟨{ Shown.fresh with text := [0x31] }, .step _ _ _ _ _ (by rintro ⟨d, -, -, h, -⟩; simp [Shown.fresh] at h; omega)
    ⟨intDec 1, ⟨intDec_parse _, intDec_canonical _⟩, by decide⟩ (.nil _), rfl⟩

/-- `abcd` is acknowledged, power is lost, another name is being written when it is lost again, and `abcd` is still there:
`61626364`.  Then power is lost while it is overwritten, and a mixture is left: `7762637A`. -/
example : ∃ (s s' : Store) (name : List Byte), name = [110, 97, 109, 101] ∧
    Past 8 true [.served (.put name [97, 98, 99, 100]) [0x31], .died, .torn [111, 111, 112, 115] [1, 2, 3, 4]] s ∧
    Storage.get s name 4 = .ok (some [97, 98, 99, 100]) ∧ s.freeHead = 20 ∧
    Past 8 true [.served (.put name [97, 98, 99, 100]) [0x31], .died, .torn name [119, 120, 121, 122]] s' ∧
    Storage.get s' name 4 = .ok (some [119, 98, 99, 122]) := by
  have hc : CapOk (List.replicate 32 (0xFF : Byte)).length := by rw [List.length_replicate]; unfold CapOk; omega
  have h0 : Past 8 true [] ⟨List.replicate 32 0, 0⟩ := .first (List.replicate 32 0xFF) _ hc (by decide +kernel)
  have hk : handle ⟨List.replicate 32 0, 0⟩ ((Req.put [110, 97, 109, 101] [97, 98, 99, 100]).line ++ [10]) =
      .ok (kept, [.int 1]) := by
    unfold handle
    rw [if_pos (by decide), show Storage.set ⟨List.replicate 32 0, 0⟩ _ _ = .ok (kept, true) from by decide +kernel]
    rfl
  have h1 : Past 8 true [.served (.put [110, 97, 109, 101] [97, 98, 99, 100]) [0x31]] kept :=
    .served [] _ _ _ _ _ h0 ⟨rfl, rfl, by decide, by decide⟩ hk reads_ack
  have h2 : Past 8 true [.served (.put [110, 97, 109, 101] [97, 98, 99, 100]) [0x31], .died] kept :=
    .died _ _ _ h1 (by decide +kernel)
  refine ⟨⟨[10, 0, 110, 97, 109, 101, 97, 98, 99, 100, 10] ++ List.replicate 21 0, 20⟩, torn, _, rfl, ?_, by decide +kernel,
    rfl, ?_, by decide +kernel⟩
  · exact .torn _ _ _ _ _ ⟨[(12, 111), (13, 111), (14, 112), (15, 115), (10, 10), (11, 0), (16, 1), (17, 2), (18, 3), (19, 4)], 20, true⟩
      ([10, 0, 110, 97, 109, 101, 97, 98, 99, 100, 10] ++ List.replicate 21 0) h2 ⟨rfl, rfl, by decide, by decide⟩
      (by decide +kernel) ⟨[(10, 10)], by decide, by decide +kernel⟩ (by decide +kernel)
  · exact .torn _ _ _ _ _ ⟨[(6, 119), (7, 120), (8, 121), (9, 122)], 10, true⟩ torn.mem h2 ⟨rfl, rfl, by decide, by decide⟩
      (by decide +kernel) ⟨[(6, 119), (9, 122)], by decide, by decide +kernel⟩ (by decide +kernel)

end Verif.App.KeyValue
