import Verif.Uart.Server
import Verif.Storage.Props
/-!
# C121: a key-value store on a serial line

A program of the kind the library is made for: it keeps a `PersistentStorage` and serves it on the serial line.  `Snameabcd`
stores the four characters `abcd` under the name `name`, and is answered `1` or `0`; `Gname` is answered with the stored
characters in hexadecimal, or `-`; everything else with `?`.

The program is the user's, everything it calls is the code modelled elsewhere.
-/
namespace Verif.App.KeyValue
open Verif Verif.Storage Verif.Out Verif.Uart Verif.Uart.Wire Verif.Uart.Lines Verif.Uart.Portable Verif.Uart.Server

/-! ## The program -/

/-- The part of the program between receiving and printing; `p` is the packet received:
```
if (n == 10 && buf[0] == 'S')
    out << int(storage.set(std::string_view(buf + 1, 4), *reinterpret_cast<std::array<uint8_t, 4>*>(buf + 5)));
else if (n == 6 && buf[0] == 'G') {
    if (auto v = storage.get<std::array<uint8_t, 4>>(std::string_view(buf + 1, 4))) out << ConstBytesView(*v); else out << "-";
} else
    out << "?";
out << endl;
``` -/
def handle (s : Store) (p : List Byte) : Res (Store × List SItem) :=
  if p.length = 10 ∧ p[0]? = some 0x53 then do
    let (s', b) ← Storage.set s ((p.drop 1).take 4) ((p.drop 5).take 4)
    .ok (s', [.int (if b then 1 else 0)])
  else if p.length = 6 ∧ p[0]? = some 0x47 then do
    let v ← Storage.get s ((p.drop 1).take 4) 4
    match v with
    | some v => .ok (s, [.bytes v])
    | none => .ok (s, [.cstr [0x2D] []])
  else .ok (s, [.cstr [0x3F] []])

/-! ## Specification -/

/-- What a client may send: the requests, or any other line. -/
inductive Req where
  | put (name value : List Byte)
  | get (name : List Byte)
  | other (line : List Byte)

/-- The line sent, without the newline. -/
def Req.line : Req → List Byte
  | .put name value => 0x53 :: name ++ value
  | .get name => 0x47 :: name
  | .other line => line

/-- Names and values have four characters; an other line is no request; none contains a newline. -/
def Req.Fine : Req → Prop
  | .put name value => name.length = 4 ∧ value.length = 4 ∧ 10 ∉ name ∧ 10 ∉ value
  | .get name => name.length = 4 ∧ 10 ∉ name
  | .other line => 10 ∉ line ∧ ¬ (line.length = 9 ∧ line[0]? = some 0x53) ∧ ¬ (line.length = 5 ∧ line[0]? = some 0x47)

/-- What is done in the map. -/
def Req.op : Req → Option Storage.Op
  | .put name value => some (.set name value)
  | .get name => some (.get name 4)
  | .other _ => none

/-- The results of the requests in a bounded map (C01). -/
def results (cap : Nat) : AMap → List Req → List (Option Storage.Out)
  | _, [] => []
  | a, r :: rs =>
    match r.op with
    | none => none :: results cap a rs
    | some op => some (a.step cap op).2 :: results cap (a.step cap op).1 rs

/-- The answer `t` tells the result. -/
def Says : Option Storage.Out → List Byte → Prop
  | some (.flag true), t => t = [0x31]
  | some (.flag false), t => t = [0x30]
  | some (.value (some v)), t => unhex t = some v ∧ t.length = 8
  | some (.value none), t => t = [0x2D]
  | some .opened, _ => False
  | none, t => t = [0x3F]

/-! ## Proof -/

/-- **C121**: a client can tell the results apart. -/
theorem says_unique {r r' : Option Storage.Out} {t : List Byte} (h : Says r t) (h' : Says r' t) : r = r' := by
  rcases r with _ | (b | v | _) <;> rcases r' with _ | (b' | v' | _)
  all_goals (try cases b) <;> (try cases b') <;> (try cases v) <;> (try cases v')
  all_goals simp_all [Says]

theorem dec_unique {t : List Byte} {n : Int} (h : IsDec t n) : t = intDec n :=
  canonical_text_unique _ _ _ h.2 (intDec_canonical _) h.1 (intDec_parse _)

/-- Implemented in a region of `cap` bytes. -/
def Holds (cap : Nat) (s : Store) (a : AMap) : Prop := Implements s a ∧ s.mem.length = cap

theorem step_set {cap : Nat} {s : Store} {a : AMap} (h : Holds cap s a) (name value : List Byte) (hn : name.length = 4)
    (hv : value.length = 4) : ∃ s', Storage.set s name value = .ok (s', (a.set cap name value).2) ∧
      Holds cap s' (a.set cap name value).1 := by
  obtain ⟨s', h1, h2, h3⟩ := implements_step h.1 h.2 (.set name value) ⟨by omega, by omega⟩
  refine ⟨s', ?_, h2, h3⟩
  simp only [Storage.step, AMap.step] at h1
  cases hr : Storage.set s name value with
  | ok r =>
    rw [hr, Res.bind_ok] at h1
    simp only [Res.ok.injEq, Prod.mk.injEq, Storage.Out.flag.injEq] at h1
    rw [← h1.1, ← h1.2]
  | ub => rw [hr] at h1; cases h1
  | hang => rw [hr] at h1; cases h1

theorem step_get {cap : Nat} {s : Store} {a : AMap} (h : Holds cap s a) (name : List Byte) (hn : name.length = 4) :
    Storage.get s name 4 = .ok (a.get name 4) := by
  obtain ⟨s', h1, -, -⟩ := implements_step h.1 h.2 (.get name 4) ⟨by omega, by omega⟩
  simp only [Storage.step, AMap.step] at h1
  cases hr : Storage.get s name 4 with
  | ok v =>
    rw [hr, Res.bind_ok] at h1
    simp only [Res.ok.injEq, Prod.mk.injEq, Storage.Out.value.injEq] at h1
    rw [h1.2]
  | ub => rw [hr] at h1; cases h1
  | hang => rw [hr] at h1; cases h1

/-- What is printed for one item into an idle output. -/
theorem reads_one {cap : Nat} {signed : Bool} {i : SItem} {t : List Byte} (h : Reads cap signed [i] t) :
    ∃ s, Effect cap .fresh s (i.asked signed) ∧ s.text = t := by
  obtain ⟨s, h, rfl⟩ := h
  cases h with
  | step _ s1 _ _ _ _ he h =>
    cases h
    exact ⟨_, he, rfl⟩

/-- The program's own part does nothing undefined, whatever the line. -/
theorem sound (cap bufSize : Nat) (signed : Bool) :
    Sound handle bufSize signed (fun s => ∃ a, Holds cap s a) := by
  rintro s p ⟨a, h⟩
  have hint : ∀ n : Int, ¬ Wrong bufSize signed [.int n] := fun n => not_wrong (fun s hs => by
    rintro ⟨d, -, -, h, -⟩
    omega)
  unfold handle
  by_cases h1 : p.length = 10 ∧ p[0]? = some 0x53
  · rw [if_pos h1]
    obtain ⟨s', k1, k2⟩ := step_set h ((p.drop 1).take 4) ((p.drop 5).take 4) (by simp; omega) (by simp; omega)
    exact ⟨s', _, by rw [k1]; rfl, ⟨_, k2⟩, by simp [SItem.Valid], hint _⟩
  · rw [if_neg h1]
    by_cases h2 : p.length = 6 ∧ p[0]? = some 0x47
    · rw [if_pos h2, step_get h _ (by simp; omega), Res.bind_ok]
      cases a.get ((p.drop 1).take 4) 4 with
      | some v => exact ⟨s, _, rfl, ⟨a, h⟩, by simp [SItem.Valid], not_wrong (fun _ _ h => h)⟩
      | none => exact ⟨s, _, rfl, ⟨a, h⟩, by simp [SItem.Valid], not_wrong (fun _ _ h => h)⟩
    · rw [if_neg h2]
      exact ⟨s, _, rfl, ⟨a, h⟩, by simp [SItem.Valid], not_wrong (fun _ _ h => h)⟩

/-- What `get` returns has the size asked for. -/
theorem get_size {s : Store} {name v : List Byte} {n : Nat} (h : Storage.get s name n = .ok (some v)) : v.length = n := by
  unfold Storage.get at h
  rw [Res.bind_eq_ok] at h
  obtain ⟨pos, -, h⟩ := h
  cases pos with
  | none => cases h
  | some pos =>
    simp only [Res.bind_eq_ok] at h
    obtain ⟨b, -, h⟩ := h
    cases b with
    | false => simp at h
    | true =>
      simp only [if_true, Res.bind_eq_ok] at h
      obtain ⟨d, hd, h⟩ := h
      unfold readN at hd
      split at hd
      · simp only [Res.ok.injEq] at hd h
        cases h
        rw [← hd]
        simp
        omega
      · cases hd

/-- One answer. -/
theorem handle_says {cap bufSize : Nat} {signed : Bool} (hb : 8 ≤ bufSize) {s s1 : Store} {a : AMap} (h : Holds cap s a)
    (r : Req) (hr : r.Fine) {items : List SItem} {t : List Byte} (hh : handle s (r.line ++ [10]) = .ok (s1, items))
    (ht : Reads bufSize signed items t) :
    match r.op with
    | none => Says none t ∧ Holds cap s1 a
    | some op => Says (some (a.step cap op).2) t ∧ Holds cap s1 (a.step cap op).1 := by
  have htext : ∀ c : Byte, Reads bufSize signed [.cstr [c] []] t → t = [c] := by
    intro c ht
    obtain ⟨s, he, rfl⟩ := reads_one ht
    change s = _ at he
    rw [he]
    show ([] ++ [c]).take bufSize = _
    rw [List.nil_append, List.take_of_length_le (by simp; omega)]
  cases r with
  | put name value =>
    obtain ⟨h1, h2, h3, h4⟩ := hr
    have e1 : ((0x53 :: name ++ value ++ [10] : List Byte).drop 1).take 4 = name := by
      rw [List.cons_append, List.cons_append, List.drop_one, List.tail_cons, List.append_assoc, ← h1, List.take_left]
    have e2 : ((0x53 :: name ++ value ++ [10] : List Byte).drop 5).take 4 = value := by
      rw [List.cons_append, List.cons_append, List.drop_succ_cons, List.append_assoc, ← h1, List.drop_left, h1, ← h2,
        List.take_left]
    obtain ⟨s', k1, k2⟩ := step_set h name value h1 h2
    change handle s (0x53 :: name ++ value ++ [10]) = _ at hh
    unfold handle at hh
    rw [if_pos ⟨by simp; omega, rfl⟩, e1, e2, k1, Res.bind_ok] at hh
    simp only [Res.ok.injEq, Prod.mk.injEq] at hh
    obtain ⟨rfl, rfl⟩ := hh
    obtain ⟨sh, ⟨d, he1, he2⟩, rfl⟩ := reads_one ht
    rw [dec_unique he1] at he2
    refine ⟨?_, k2⟩
    simp only [AMap.step]
    cases hb2 : (a.set cap name value).2 with
    | true =>
      rw [hb2] at he2
      have hl : (intDec (if true = true then 1 else 0)).length = 1 := by decide
      rw [if_neg (by rw [hl]; simp [Shown.fresh]; omega), if_pos (by simp [Shown.fresh])] at he2
      rw [he2]
      show [] ++ intDec (if true = true then 1 else 0) = _
      decide
    | false =>
      rw [hb2] at he2
      have hl : (intDec (if false = true then 1 else 0)).length = 1 := by decide
      rw [if_neg (by rw [hl]; simp [Shown.fresh]; omega), if_pos (by simp [Shown.fresh])] at he2
      rw [he2]
      show [] ++ intDec (if false = true then 1 else 0) = _
      decide
  | get name =>
    obtain ⟨h1, h2⟩ := hr
    have e1 : ((0x47 :: name ++ [10] : List Byte).drop 1).take 4 = name := by
      rw [List.cons_append, List.drop_one, List.tail_cons, ← h1, List.take_left]
    have hg := step_get h name h1
    change handle s (0x47 :: name ++ [10]) = _ at hh
    unfold handle at hh
    rw [if_neg (by simp; try omega), if_pos ⟨by simp; try omega, rfl⟩, e1, hg, Res.bind_ok] at hh
    simp only [Req.op, AMap.step]
    cases hv : a.get name 4 with
    | some v =>
      rw [hv] at hh hg
      simp only [Res.ok.injEq, Prod.mk.injEq] at hh
      obtain ⟨rfl, rfl⟩ := hh
      have hl := get_size hg
      obtain ⟨sh, ⟨hx, k1, k2, k3⟩, rfl⟩ := reads_one ht
      have hw : (bufSize - (Shown.fresh.text).length) / 2 = bufSize / 2 := by simp [Shown.fresh]
      rw [hw] at k1 k2
      rw [List.take_of_length_le (by omega)] at k1
      rw [k3]
      refine ⟨⟨?_, ?_⟩, h⟩
      · show unhex ([] ++ hx) = _
        exact k1
      · show ([] ++ hx).length = _
        rw [List.nil_append, k2]
        omega
    | none =>
      rw [hv] at hh
      simp only [Res.ok.injEq, Prod.mk.injEq] at hh
      obtain ⟨rfl, rfl⟩ := hh
      exact ⟨htext _ ht, h⟩
  | other line =>
    obtain ⟨h1, h2, h3⟩ := hr
    have h0 : ∀ k, ¬ k = 0 → ∀ c : Byte, ¬ (line.length = k ∧ line[0]? = some c) →
        ¬ ((line ++ [10]).length = k + 1 ∧ (line ++ [10])[0]? = some c) := by
      intro k hk c hn ⟨g1, g2⟩
      simp at g1
      rw [List.getElem?_append_left (by omega)] at g2
      exact hn ⟨g1, g2⟩
    change handle s (line ++ [10]) = _ at hh
    unfold handle at hh
    rw [if_neg (show ¬ (_ = 10 ∧ _) from h0 9 (by omega) _ h2),
      if_neg (show ¬ (_ = 6 ∧ _) from h0 5 (by omega) _ h3)] at hh
    simp only [Res.ok.injEq, Prod.mk.injEq] at hh
    obtain ⟨rfl, rfl⟩ := hh
    exact ⟨htext _ ht, h⟩

/-- All answers. -/
theorem answers_say {cap bufSize : Nat} {signed : Bool} (hb : 8 ≤ bufSize) {s s' : Store} {a : AMap} (h : Holds cap s a)
    (rs : List Req) (hr : ∀ r ∈ rs, r.Fine) {ts : List (List Byte)}
    (ha : Answers handle bufSize signed s (rs.map Req.line) ts s') : List.Forall₂ Says (results cap a rs) ts := by
  induction rs generalizing s a ts with
  | nil => cases ha; exact .nil
  | cons r rs ih =>
    simp only [List.mem_cons, forall_eq_or_imp] at hr
    cases ha with
    | cons _ s1 _ items _ t _ ts hh ht ha =>
      have key := handle_says hb h r hr.1 hh ht
      unfold results
      cases ho : r.op with
      | none =>
        rw [ho] at key
        exact .cons key.1 (ih key.2 hr.2 ha)
      | some op =>
        rw [ho] at key
        exact .cons key.1 (ih key.2 hr.2 ha)

theorem holds_empty (m : List Byte) (hcap : CapOk m.length) :
    ∃ s, create m true = .ok s ∧ Holds m.length s AMap.empty := by
  obtain ⟨s, h1, h2⟩ := Rep.create_true m hcap
  exact ⟨s, h1, ⟨[], _, h2, clean_zeros _, by rw [h2.head]; rfl, fun name n _ => rfl⟩, by rw [h2.mem]; simp⟩

theorem line_fine {r : Req} (h : r.Fine) : 10 ∉ r.line := by
  cases r with
  | put name value =>
    obtain ⟨h1, h2, h3, h4⟩ := h
    simp only [Req.line, List.cons_append, List.mem_cons, List.mem_append, not_or]
    exact ⟨by decide, h3, h4⟩
  | get name =>
    obtain ⟨h1, h2⟩ := h
    simp only [Req.line, List.mem_cons, not_or]
    exact ⟨by decide, h2⟩
  | other line => exact h.1

/-- The program has just started: the storage is initialised, the serial output is new. -/
structure Started (c : Setup) (s : State Store δ) (region : Nat) (bufSize : Nat) : Prop where
  store : ∃ m, m.length = region ∧ create m true = .ok s.st
  out : ∃ buf, buf.length = bufSize ∧ s.out = BOut.new buf
  mem : c.Fine s.mem
  idle : s.unread = []

theorem started_idle {c : Setup} {s : State Store δ} {region bufSize : Nat} (h : Started c s region bufSize)
    (h0 : 0 < bufSize) (h1 : bufSize ≤ 65535) : Idle s.out bufSize := by
  obtain ⟨buf, rfl, ho⟩ := h.out
  rw [ho]
  exact ⟨Nat.zero_le _, rfl, rfl, h0, h1⟩

theorem started_holds {c : Setup} {s : State Store δ} {region bufSize : Nat} (h : Started c s region bufSize)
    (hcap : CapOk region) : Holds region s.st AMap.empty := by
  obtain ⟨m, rfl, hm⟩ := h.store
  obtain ⟨s', h1, h2⟩ := holds_empty m hcap
  rw [hm] at h1
  cases h1
  exact h2

/-- **C121**, ESP32: however fast the client sends, each of its lines is answered, in order, with the result of the bounded
map; the answers are the bytes on the wire if the driver accepts them. -/
theorem esp_keyValue (c : Setup) (drv : Device.Driver) (port : Int) (region bufSize : Nat) (hcap : CapOk region)
    (hb : 8 ≤ bufSize) (hb' : bufSize ≤ 65535) (T : Nat) (hfuel : c.size ≤ c.fuel)
    (hto : c.timeout = 0 ∨ T ≤ c.timeout) (hto' : c.timeout < 65536) (turns : List Turn)
    (hq : ∀ t ∈ turns, Quick ⟨t.clock, fun _ => none⟩ c.size T) (s : State Store Device.St) (hs : Started c s region bufSize)
    (rs : List Req) (hr : ∀ r ∈ rs, r.Fine ∧ r.line.length + 1 < c.size) (rest : List Byte)
    (hin : InTime [] turns (rs.map Req.line) rest) :
    ∃ s' ts cs, serve (espRound handle c drv port) s turns = .ok s' ∧ s'.dev.calls = s.dev.calls ++ cs ∧ s'.unread = rest ∧
      List.Forall₂ Says (results region AMap.empty rs) ts ∧ (packets port cs).flatten = wireOf ts ∧
      ((∀ l, 65535 ≤ drv.written l) → onWire drv port s.dev.calls cs = wireOf ts) := by
  obtain ⟨s', ts, cs, k1, k2, -, -, -, k6, k7, k8, k9⟩ := esp_serves handle c drv port bufSize _
    (sound region bufSize c.signed) T hfuel hto hto' turns hq s ⟨_, started_holds hs hcap⟩ (started_idle hs (by omega) hb')
    hs.mem (rs.map Req.line) rest (hs.idle ▸ hin) (by
      intro q hq
      obtain ⟨r, h1, rfl⟩ := List.mem_map.1 hq
      exact (hr r h1).2)
  exact ⟨s', ts, cs, k1, k7, k6, answers_say hb (started_holds hs hcap) rs (fun r h => (hr r h).1) k2, k8, k9⟩

/-- **C121**, Arduino: to a client which waits for each answer before it sends the next line, the program is the bounded map
as well. -/
theorem arduino_keyValue (c : Setup) (region bufSize : Nat) (hcap : CapOk region)
    (hb : 8 ≤ bufSize) (hb' : bufSize ≤ 65535) (turns : List Turn) (s : State Store ADev) (hs : Started c s region bufSize)
    (rs : List Req) (hr : ∀ r ∈ rs, r.Fine ∧ r.line.length + 1 < c.size) (hl : LockStep turns (rs.map Req.line)) :
    ∃ s' ts cs, serve (arduinoRound handle c) s turns = .ok s' ∧ s'.dev.calls = s.dev.calls ++ cs ∧ s'.unread = [] ∧
      s'.dev.timeout = s.dev.timeout ∧ List.Forall₂ Says (results region AMap.empty rs) ts ∧
      ((written s.dev.timeout cs).map Prod.snd).flatten = wireOf ts := by
  obtain ⟨s', ts, cs, k1, k2, -, -, -, k6, k7, k8, k9⟩ := arduino_serves handle c bufSize _
    (sound region bufSize c.signed) turns s ⟨_, started_holds hs hcap⟩ (started_idle hs (by omega) hb') hs.mem hs.idle
  rw [lockStep_cut hl c.size (by
      intro q hq
      obtain ⟨r, h1, rfl⟩ := List.mem_map.1 hq
      exact line_fine (hr r h1).1) (by
      intro q hq
      obtain ⟨r, h1, rfl⟩ := List.mem_map.1 hq
      exact (hr r h1).2)] at k2
  exact ⟨s', ts, cs, k1, k8, k6, k7, answers_say hb (started_holds hs hcap) rs (fun r h => (hr r h).1) k2, k9⟩

/-! ### Concrete cases -/

/-- `Snameabcd`, `Gname`, `Goops`, `hello`, as one burst. -/
def requests : List Req := [.put [110, 97, 109, 101] [97, 98, 99, 100], .get [110, 97, 109, 101], .get [111, 111, 112, 115],
  .other [104, 101, 108, 108, 111]]

def burst : List Turn := turn (requests.flatMap fun r => r.line ++ [10]) [] :: List.replicate 3 (turn [] [])

def start (dev : δ) : Res (State Store δ) := do
  let s ← create (List.replicate 32 0xFF) true
  .ok ⟨s, List.replicate 12 0, BOut.new (List.replicate 8 0), dev, []⟩

example : ∀ r ∈ requests, r.Fine ∧ r.line.length + 1 < 12 := by
  simp [requests, Req.Fine, Req.line]

example : InTime [] burst (requests.map Req.line) [] :=
  .cons _ (requests.tail.flatMap fun r => r.line ++ [10]) _ _ _ _ _ (by decide) (by decide)
    (.cons _ ((requests.drop 2).flatMap fun r => r.line ++ [10]) _ _ _ _ _ (by decide) (by decide)
      (.cons _ ((requests.drop 3).flatMap fun r => r.line ++ [10]) _ _ _ _ _ (by decide) (by decide)
        (.cons _ [] _ _ _ _ _ (by decide) (by decide) (.nil _))))

example : ∃ s : State Store ADev, start ⟨1000, [], []⟩ = .ok s ∧ Started ⟨12, 0, 12, true⟩ s 32 8 ∧ CapOk 32 := by
  have hc : CapOk 32 := by unfold CapOk; decide
  obtain ⟨s, h, -⟩ := holds_empty (List.replicate 32 0xFF) hc
  exact ⟨⟨s, List.replicate 12 0, BOut.new (List.replicate 8 0), ⟨1000, [], []⟩, []⟩, by rw [start, h]; rfl,
    ⟨⟨_, rfl, h⟩, ⟨_, rfl, rfl⟩, ⟨Nat.le_refl 12, by decide, by decide⟩, rfl⟩, hc⟩

/-- On ESP32: `1`, `61626364`, `-`, `?`. -/
example : sentE ((start ⟨[], fun _ => true⟩).bind fun s => serve (espRound handle ⟨12, 0, 12, true⟩ sampleDriver 1) s burst) =
    some [[0x31, 10], [0x36, 0x31, 0x36, 0x32, 0x36, 0x33, 0x36, 0x34], [10], [0x2D, 10], [0x3F, 10]] := by decide +kernel

/-- On Arduino, the same lines one at a time. -/
example : sentA ((start ⟨1000, [], []⟩).bind fun s => serve (arduinoRound handle ⟨12, 0, 12, true⟩) s
      (requests.map fun r => turn (r.line ++ [10]) [])) =
    some [[0x31, 10], [0x36, 0x31, 0x36, 0x32, 0x36, 0x33, 0x36, 0x34], [10], [0x2D, 10], [0x3F, 10]] := by decide +kernel

/-- On Arduino, the burst: the value is stored and never read. -/
example : sentA ((start ⟨1000, [], []⟩).bind fun s => serve (arduinoRound handle ⟨12, 0, 12, true⟩) s burst) =
    some [[0x31, 10], [0x3F, 10], [0x3F, 10], [0x3F, 10]] := by decide +kernel

/-- A region of 24 bytes has room for two such values. -/
example : results 24 AMap.empty [.put [1, 1, 1, 1] [1, 2, 3, 4], .put [2, 1, 1, 1] [1, 2, 3, 5], .put [3, 1, 1, 1] [1, 2, 3, 6],
      .get [2, 1, 1, 1], .get [3, 1, 1, 1]] =
    [some (.flag true), some (.flag true), some (.flag false), some (.value (some [1, 2, 3, 5])), some (.value none)] := by decide +kernel

end Verif.App.KeyValue
