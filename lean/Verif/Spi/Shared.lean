import Verif.Spi.ArduinoProps
/-!
# C89: several `SpiBus` objects on one port (`arduino/SpiBus.h`)

Several `SpiBus` objects may be constructed over the same `SPIClass`, every one with settings of its own (SpiBus.h:12-13;
bit order and mode are the same for all, so that the frequency stands for the settings).  `beginTransaction(settings)`
sets the clock of the port, which keeps it until the next `beginTransaction`; `endTransaction` does not change it.
-/
namespace Verif.Spi.Shared
open Verif Verif.Spi.Arduino

/-! ### Model -/

/-- SpiBus.h:12-13: the settings of an `SpiBus` object. -/
abbrev Settings := BitVec 32

/-- The port: the settings its clock has, what has happened on it, and the bytes sent with the settings they were sent
with. -/
structure Port where
  clock : Settings
  bus : List Ev
  wire : List (Settings × Byte)
deriving DecidableEq

/-- An event caused by an object with the settings `own`. -/
def Port.event (own : Settings) (p : Port) (e : Ev) : Port :=
  match e with
  | .beginTransaction => { p with clock := own, bus := p.bus ++ [e] }
  | .exchange sent _ => { p with bus := p.bus ++ [e], wire := p.wire ++ [(p.clock, sent)] }
  | .endTransaction => { p with bus := p.bus ++ [e] }

/-- SpiBus.cpp:89-107 `transfer` of an object with the settings `own`. -/
def transfer (peer : Peer) (own : Settings) (tx rx : Option (List Byte)) (length : BitVec 16) (p : Port) :
    Res (Bool × Option (List Byte) × Port) := do
  let (ok, rx, bus) ← Arduino.transfer peer tx rx length.toNat p.bus
  .ok (ok, rx, (bus.drop p.bus.length).foldl (Port.event own) p)

/-- SpiBus.h:17-20 `sendByte`: `spi.write(data)`, which exchanges one byte; no transaction is begun. -/
def sendByte (peer : Peer) (own : Settings) (data : Byte) (p : Port) : Port :=
  ((exchange peer p.bus data).2.drop p.bus.length).foldl (Port.event own) p

/-- SpiBus.h:22-25 `sendBytes`: `spi.writeBytes(data, length)`; no transaction is begun. -/
def sendBytes (peer : Peer) (own : Settings) (data : List Byte) (length : BitVec 16) (p : Port) : Res Port := do
  let (_, bus) ← bytes peer (some data) length.toNat 0 none p.bus
  .ok ((bus.drop p.bus.length).foldl (Port.event own) p)

/-- A call. -/
inductive Op where
  | transfer (tx rx : Option (List Byte)) (length : BitVec 16)
  | byte (data : Byte)
  | bytes (data : List Byte) (length : BitVec 16)
deriving DecidableEq

/-- A call of an object with the settings `own`. -/
def Op.run (peer : Peer) (own : Settings) (p : Port) : Op → Res Port
  | .transfer tx rx length => do
    let (_, _, p) ← Shared.transfer peer own tx rx length p
    .ok p
  | .byte data => .ok (sendByte peer own data p)
  | .bytes data length => sendBytes peer own data length p

/-- A program: calls of several objects; object `i` has the settings `cfg i`. -/
def run (peer : Peer) (cfg : Nat → Settings) : List (Nat × Op) → Port → Res Port
  | [], p => .ok p
  | (i, op) :: rest, p => do
    let p ← op.run peer (cfg i) p
    run peer cfg rest p

/-! ### Specification -/

/-- The memory of the caller is large enough. -/
def Op.Valid : Op → Prop
  | .transfer tx rx length => Room tx length.toNat ∧ Room rx length.toNat
  | .byte _ => True
  | .bytes data length => length.toNat ≤ data.length

/-- The bytes a call has to put on the wire. -/
def Op.out : Op → List Byte
  | .transfer none none _ => []
  | .transfer tx _ length => outgoing tx length.toNat
  | .byte data => [data]
  | .bytes data length => data.take length.toNat

/-- Is it a transfer? -/
def Op.isTransfer : Op → Bool
  | .transfer .. => true
  | _ => false

/-- The settings of the object which made the last transfer, `c` if there was none. -/
def lastTransfer (cfg : Nat → Settings) (c : Settings) (prog : List (Nat × Op)) : Settings :=
  match prog.reverse.find? (·.2.isTransfer) with
  | some (i, _) => cfg i
  | none => c

/-- What should be on the wire: the bytes of every call with the settings of its object. -/
def expected (cfg : Nat → Settings) (prog : List (Nat × Op)) : List (Settings × Byte) :=
  prog.flatMap fun (i, op) => op.out.map (cfg i, ·)

/-! ### What is on the wire -/

theorem foldl_exchanges (peer : Peer) (own : Settings) (before out : List Byte) (p : Port) :
    (exchanges peer before out).foldl (Port.event own) p =
      { p with bus := p.bus ++ exchanges peer before out, wire := p.wire ++ out.map (p.clock, ·) } := by
  induction out generalizing before p with
  | nil => simp [exchanges]
  | cons b bs ih =>
    rw [exchanges, List.foldl_cons, ih]
    simp [Port.event]

/-- **C89**: a transfer is clocked with the settings of its object, whatever was set before. -/
theorem transfer_clocked (peer : Peer) (own : Settings) (tx rx : Option (List Byte)) (length : BitVec 16) (p : Port)
    (ht : Room tx length.toNat) (hr : Room rx length.toNat) :
    ∃ got bus, transfer peer own tx rx length p =
      .ok (true, got, ⟨own, p.bus ++ bus, p.wire ++ (Op.transfer tx rx length).out.map (own, ·)⟩) := by
  by_cases hnull : tx ≠ none ∨ rx ≠ none
  · have hout : (Op.transfer tx rx length).out = outgoing tx length.toNat := by
      cases tx <;> cases rx <;> simp [Op.out] at hnull ⊢
    refine ⟨rx.map (fun m => answers peer (sentBytes p.bus) (outgoing tx length.toNat) ++ m.drop length.toNat),
      [.beginTransaction] ++ exchanges peer (sentBytes p.bus) (outgoing tx length.toNat) ++ [.endTransaction], ?_⟩
    rw [transfer, transfer_exact peer tx rx length.toNat p.bus hnull ht hr, hout]
    simp only [Res.bind_ok, List.append_assoc, List.drop_left, List.foldl_append, List.foldl_cons, List.foldl_nil]
    rw [foldl_exchanges]
    simp [Port.event]
  · obtain ⟨h1, h2⟩ : tx = none ∧ rx = none := by
      cases tx <;> cases rx <;> simp at hnull ⊢
    subst h1; subst h2
    refine ⟨none, [.beginTransaction, .endTransaction], ?_⟩
    rw [transfer, transfer_null]
    simp only [Res.bind_ok, List.append_assoc, List.drop_left, List.foldl_append, List.foldl_cons, List.foldl_nil]
    simp [Port.event, Op.out]

/-- **C89**: bytes sent without a transfer are clocked with whatever the port was set to last. -/
theorem sendByte_clocked (peer : Peer) (own : Settings) (data : Byte) (p : Port) :
    sendByte peer own data p =
      ⟨p.clock, p.bus ++ [.exchange data (peer (sentBytes p.bus))], p.wire ++ [(p.clock, data)]⟩ := by
  simp [sendByte, exchange, Port.event]

/-- **C89**: the same for several bytes. -/
theorem sendBytes_clocked (peer : Peer) (own : Settings) (data : List Byte) (length : BitVec 16) (p : Port)
    (hl : length.toNat ≤ data.length) :
    sendBytes peer own data length p =
      .ok ⟨p.clock, p.bus ++ exchanges peer (sentBytes p.bus) (data.take length.toNat),
        p.wire ++ (data.take length.toNat).map (p.clock, ·)⟩ := by
  have h := bytes_ok peer (some data) none length.toNat p.bus [] _ rfl
    (by intro l hl'; cases hl'; simpa using hl) (by intro l hl'; cases hl')
  simp only [incoming_nil, List.length_nil, Nat.zero_add, List.drop_zero, List.nil_append, outgoing] at h
  rw [sendBytes, h]
  simp only [Res.bind_ok, List.drop_left, foldl_exchanges]

/-- Reading behind the data is undefined behaviour. -/
theorem bytes_source_ub (peer : Peer) (data : List Byte) (n i : Nat) (bus : List Ev) (h : data.length < i + n)
    (hn : 0 < n) : bytes peer (some data) n i none bus = .ub := by
  induction n generalizing i bus with
  | zero => omega
  | succ n ih =>
    unfold bytes
    by_cases hi : i < data.length
    · simp only [source, List.getElem?_eq_getElem hi, Res.ofOption_some, Res.bind_ok, exchange, sink]
      exact ih (i + 1) _ (by omega) (by omega)
    · simp [source, List.getElem?_eq_none (Nat.le_of_not_lt hi)]

/-- **C89**: sending more bytes than there are is undefined behaviour. -/
theorem sendBytes_ub (peer : Peer) (own : Settings) (data : List Byte) (length : BitVec 16) (p : Port)
    (hl : data.length < length.toNat) : sendBytes peer own data length p = .ub := by
  rw [sendBytes, bytes_source_ub peer data length.toNat 0 p.bus (by omega) (by omega)]
  rfl

/-- The settings a call is clocked with, and those the port has afterwards. -/
theorem op_clocked (peer : Peer) (own : Settings) (op : Op) (p : Port) (hv : op.Valid) :
    ∃ bus, op.run peer own p = .ok ⟨if op.isTransfer then own else p.clock, bus,
      p.wire ++ op.out.map (if op.isTransfer then own else p.clock, ·)⟩ := by
  cases op with
  | transfer tx rx length =>
    obtain ⟨got, bus, h⟩ := transfer_clocked peer own tx rx length p hv.1 hv.2
    exact ⟨_, by simp [Op.run, h, Op.isTransfer]; rfl⟩
  | byte data => exact ⟨_, by simp [Op.run, sendByte_clocked, Op.isTransfer, Op.out]; rfl⟩
  | bytes data length =>
    exact ⟨_, by simp [Op.run, sendBytes_clocked peer own data length p hv, Op.isTransfer, Op.out]; rfl⟩

theorem lastTransfer_cons (cfg : Nat → Settings) (c : Settings) (i : Nat) (op : Op) (prog : List (Nat × Op)) :
    lastTransfer cfg c ((i, op) :: prog) = lastTransfer cfg (if op.isTransfer then cfg i else c) prog := by
  unfold lastTransfer
  rw [List.reverse_cons, List.find?_append]
  cases prog.reverse.find? (·.2.isTransfer) with
  | some x => simp
  | none =>
    cases h : op.isTransfer <;> simp [h]

/-- **C89**: every byte of every program reaches the wire once and in order; those of a transfer with the settings of
its object, the others with the settings of the object which made the last transfer before. -/
theorem run_clocked (peer : Peer) (cfg : Nat → Settings) (prog : List (Nat × Op)) (p : Port)
    (hv : ∀ x ∈ prog, x.2.Valid) :
    ∃ p' w, run peer cfg prog p = .ok p' ∧ p'.wire = p.wire ++ w ∧
      w.map (·.2) = prog.flatMap (·.2.out) ∧
      ∀ pre i op post, prog = pre ++ (i, op) :: post →
        ∃ a b, w = a ++ op.out.map (if op.isTransfer then cfg i else lastTransfer cfg p.clock pre, ·) ++ b ∧
          a.length = (pre.flatMap (·.2.out)).length := by
  induction prog generalizing p with
  | nil => exact ⟨p, [], rfl, by simp, by simp, by intro pre i op post h; simp at h⟩
  | cons x prog ih =>
    obtain ⟨i, op⟩ := x
    obtain ⟨bus, h1⟩ := op_clocked peer (cfg i) op p (hv (i, op) (by simp))
    obtain ⟨p', w, h2, h3, h4, h5⟩ := ih _ (fun x hx => hv x (by simp [hx]))
    refine ⟨p', _, by rw [run, h1, Res.bind_ok, h2], by rw [h3, List.append_assoc], ?_, ?_⟩
    · rw [List.map_append, h4, List.flatMap_cons, List.map_map]
      congr 1
      exact List.map_id' _
    · intro pre j op' post hp
      cases pre with
      | nil =>
        simp only [List.nil_append, List.cons.injEq, Prod.mk.injEq] at hp
        obtain ⟨⟨rfl, rfl⟩, rfl⟩ := hp
        exact ⟨[], w, by simp [lastTransfer], by simp⟩
      | cons y pre =>
        simp only [List.cons_append, List.cons.injEq] at hp
        obtain ⟨rfl, hp⟩ := hp
        obtain ⟨a, b, ha, hl⟩ := h5 pre j op' post hp
        refine ⟨op.out.map (if op.isTransfer then cfg i else p.clock, ·) ++ a, b, ?_, ?_⟩
        · rw [ha, lastTransfer_cons]
          simp
        · simp [hl]

theorem wire_eq (peer : Peer) (cfg : Nat → Settings) (prog : List (Nat × Op)) (p p' : Port)
    (hv : ∀ x ∈ prog, x.2.Valid) (h : run peer cfg prog p = .ok p') :
    p'.wire = p.wire ++ expected cfg prog ↔
      ∀ pre i op post, prog = pre ++ (i, op) :: post → op.isTransfer = false → op.out ≠ [] →
        lastTransfer cfg p.clock pre = cfg i := by
  induction prog generalizing p with
  | nil =>
    cases h
    simp [expected]
  | cons x prog ih =>
    obtain ⟨i, op⟩ := x
    obtain ⟨bus, h1⟩ := op_clocked peer (cfg i) op p (hv (i, op) (by simp))
    rw [run, h1, Res.bind_ok] at h
    have hi := ih _ (fun x hx => hv x (by simp [hx])) h
    obtain ⟨q, w, h2, h3, h4, -⟩ := run_clocked peer cfg prog
      ⟨if op.isTransfer then cfg i else p.clock, bus, p.wire ++ op.out.map (if op.isTransfer then cfg i else p.clock, ·)⟩
      (fun x hx => hv x (by simp [hx]))
    rw [h2] at h
    cases h
    -- the bytes of the first call have the right settings
    have hsplit : p'.wire = p.wire ++ expected cfg ((i, op) :: prog) ↔
        (op.out.map (fun b => (if op.isTransfer then cfg i else p.clock, b)) = op.out.map (cfg i, ·)) ∧
          w = expected cfg prog := by
      rw [h3, expected, List.flatMap_cons, List.append_assoc, List.append_cancel_left_eq]
      constructor
      · intro he
        exact List.append_inj he (by simp)
      · rintro ⟨ha, hb⟩
        rw [ha, hb]; rfl
    have hrest : w = expected cfg prog ↔ p'.wire = (p.wire ++ op.out.map (if op.isTransfer then cfg i else p.clock, ·)) ++
        expected cfg prog := by
      rw [h3, List.append_cancel_left_eq]
    rw [hsplit, hrest, hi]
    constructor
    · rintro ⟨ha, hb⟩ pre j op' post hp ht ho
      cases pre with
      | nil =>
        simp only [List.nil_append, List.cons.injEq, Prod.mk.injEq] at hp
        obtain ⟨⟨rfl, rfl⟩, rfl⟩ := hp
        cases hout : op.out with
        | nil => exact absurd hout ho
        | cons b bs =>
          rw [hout] at ha
          simp [ht] at ha
          simpa [lastTransfer] using ha.1
      | cons y pre =>
        simp only [List.cons_append, List.cons.injEq] at hp
        obtain ⟨rfl, hp⟩ := hp
        rw [lastTransfer_cons]
        exact hb pre j op' post hp ht ho
    · intro hall
      refine ⟨?_, ?_⟩
      · cases ht : op.isTransfer with
        | true => simp
        | false =>
          cases hout : op.out with
          | nil => rfl
          | cons b bs =>
            have := hall [] i op prog rfl ht (by simp [hout])
            simp only [lastTransfer, List.reverse_nil, List.find?_nil] at this
            simp [this]
      · intro pre j op' post hp ht ho
        rw [← lastTransfer_cons]
        exact hall ((i, op) :: pre) j op' post (by rw [hp]; rfl) ht ho

/-- **C89**, exactly: all bytes are clocked with the settings of their objects iff every call of `sendByte` or
`sendBytes` (with at least one byte) is made by an object with the settings of the last transfer. -/
theorem own_clock_iff (peer : Peer) (cfg : Nat → Settings) (prog : List (Nat × Op)) (p : Port)
    (hv : ∀ x ∈ prog, x.2.Valid) :
    ∃ p', run peer cfg prog p = .ok p' ∧
      (p'.wire = p.wire ++ expected cfg prog ↔
        ∀ pre i op post, prog = pre ++ (i, op) :: post → op.isTransfer = false → op.out ≠ [] →
          lastTransfer cfg p.clock pre = cfg i) := by
  obtain ⟨p', w, h, -⟩ := run_clocked peer cfg prog p hv
  exact ⟨p', h, wire_eq peer cfg prog p p' hv h⟩

/-- **C89**, what holds: programs which only use `transfer` are clocked as they should be. -/
theorem transfers_own_clock_partial (peer : Peer) (cfg : Nat → Settings) (prog : List (Nat × Op)) (p : Port)
    (hv : ∀ x ∈ prog, x.2.Valid) (ht : ∀ x ∈ prog, x.2.isTransfer = true) :
    ∃ p', run peer cfg prog p = .ok p' ∧ p'.wire = p.wire ++ expected cfg prog := by
  obtain ⟨p', h1, h2⟩ := own_clock_iff peer cfg prog p hv
  refine ⟨p', h1, h2.2 ?_⟩
  intro pre i op post hp hf
  have := ht (i, op) (by rw [hp]; simp)
  simp [hf] at this

/-- **C89 is false** of `sendByte` and `sendBytes` for any two objects with different settings: after a transfer by the
other one, the byte is clocked with the settings of the other one. -/
theorem sendByte_foreign_clock (peer : Peer) (cfg : Nat → Settings) (i j : Nat) (hij : cfg i ≠ cfg j) (a b : Byte)
    (p : Port) :
    ∃ p', run peer cfg [(i, .transfer (some [a]) none 1), (j, .byte b)] p = .ok p' ∧
      p'.wire = p.wire ++ [(cfg i, a), (cfg i, b)] ∧
      p'.wire ≠ p.wire ++ expected cfg [(i, .transfer (some [a]) none 1), (j, .byte b)] := by
  have hv : ∀ x ∈ [(i, Op.transfer (some [a]) none 1), (j, .byte b)], x.2.Valid := by
    intro x hx
    simp only [List.mem_cons, List.not_mem_nil, or_false] at hx
    rcases hx with rfl | rfl
    · exact ⟨by intro l hl; cases hl; simp, by intro l hl; cases hl⟩
    · trivial
  obtain ⟨p', h1, h2⟩ := own_clock_iff peer cfg _ p hv
  refine ⟨p', h1, ?_, ?_⟩
  · obtain ⟨got, bus, ht⟩ := transfer_clocked peer (cfg i) (some [a]) none 1 p
      (by intro l hl; cases hl; simp) (by intro l hl; cases hl)
    simp only [run, Op.run, ht, Res.bind_ok, sendByte_clocked, Res.ok.injEq] at h1
    rw [← h1]
    simp [Op.out, outgoing]
  · rw [Ne, h2]
    intro h
    have := h [(i, .transfer (some [a]) none 1)] j (.byte b) [] rfl rfl (by simp [Op.out])
    simp [lastTransfer, Op.isTransfer] at this
    exact hij this

/-- Two objects, 4 MHz and 1 MHz: the last byte of the first one is sent at 1 MHz. -/
example : (run (fun _ => 0) (fun i => if i = 0 then 4000000 else 1000000)
    [(0, .transfer (some [1, 2]) none 2), (0, .byte 3), (1, .transfer none (some [9]) 1), (0, .bytes [4, 5] 1)]
    ⟨7, [], []⟩).isOk ∧
    ∀ p, run (fun _ => 0) (fun i => if i = 0 then 4000000 else 1000000)
      [(0, .transfer (some [1, 2]) none 2), (0, .byte 3), (1, .transfer none (some [9]) 1), (0, .bytes [4, 5] 1)]
      ⟨7, [], []⟩ = .ok p →
      p.wire = [(4000000, 1), (4000000, 2), (4000000, 3), (1000000, 0xFF), (1000000, 4)] := by
  constructor
  · decide
  · intro p h
    have : run (fun _ => 0) (fun i => if i = 0 then 4000000 else 1000000)
      [(0, .transfer (some [1, 2]) none 2), (0, .byte 3), (1, .transfer none (some [9]) 1), (0, .bytes [4, 5] 1)]
      ⟨7, [], []⟩ = .ok ⟨1000000, [.beginTransaction, .exchange 1 0, .exchange 2 0, .endTransaction, .exchange 3 0,
        .beginTransaction, .exchange 0xFF 0, .endTransaction, .exchange 4 0],
        [(4000000, 1), (4000000, 2), (4000000, 3), (1000000, 0xFF), (1000000, 4)]⟩ := by decide
    rw [this] at h
    cases h
    rfl

end Verif.Spi.Shared
