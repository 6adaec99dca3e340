import Verif.Spi.Select
/-!
# C126: a failing transfer on a shared SPI bus disturbs nobody else

C91 is about an SPI driver which accepts everything it documents to accept.  Here the driver of the ESP32 may refuse any
submission (`spi_device_polling_transmit` does not return `ESP_OK`, esp32-esp-idf/SpiBus.cpp:26-29): the transfer ends, the
pieces before have reached the device.  The programs, the devices and the platform's calls are those of `Spi/Select.lean`.
-/
namespace Verif.Spi.Faults
open Verif Verif.Hal Verif.Spi.Select

/-! ### The program -/

/-- The driver, refusing the submission with this number. -/
def withFault (fault : Option Nat) (drv : Esp.Driver) : Esp.Driver := fun k => if fault = some k then none else drv k

/-- The calls on ESP32 as in `Select.esp`, with a driver which may refuse a submission: the number of the one it refuses. -/
def esp (half : Bool) (b : Esp.Bus) (fault : Option Nat) (net : Net) (o : Op) (w : World) :
    Res (Option (List Byte) × World) :=
  let peer : List (Option Byte) → Byte := fun out => net.answer (net.clocks w out)
  match o with
  | .send tx => do
    let (ok, log) ← Device.Esp.sendSync (withFault fault (driver peer (tx.map some))) b tx (len tx) []
    .ok (if ok then some [] else none, net.clocks w (log.flatMap clocked))
  | .receive n => do
    let (ok, s) ← Device.Esp.receiveSync
      (withFault fault (if half then driver peer (List.replicate n.toNat none) else refusal)) b (List.replicate n.toNat 0) n []
    .ok (if ok then some s.rx else none, net.clocks w (s.log.flatMap clocked))
  | .both tx => do
    let (ok, s) ← Device.Esp.sendAndReceive (withFault fault (if half then refusal else driver peer (tx.map some))) b tx
      (List.replicate (len tx).toNat 0) (len tx) []
    .ok (if ok then some s.rx else none, net.clocks w (s.log.flatMap clocked))

/-- The calls of a platform, with a fault or without. -/
abbrev Faulty := Option Nat → Platform

/-- Execution of the code of a device driver; `fs n` is the fault of the `n`-th call to this device. -/
def runTask {α : Type} (plat : Faulty) (net : Net) (fs : Nat → Option Nat) : Select.Task α → Nat → World → Res (α × Nat × World)
  | .ret a, n, w => .ok (a, n, w)
  | .op o k, n, w => do
    let (r, w) ← plat (fs n) net o w
    runTask plat net fs (k r) (n + 1) w

/-- The same in the scope of a `ChipSelector`. -/
def session {α : Type} (plat : Faulty) (net : Net) (fs : Nat → Option Nat) (pin : BitVec 8) (t : Select.Task α) (n : Nat) (w : World) :
    Res (α × Nat × World) := do
  let w := w.drive (Gpio.selectorCtor pin)
  let (a, n, w) ← runTask plat net fs t n w
  .ok (a, n, w.drive (Gpio.selectorDtor pin))

/-- The drivers take turns; for each device the number of calls made and the state of its driver. -/
def run {σ : Type} (plat : Faulty) (net : Net) (fs : BitVec 8 → Nat → Option Nat) (code : BitVec 8 → σ → Select.Task σ) :
    List (BitVec 8) → (BitVec 8 → Nat × σ) → World → Res ((BitVec 8 → Nat × σ) × World)
  | [], st, w => .ok (st, w)
  | p :: rest, st, w => do
    let (s, n, w) ← session plat net (fs p) p (code p (st p).2) (st p).1 w
    run plat net fs code rest (fun q => if q = p then (n, s) else st q) w

/-! ### Specification -/

/-- How much of `n` bytes arrives when submission `k` is refused: the pieces of 4092 bytes before it; `none` when there is no
such submission. -/
def cutAt (fault : Option Nat) (n : Nat) : Option Nat :=
  match fault with
  | none => none
  | some k => if 4092 * k < n then some (4092 * k) else none

/-- A call to a device which has seen `hist` and is the only one around: a call which meets a fault returns false, and the
device has seen the beginning of it. -/
def opIdeal (plan : Plan) (fault : Option Nat) (slave : Slave) (hist : List Seen) (o : Op) : Option (List Byte) × List Seen :=
  match plan o with
  | none => (none, hist)
  | some out =>
    match cutAt fault out.length with
    | some c => (none, hist ++ (out.take c).map .byte)
    | none => o.ideal plan slave hist

/-- The code of a driver talking to its device alone. -/
def ideal {α : Type} (plan : Plan) (fs : Nat → Option Nat) (slave : Slave) : Select.Task α → Nat → List Seen → α × Nat × List Seen
  | .ret a, n, hist => (a, n, hist)
  | .op o k, n, hist =>
    ideal plan fs slave (k (opIdeal plan (fs n) slave hist o).1) (n + 1) (opIdeal plan (fs n) slave hist o).2

/-- Turns of a driver talking to its device alone. -/
def turns {σ : Type} (plan : Plan) (fs : Nat → Option Nat) (slave : Slave) (code : σ → Select.Task σ) :
    Nat → Nat × σ → List Seen → (Nat × σ) × List Seen
  | 0, s, hist => (s, hist)
  | n + 1, s, hist =>
    let r := ideal plan fs slave (code s.2) s.1 (hist ++ [.select])
    turns plan fs slave code n (r.2.1, r.1) (r.2.2 ++ [.deselect])

/-! ### Transfers -/

theorem withFault_none (drv : Esp.Driver) : withFault none drv = drv := by
  funext k; simp [withFault]

/-- Only the answers to the submissions made matter. -/
theorem congr_driver (drv drv' : Esp.Driver) (tx : List Byte) (send recv : Bool) (i off : Nat) (ks : List Nat)
    (h : ∀ j, i ≤ j → j < i + ks.length → drv j = drv' j) :
    Esp.allAccepted drv i ks = Esp.allAccepted drv' i ks ∧ Esp.answered drv i ks = Esp.answered drv' i ks ∧
    Esp.submitted drv tx send recv i off ks = Esp.submitted drv' tx send recv i off ks := by
  induction ks generalizing i off with
  | nil => exact ⟨rfl, rfl, rfl⟩
  | cons k ks ih =>
    simp only [List.length_cons] at h
    obtain ⟨h1, h2, h3⟩ := ih (i + 1) (off + k) (fun j hj1 hj2 => h j (by omega) (by omega))
    have h0 := h i (by omega) (by omega)
    unfold Esp.allAccepted Esp.answered Esp.submitted
    rw [h0, h1]
    refine ⟨rfl, ?_, ?_⟩
    · cases drv' i with
      | none => rfl
      | some f => simp only [h2]
    · cases drv' i with
      | none => rfl
      | some f => simp only [h3]

/-- The pieces in front of a submission. -/
theorem pieces_take (m : Nat) (hm0 : 0 < m) (n j : Nat) (h : m * j < n) :
    j < (Esp.pieces m n).length ∧ ((Esp.pieces m n).take j).sum = m * j := by
  induction j generalizing n with
  | zero =>
    rw [Esp.pieces_pos hm0 (by omega)]
    simp
  | succ j ih =>
    rw [Nat.mul_add, Nat.mul_one] at h
    have hle : m ≤ n := by omega
    rw [Esp.pieces_pos hm0 (by omega), Nat.min_eq_right hle]
    obtain ⟨h1, h2⟩ := ih (n - m) (by omega)
    simp only [List.length_cons, List.take_succ_cons, List.sum_cons, h2, Nat.mul_add, Nat.mul_one]
    omega

theorem pieces_none (n k : Nat) (h : n ≤ 4092 * k) : (Esp.pieces 4092 n).length ≤ k := by
  rw [Esp.pieces_length (by decide)]
  omega

/-- Submission `i + j` is refused. -/
theorem refused_at (drv : Esp.Driver) (tx : List Byte) (send recv : Bool) (j i off : Nat) (ks : List Nat) (hj : j < ks.length)
    (hr : drv (i + j) = none) :
    Esp.allAccepted drv i ks = false ∧
    ((∀ x, i ≤ x → x < i + j → drv x ≠ none) →
      (Esp.submitted drv tx send recv i off ks).flatMap clocked =
        (Esp.submitted drv tx send recv i off (ks.take j)).flatMap clocked) := by
  induction j generalizing i off ks with
  | zero =>
    cases ks with
    | nil => simp at hj
    | cons k ks =>
      have hr : drv i = none := hr
      unfold Esp.allAccepted Esp.submitted
      rw [hr]
      exact ⟨rfl, fun _ => by simp [clocked, List.take_zero]⟩
  | succ j ih =>
    cases ks with
    | nil => simp at hj
    | cons k ks =>
      obtain ⟨h1, h2⟩ := ih (i + 1) (off + k) ks (by simpa using hj) (by rw [← hr]; congr 1; omega)
      constructor
      · unfold Esp.allAccepted
        rw [h1, Bool.and_false]
      · intro hx
        rw [List.take_succ_cons]
        have h0 := hx i (by omega) (by omega)
        unfold Esp.submitted
        cases hd : drv i with
        | none => exact absurd hd h0
        | some f =>
          simp only [List.flatMap_cons]
          rw [h2 fun x hx1 hx2 => hx x (by omega) (by omega)]

theorem clocked_sent (drv : Esp.Driver) (tx : List Byte) (recv : Bool) (i off : Nat)
    (ks : List Nat) (hd : ∀ j, i ≤ j → j < i + ks.length → drv j ≠ none) (h : off + ks.sum ≤ tx.length) :
    (Esp.submitted drv tx true recv i off ks).flatMap clocked = ((tx.drop off).take ks.sum).map some := by
  have e := (congr_driver drv (fun j => some ((drv j).getD fun _ => 0)) tx true recv i off ks (fun j h1 h2 => by
    cases hj : drv j with
    | none => exact absurd hj (hd j h1 h2)
    | some f => rfl)).2.2
  rw [e]
  exact clocked_send _ (by simp) tx recv i off ks h

theorem clocked_received (drv : Esp.Driver) (i off : Nat)
    (ks : List Nat) (hd : ∀ j, i ≤ j → j < i + ks.length → drv j ≠ none) (h : ∀ k ∈ ks, k ≤ 4092) :
    (Esp.submitted drv [] false true i off ks).flatMap clocked = List.replicate ks.sum none := by
  have e := (congr_driver drv (fun j => some ((drv j).getD fun _ => 0)) [] false true i off ks (fun j h1 h2 => by
    cases hj : drv j with
    | none => exact absurd hj (hd j h1 h2)
    | some f => rfl)).2.2
  rw [e]
  exact clocked_receive _ (by simp) i off ks h

/-- A driver which accepts everything but submission `k`. -/
theorem withFault_at (k : Nat) (drv : Esp.Driver) (hd : ∀ j, drv j ≠ none) :
    withFault (some k) drv k = none ∧ ∀ j, j ≠ k → withFault (some k) drv j ≠ none := by
  refine ⟨by simp [withFault], fun j hj => ?_⟩
  simp only [withFault, Option.some.injEq]
  rw [if_neg (Ne.symm hj)]
  exact hd j

theorem withFault_early (k : Nat) (drv : Esp.Driver) (j : Nat) (h : j < k) : withFault (some k) drv j = drv j := by
  simp only [withFault, Option.some.injEq]
  rw [if_neg (by omega)]

/-- What a transfer with faults has to be. -/
def Exact (plat : Faulty) (plan : Plan) : Prop :=
  ∀ fault net o w, plat fault net o w =
    match plan o with
    | none => .ok (none, w)
    | some out =>
      match cutAt fault out.length with
      | some c => .ok (none, net.clocks w (out.take c))
      | none => .ok (some (o.result out.length fun i => net.answer (net.clocks w (out.take i))), net.clocks w out)

/-- A fault which meets no submission changes nothing. -/
theorem esp_late (half : Bool) (b : Esp.Bus) (hb : Device.Esp.Ready b) (k : Nat) (net : Net) (o : Op) (w : World)
    (h : match o with | .send tx | .both tx => (payload tx).length ≤ 4092 * k | .receive n => n.toNat ≤ 4092 * k) :
    esp half b (some k) net o w = Select.esp half b net o w := by
  have key : ∀ (drv : Esp.Driver) (tx : List Byte) (send recv : Bool) (n : Nat), n ≤ 4092 * k →
      Esp.allAccepted (withFault (some k) drv) 0 (Esp.pieces 4092 n) = Esp.allAccepted drv 0 (Esp.pieces 4092 n) ∧
      Esp.answered (withFault (some k) drv) 0 (Esp.pieces 4092 n) = Esp.answered drv 0 (Esp.pieces 4092 n) ∧
      Esp.submitted (withFault (some k) drv) tx send recv 0 0 (Esp.pieces 4092 n) =
        Esp.submitted drv tx send recv 0 0 (Esp.pieces 4092 n) := by
    intro drv tx send recv n hn
    refine congr_driver _ _ tx send recv 0 0 _ fun j _ hj => withFault_early k drv j ?_
    have := pieces_none n k hn
    omega
  cases o with
  | send tx =>
    simp only [payload_length] at h
    simp only [esp, Select.esp]
    rw [(Device.Esp.device_exact _ b hb tx tx (len tx) (len_le tx) (len_le tx) []).1,
      (Device.Esp.device_exact _ b hb tx tx (len tx) (len_le tx) (len_le tx) []).1]
    simp only [List.length_nil]
    rw [(key _ tx true false _ h).1, (key _ tx true false _ h).2.2]
  | receive n =>
    simp only at h
    simp only [esp, Select.esp]
    rw [(Device.Esp.device_exact _ b hb (List.replicate n.toNat 0) (List.replicate n.toNat 0) n (by simp) (by simp) []).2.1,
      (Device.Esp.device_exact _ b hb (List.replicate n.toNat 0) (List.replicate n.toNat 0) n (by simp) (by simp) []).2.1]
    simp only [List.length_nil]
    rw [(key _ [] false true _ h).1, (key _ [] false true _ h).2.1, (key _ [] false true _ h).2.2]
  | both tx =>
    simp only [payload_length] at h
    simp only [esp, Select.esp]
    rw [(Device.Esp.device_exact _ b hb tx (List.replicate (len tx).toNat 0) (len tx) (len_le tx) (by simp) []).2.2,
      (Device.Esp.device_exact _ b hb tx (List.replicate (len tx).toNat 0) (len tx) (len_le tx) (by simp) []).2.2]
    simp only [List.length_nil]
    rw [(key _ tx true true _ h).1, (key _ tx true true _ h).2.1, (key _ tx true true _ h).2.2]

theorem esp_none (half : Bool) (b : Esp.Bus) : esp half b none = Select.esp half b := by
  funext net o w
  cases o <;> simp only [esp, Select.esp, withFault_none]

theorem withFault_refusal (fault : Option Nat) : withFault fault refusal = refusal := by
  funext k; simp [withFault, refusal]

theorem cut_send (drv : Esp.Driver) (hd : ∀ j, drv j ≠ none) (tx : List Byte) (recv : Bool) (n k : Nat) (hn : n ≤ tx.length)
    (hk : 4092 * k < n) :
    Esp.allAccepted (withFault (some k) drv) 0 (Esp.pieces 4092 n) = false ∧
    (Esp.submitted (withFault (some k) drv) tx true recv 0 0 (Esp.pieces 4092 n)).flatMap clocked =
      (tx.take (4092 * k)).map some := by
  obtain ⟨p1, p2⟩ := pieces_take 4092 (by decide) n k hk
  obtain ⟨f1, f2⟩ := withFault_at k drv hd
  obtain ⟨r1, r2⟩ := refused_at (withFault (some k) drv) tx true recv k 0 0 (Esp.pieces 4092 n) p1 (by rw [Nat.zero_add]; exact f1)
  refine ⟨r1, ?_⟩
  rw [r2 fun x _ hx => f2 x (by omega),
    clocked_sent _ tx recv 0 0 _ (fun x _ hx => f2 x (by rw [List.length_take] at hx; omega)) (by rw [p2]; omega), p2]
  rfl

theorem cut_receive (drv : Esp.Driver) (hd : ∀ j, drv j ≠ none) (n k : Nat) (hk : 4092 * k < n) :
    Esp.allAccepted (withFault (some k) drv) 0 (Esp.pieces 4092 n) = false ∧
    (Esp.submitted (withFault (some k) drv) [] false true 0 0 (Esp.pieces 4092 n)).flatMap clocked =
      List.replicate (4092 * k) none := by
  obtain ⟨p1, p2⟩ := pieces_take 4092 (by decide) n k hk
  obtain ⟨f1, f2⟩ := withFault_at k drv hd
  obtain ⟨r1, r2⟩ := refused_at (withFault (some k) drv) [] false true k 0 0 (Esp.pieces 4092 n) p1 (by rw [Nat.zero_add]; exact f1)
  refine ⟨r1, ?_⟩
  rw [r2 fun x _ hx => f2 x (by omega),
    clocked_received _ 0 0 _ (fun x _ hx => f2 x (by rw [List.length_take] at hx; omega))
      (fun x hx => (Esp.pieces_bound (by decide) _ x (List.mem_of_mem_take hx)).2), p2]

theorem esp_cut_send (half : Bool) (b : Esp.Bus) (hb : Device.Esp.Ready b) (k : Nat) (net : Net) (tx : List Byte) (w : World)
    (hk : 4092 * k < (payload tx).length) :
    esp half b (some k) net (.send tx) w = .ok (none, net.clocks w (((payload tx).map some).take (4092 * k))) := by
  have hl := payload_length tx
  simp only [esp]
  rw [(Device.Esp.device_exact _ b hb tx tx (len tx) (len_le tx) (len_le tx) []).1, Res.bind_ok]
  obtain ⟨c1, c2⟩ := cut_send (driver (fun out => net.answer (net.clocks w out)) (tx.map some)) (driver_accepts _ _) tx false
    (len tx).toNat k (len_le tx) (by omega)
  simp only [List.length_nil, c1, List.nil_append, c2, Bool.false_eq_true, if_false]
  rw [← take_len, ← List.map_take, List.take_take, Nat.min_eq_left (by omega)]

theorem esp_cut_both (b : Esp.Bus) (hb : Device.Esp.Ready b) (k : Nat) (net : Net) (tx : List Byte) (w : World)
    (hk : 4092 * k < (payload tx).length) :
    esp false b (some k) net (.both tx) w = .ok (none, net.clocks w (((payload tx).map some).take (4092 * k))) := by
  have hl := payload_length tx
  simp only [esp, Bool.false_eq_true, if_false]
  rw [(Device.Esp.device_exact _ b hb tx (List.replicate (len tx).toNat 0) (len tx) (len_le tx) (by simp) []).2.2, Res.bind_ok]
  obtain ⟨c1, c2⟩ := cut_send (driver (fun out => net.answer (net.clocks w out)) (tx.map some)) (driver_accepts _ _) tx true
    (len tx).toNat k (len_le tx) (by omega)
  simp only [List.length_nil, c1, List.nil_append, c2, Bool.false_eq_true, if_false]
  rw [← take_len, ← List.map_take, List.take_take, Nat.min_eq_left (by omega)]

theorem esp_cut_receive (b : Esp.Bus) (hb : Device.Esp.Ready b) (k : Nat) (net : Net) (n : BitVec 16) (w : World)
    (hk : 4092 * k < n.toNat) :
    esp true b (some k) net (.receive n) w = .ok (none, net.clocks w ((List.replicate n.toNat none).take (4092 * k))) := by
  simp only [esp, if_true]
  rw [(Device.Esp.device_exact _ b hb (List.replicate n.toNat 0) (List.replicate n.toNat 0) n (by simp) (by simp) []).2.1,
    Res.bind_ok]
  obtain ⟨c1, c2⟩ := cut_receive (driver (fun out => net.answer (net.clocks w out)) (List.replicate n.toNat none))
    (driver_accepts _ _) n.toNat k hk
  simp only [List.length_nil, c1, List.nil_append, c2, Bool.false_eq_true, if_false]
  rw [List.take_replicate, Nat.min_eq_left (by omega)]

/-- **C126**, transfers with faults on ESP32, full duplex. -/
theorem espFull_exact (b : Esp.Bus) (hb : Device.Esp.Ready b) : Exact (esp false b) planFull := by
  intro fault net o w
  cases fault with
  | none =>
    rw [esp_none, Select.espFull_exact b hb net o w]
    cases planFull o <;> rfl
  | some k =>
    by_cases hlate : match o with | .send tx | .both tx => (payload tx).length ≤ 4092 * k | .receive n => n.toNat ≤ 4092 * k
    · rw [esp_late false b hb k net o w hlate, Select.espFull_exact b hb net o w]
      cases o with
      | send tx => simp only at hlate; simp only [planFull, List.length_map, cutAt]; rw [if_neg (by omega)]
      | both tx => simp only at hlate; simp only [planFull, List.length_map, cutAt]; rw [if_neg (by omega)]
      | receive n =>
        simp only [planFull]
        by_cases hn : n = 0
        · rw [if_pos hn]; simp [cutAt]
        · rw [if_neg hn]
    · cases o with
      | send tx =>
        simp only at hlate
        rw [esp_cut_send false b hb k net tx w (by omega)]
        simp only [planFull, List.length_map, cutAt]; rw [if_pos (by omega)]
      | both tx =>
        simp only at hlate
        rw [esp_cut_both b hb k net tx w (by omega)]
        simp only [planFull, List.length_map, cutAt]; rw [if_pos (by omega)]
      | receive n =>
        simp only at hlate
        have e : esp false b (some k) net (.receive n) w = Select.esp false b net (.receive n) w := by
          simp only [esp, Select.esp, Bool.false_eq_true, if_false, withFault_refusal]
        have hn : n ≠ 0 := by rintro rfl; simp at hlate
        rw [e, Select.espFull_exact b hb net (.receive n) w]
        simp only [planFull]; rw [if_neg hn]

/-- **C126**, transfers with faults on ESP32, half duplex. -/
theorem espHalf_exact (b : Esp.Bus) (hb : Device.Esp.Ready b) : Exact (esp true b) planHalf := by
  intro fault net o w
  cases fault with
  | none =>
    rw [esp_none, Select.espHalf_exact b hb net o w]
    cases planHalf o <;> rfl
  | some k =>
    by_cases hlate : match o with | .send tx | .both tx => (payload tx).length ≤ 4092 * k | .receive n => n.toNat ≤ 4092 * k
    · rw [esp_late true b hb k net o w hlate, Select.espHalf_exact b hb net o w]
      cases o with
      | send tx => simp only at hlate; simp only [planHalf, List.length_map, cutAt]; rw [if_neg (by omega)]
      | receive n => simp only at hlate; simp only [planHalf, List.length_replicate, cutAt]; rw [if_neg (by omega)]
      | both tx =>
        simp only [planHalf]
        by_cases hn : payload tx = []
        · rw [if_pos hn]; simp [cutAt]
        · rw [if_neg hn]
    · cases o with
      | send tx =>
        simp only at hlate
        rw [esp_cut_send true b hb k net tx w (by omega)]
        simp only [planHalf, List.length_map, cutAt]; rw [if_pos (by omega)]
      | receive n =>
        simp only at hlate
        rw [esp_cut_receive b hb k net n w (by omega)]
        simp only [planHalf, List.length_replicate, cutAt]; rw [if_pos (by omega)]
      | both tx =>
        simp only at hlate
        have e : esp true b (some k) net (.both tx) w = Select.esp true b net (.both tx) w := by
          simp only [esp, Select.esp, if_true, withFault_refusal]
        have hn : payload tx ≠ [] := by intro h; rw [h] at hlate; simp at hlate
        rw [e, Select.espHalf_exact b hb net (.both tx) w]
        simp only [planHalf]; rw [if_neg hn]

/-! ### Sessions and programs -/

theorem runTask_exact {α : Type} {plat : Faulty} {plan : Plan} (hp : Exact plat plan) (net : Net) (fs : Nat → Option Nat)
    (p : BitVec 8) (t : Select.Task α) (n : Nat) (w : World) (hs : net.selected w.gpio = [p]) :
    ∃ w', runTask plat net fs t n w = .ok ((ideal plan fs (net.slave p) t n (w.seen p)).1,
        (ideal plan fs (net.slave p) t n (w.seen p)).2.1, w') ∧ w'.gpio = w.gpio ∧
      ∀ q, w'.seen q = if q = p then (ideal plan fs (net.slave p) t n (w.seen p)).2.2 else w.seen q := by
  induction t generalizing w n with
  | ret a => exact ⟨w, rfl, rfl, fun q => by simp only [ideal]; split <;> simp_all⟩
  | op o k ih =>
    have hans : ∀ l, net.answer (net.clocks w l) = net.slave p (w.seen p ++ l.map .byte) := by
      intro l
      unfold Net.answer
      rw [clocks_gpio, hs]
      simp only [clocks_seen, hs, List.mem_singleton, if_true]
    have hseen : ∀ out q, (net.clocks w out).seen q = if q = p then w.seen p ++ out.map .byte else w.seen q := by
      intro out q
      rw [clocks_seen, hs]
      by_cases hq : q = p
      · simp [hq]
      · simp [hq]
    have step : ∃ w1, plat (fs n) net o w = .ok ((opIdeal plan (fs n) (net.slave p) (w.seen p) o).1, w1) ∧
        w1.gpio = w.gpio ∧
        ∀ q, w1.seen q = if q = p then (opIdeal plan (fs n) (net.slave p) (w.seen p) o).2 else w.seen q := by
      rw [hp (fs n) net o w]
      unfold opIdeal Op.ideal
      cases hpl : plan o with
      | none => exact ⟨w, rfl, rfl, fun q => by simp only; split <;> simp_all⟩
      | some out =>
        simp only
        cases hc : cutAt (fs n) out.length with
        | some c => exact ⟨_, rfl, clocks_gpio _ _ _, fun q => hseen _ q⟩
        | none =>
          refine ⟨_, ?_, clocks_gpio net w out, fun q => hseen _ q⟩
          simp only [hans]
    obtain ⟨w1, g1, g2, g3⟩ := step
    obtain ⟨w', h1, h2, h3⟩ := ih (opIdeal plan (fs n) (net.slave p) (w.seen p) o).1 (n + 1) w1 (by rw [g2]; exact hs)
    rw [g3 p, if_pos rfl] at h1 h3
    refine ⟨w', ?_, h2.trans g2, fun q => ?_⟩
    · rw [runTask, g1, Res.bind_ok]
      exact h1
    · rw [h3 q, ideal]
      split
      · rfl
      · rename_i hq; rw [g3 q, if_neg hq]

theorem session_exact {α : Type} {plat : Faulty} {plan : Plan} (hp : Exact plat plan) (net : Net) (hn : net.pins.Nodup)
    (fs : Nat → Option Nat) (p : BitVec 8) (hm : p ∈ net.pins) (t : Select.Task α) (n : Nat) (w : World) (hw : Idle net w) :
    ∃ w', session plat net fs p t n w = .ok ((ideal plan fs (net.slave p) t n (w.seen p ++ [.select])).1,
        (ideal plan fs (net.slave p) t n (w.seen p ++ [.select])).2.1, w') ∧ Idle net w' ∧
      ∀ q ∈ net.pins, w'.seen q =
        if q = p then (ideal plan fs (net.slave p) t n (w.seen p ++ [.select])).2.2 ++ [.deselect] else w.seen q := by
  have hlev : ∀ q ∈ net.pins, (Gpio.selectorCtor p w.gpio).level q = !(q == p) := by
    intro q hq
    by_cases h : q = p
    · subst h
      simp only [Gpio.selectorCtor, Gpio.pinReset, beq_self_eq_true, Bool.not_true]
      exact Gpio.drive_same w.gpio q false
    · have := Gpio.drive_other (s := w.gpio) (Ne.symm h) false
      simp only [Gpio.selectorCtor, Gpio.pinReset]
      rw [this, hw q hq]
      simp [h]
  have hsel : net.selected (w.drive (Gpio.selectorCtor p)).gpio = [p] := by
    unfold Net.selected
    rw [← filter_one net.pins hn p hm]
    apply List.filter_congr
    intro q hq
    simp only [World.drive]
    rw [hlev q hq, Bool.not_not]
  have hseen : ∀ q ∈ net.pins, (w.drive (Gpio.selectorCtor p)).seen q =
      if q = p then w.seen p ++ [.select] else w.seen q := by
    intro q hq
    simp only [World.drive]
    rw [hlev q hq, hw q hq]
    by_cases h : q = p
    · simp [h]
    · simp [h]
  obtain ⟨w', h1, h2, h3⟩ := runTask_exact hp net fs p t n (w.drive (Gpio.selectorCtor p)) hsel
  rw [hseen p hm, if_pos rfl] at h1 h3
  have hlev' : ∀ q ∈ net.pins, (Gpio.selectorDtor p w'.gpio).level q = true := by
    intro q hq
    by_cases h : q = p
    · subst h
      exact Gpio.drive_same w'.gpio q true
    · have := Gpio.drive_other (s := w'.gpio) (Ne.symm h) true
      simp only [Gpio.selectorDtor, Gpio.pinSet]
      rw [this, h2]
      simp only [World.drive]
      rw [hlev q hq]
      simp [h]
  refine ⟨w'.drive (Gpio.selectorDtor p), by unfold session; simp only [h1, Res.bind_ok], hlev', ?_⟩
  intro q hq
  simp only [World.drive]
  rw [hlev' q hq, h3 q, h2]
  simp only [World.drive]
  rw [hlev q hq]
  by_cases h : q = p
  · simp [h]
  · simp [h, hw q hq]

/-- **C126**, exactly: after any program with any faults every device has seen one frame per turn of its driver, with the
beginnings of the calls which met a fault, and its driver has got what it would have got alone. -/
theorem run_exact {σ : Type} {plat : Faulty} {plan : Plan} (hp : Exact plat plan) (net : Net) (hn : net.pins.Nodup)
    (fs : BitVec 8 → Nat → Option Nat) (code : BitVec 8 → σ → Select.Task σ) (sched : List (BitVec 8))
    (hs : ∀ p ∈ sched, p ∈ net.pins) (st : BitVec 8 → Nat × σ) (w : World) (hw : Idle net w) :
    ∃ st' w', run plat net fs code sched st w = .ok (st', w') ∧ Idle net w' ∧
      ∀ p ∈ net.pins, (st' p, w'.seen p) = turns plan (fs p) (net.slave p) (code p) (sched.count p) (st p) (w.seen p) := by
  induction sched generalizing st w with
  | nil => exact ⟨st, w, rfl, hw, fun p _ => by simp [turns]⟩
  | cons a rest ih =>
    obtain ⟨w1, h1, h2, h3⟩ := session_exact hp net hn (fs a) a (hs a (by simp)) (code a (st a).2) (st a).1 w hw
    obtain ⟨st', w', k1, k2, k3⟩ := ih (fun p h => hs p (by simp [h]))
      (fun q => if q = a then ((ideal plan (fs a) (net.slave a) (code a (st a).2) (st a).1 (w.seen a ++ [.select])).2.1,
        (ideal plan (fs a) (net.slave a) (code a (st a).2) (st a).1 (w.seen a ++ [.select])).1) else st q) w1 h2
    refine ⟨st', w', by rw [run, h1, Res.bind_ok]; exact k1, k2, ?_⟩
    intro p hpin
    rw [k3 p hpin, h3 p hpin, List.count_cons]
    by_cases h : p = a
    · subst h
      simp [turns]
    · simp [h, Ne.symm h]

/-- **C126**: on a shared bus whose transfers may fail, a driver ends in the same state and its device has seen the same as
when only this driver's turns are executed on a bus with only this device, which meets the same faults - whatever faults
the others meet. -/
theorem isolation {σ : Type} (b : Esp.Bus) (hb : Device.Esp.Ready b) (half : Bool) (net : Net) (hn : net.pins.Nodup)
    (fs : BitVec 8 → Nat → Option Nat) (code : BitVec 8 → σ → Select.Task σ) (sched : List (BitVec 8))
    (hs : ∀ p ∈ sched, p ∈ net.pins) (st : BitVec 8 → Nat × σ) (w : World) (hw : Idle net w) :
    ∃ st' w', run (esp half b) net fs code sched st w = .ok (st', w') ∧ Idle net w' ∧
      ∀ p ∈ net.pins, ∀ fs', fs' p = fs p → ∃ st1 w1,
        run (esp half b) { net with pins := [p] } fs' code (sched.filter (· == p)) st w = .ok (st1, w1) ∧
        st' p = st1 p ∧ w'.seen p = w1.seen p := by
  obtain ⟨plan, hp⟩ : ∃ plan, Exact (esp half b) plan := by
    cases half
    · exact ⟨_, espFull_exact b hb⟩
    · exact ⟨_, espHalf_exact b hb⟩
  obtain ⟨st', w', h1, hi, h2⟩ := run_exact hp net hn fs code sched hs st w hw
  refine ⟨st', w', h1, hi, fun p hm fs' hf => ?_⟩
  obtain ⟨st1, w1, k1, -, k2⟩ := run_exact hp { net with pins := [p] } (by simp) fs' code (sched.filter (· == p))
    (fun q hq => by simp only [List.mem_filter, beq_iff_eq] at hq; simp [hq.2]) st w
    (fun q hq => by
      simp only [List.mem_singleton] at hq
      subst hq
      exact hw _ hm)
  refine ⟨st1, w1, k1, ?_⟩
  have e := k2 p (by simp)
  rw [List.count_filter (by simp), hf, ← h2 p hm, Prod.mk.injEq] at e
  exact ⟨e.1.symm, e.2.symm⟩

/-- **C126**: a call which meets a fault tells so and delivers nothing: the driver's buffer is not used, the device has seen
whole pieces of 4092 bytes, fewer than were to be sent. -/
theorem fault_reported (b : Esp.Bus) (hb : Device.Esp.Ready b) (half : Bool) (k : Nat) (net : Net) (tx : List Byte) (w : World)
    (hk : 4092 * k < (payload tx).length) :
    ∃ w', esp half b (some k) net (.send tx) w = .ok (none, w') ∧ w'.gpio = w.gpio ∧
      ∀ q, w'.seen q = if q ∈ net.selected w.gpio then w.seen q ++ ((tx.take (4092 * k)).map fun x => .byte (some x))
        else w.seen q := by
  refine ⟨_, esp_cut_send half b hb k net tx w hk, clocks_gpio _ _ _, fun q => ?_⟩
  rw [clocks_seen]
  have e : ((payload tx).map some).take (4092 * k) = (tx.take (4092 * k)).map some := by
    have hl := payload_length tx
    rw [← take_len, ← List.map_take, List.take_take, Nat.min_eq_left (by omega)]
  rw [e, List.map_map]
  rfl

/-! ### An example -/

/-- Two devices; the second call to device 5 fails. -/
example : turns planFull (fun n => if n = 1 then some 0 else none) (exampleNet.slave 5) (exampleCode 5) 2 (0, []) [] =
      ((4, [10]), [.select, .byte (some 0), .deselect, .select, .byte (some 0), .byte (some 5), .byte (some 0), .deselect]) ∧
    turns planFull (fun _ => none) (exampleNet.slave 7) (exampleCode 7) 1 (0, []) [] = ((2, [9]),
      [.select, .byte (some 0), .byte (some 7), .byte (some 0), .deselect]) := by decide

example : Device.Esp.Ready ((Esp.Bus.new ⟨false, false⟩).init true true).2 := by
  constructor <;> rfl

end Verif.Spi.Faults
