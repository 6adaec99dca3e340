import Verif.Spi.Esp
/-!
# C57, C58: SPI transfers and release on the ESP32
-/
namespace Verif.Spi.Esp
open Verif

/-- The pieces in which `n` bytes are transferred, at most `m` each. -/
def pieces (m : Nat) : Nat → List Nat
  | n => if _h : n = 0 ∨ m = 0 then [] else min n m :: pieces m (n - min n m)
termination_by n => n
decreasing_by omega

theorem pieces_zero (m : Nat) : pieces m 0 = [] := by rw [pieces]; simp

theorem pieces_pos {m n : Nat} (hm : 0 < m) (hn : 0 < n) : pieces m n = min n m :: pieces m (n - min n m) := by
  rw [pieces]; rw [dif_neg (by omega)]

/-- The pieces add up, and none is empty or too large. -/
theorem pieces_sum {m : Nat} (hm : 0 < m) (n : Nat) : (pieces m n).sum = n := by
  induction n using Nat.strongRecOn with
  | _ n ih =>
    by_cases hn : n = 0
    · subst hn; simp [pieces_zero]
    · rw [pieces_pos hm (by omega), List.sum_cons, ih _ (by omega)]; omega

theorem pieces_bound {m : Nat} (hm : 0 < m) (n : Nat) : ∀ k ∈ pieces m n, 0 < k ∧ k ≤ m := by
  induction n using Nat.strongRecOn with
  | _ n ih =>
    by_cases hn : n = 0
    · subst hn; simp [pieces_zero]
    · rw [pieces_pos hm (by omega)]
      intro k hk
      rcases List.mem_cons.1 hk with rfl | hk
      · omega
      · exact ih _ (by omega) k hk

theorem pieces_length {m : Nat} (hm : 0 < m) (n : Nat) : (pieces m n).length = (n + m - 1) / m := by
  induction n using Nat.strongRecOn with
  | _ n ih =>
    by_cases hn : n = 0
    · subst hn; simp [pieces_zero, Nat.div_eq_of_lt (show m - 1 < m by omega)]
    · rw [pieces_pos hm (by omega), List.length_cons, ih _ (by omega)]
      by_cases h : n ≤ m
      · rw [Nat.min_eq_left h]
        have h1 : (n - n + m - 1) / m = 0 := Nat.div_eq_of_lt (by omega)
        have h2 : (n + m - 1) / m = 1 := by
          rw [show n + m - 1 = (n - 1) + m by omega, Nat.add_div_right _ hm, Nat.div_eq_of_lt (by omega)]
        omega
      · rw [Nat.min_eq_right (by omega), show n - m + m - 1 = n - 1 by omega,
          show n + m - 1 = (n - 1) + m by omega, Nat.add_div_right _ hm]

/-- What the driver is handed for the pieces `ks`, starting at offset `off` with submission number `i`, up to and
including the first rejection. -/
def submitted (drv : Driver) (tx : List Byte) (send recv : Bool) : Nat → Nat → List Nat → List Submission
  | _, _, [] => []
  | i, off, k :: ks =>
    let t : Trans := { txBuffer := if send then some off else none, length := if send then BitVec.ofNat 32 (8 * k) else 0,
                       rxBuffer := if recv then some off else none,
                       rxlength := if recv then BitVec.ofNat 32 (8 * k) else 0 }
    match drv i with
    | none => [⟨t, [], false⟩]
    | some _ => ⟨t, if send then (tx.drop off).take k else [], true⟩ :: submitted drv tx send recv (i + 1) (off + k) ks

/-- The answer bytes of the pieces up to the first rejection. -/
def answered (drv : Driver) : Nat → List Nat → List Byte
  | _, [] => []
  | i, k :: ks =>
    match drv i with
    | none => []
    | some f => (List.range k).map f ++ answered drv (i + 1) ks

/-- Every piece is accepted. -/
def allAccepted (drv : Driver) : Nat → List Nat → Bool
  | _, [] => true
  | i, _ :: ks => (drv i).isSome && allAccepted drv (i + 1) ks

theorem answered_length_le (drv : Driver) (i : Nat) (ks : List Nat) : (answered drv i ks).length ≤ ks.sum := by
  induction ks generalizing i with
  | nil => simp [answered]
  | cons k ks ih =>
    unfold answered
    cases drv i with
    | none => simp
    | some f => have := ih (i + 1); simp; omega

private theorem eight_mul_toNat {m : BitVec 32} (h : 8 * m.toNat < 2 ^ 32) : (8 * m).toNat = 8 * m.toNat := by
  rw [BitVec.toNat_mul]; exact Nat.mod_eq_of_lt (by simpa using h)

private theorem eight_mul {m : BitVec 32} (h : 8 * m.toNat < 2 ^ 32) : 8 * m = BitVec.ofNat 32 (8 * m.toNat) := by
  apply BitVec.eq_of_toNat_eq
  rw [eight_mul_toNat h, BitVec.toNat_ofNat, Nat.mod_eq_of_lt h]

/-- The transaction at the beginning of an iteration: the fields not used are as initialised. -/
def Fresh (t : Trans) (send recv : Bool) : Prop :=
  (send = false → t.txBuffer = none ∧ t.length = 0) ∧ (recv = false → t.rxBuffer = none ∧ t.rxlength = 0)

theorem loop_exact (drv : Driver) (tx : List Byte) (maxSize : BitVec 32) (hm : 0 < maxSize.toNat)
    (h8 : 8 * maxSize.toNat < 2 ^ 32) (send recv : Bool) (rx0 : List Byte) (length : BitVec 32) :
    ∀ (fuel : Nat) (t : Trans) (off : Nat) (got : List Byte) (log : List Submission),
      length.toNat < fuel → Fresh t send recv →
      (send = true → off + length.toNat ≤ tx.length) → (recv = true → off + length.toNat ≤ rx0.length) →
      got.length = off →
      loop drv tx maxSize fuel t (if send then some off else none) (if recv then some off else none) length
        ⟨if recv then got ++ rx0.drop off else rx0, log⟩ =
      .ok (allAccepted drv log.length (pieces maxSize.toNat length.toNat),
        ⟨if recv then got ++ answered drv log.length (pieces maxSize.toNat length.toNat) ++
            rx0.drop (off + (answered drv log.length (pieces maxSize.toNat length.toNat)).length) else rx0,
          log ++ submitted drv tx send recv log.length off (pieces maxSize.toNat length.toNat)⟩) := by
  have key : ∀ n, ∀ length : BitVec 32, length.toNat = n → ∀ (fuel : Nat) (t : Trans) (off : Nat) (got : List Byte)
      (log : List Submission),
      length.toNat < fuel → Fresh t send recv →
      (send = true → off + length.toNat ≤ tx.length) → (recv = true → off + length.toNat ≤ rx0.length) →
      got.length = off →
      loop drv tx maxSize fuel t (if send then some off else none) (if recv then some off else none) length
        ⟨if recv then got ++ rx0.drop off else rx0, log⟩ =
      .ok (allAccepted drv log.length (pieces maxSize.toNat length.toNat),
        ⟨if recv then got ++ answered drv log.length (pieces maxSize.toNat length.toNat) ++
            rx0.drop (off + (answered drv log.length (pieces maxSize.toNat length.toNat)).length) else rx0,
          log ++ submitted drv tx send recv log.length off (pieces maxSize.toNat length.toNat)⟩) := by
    intro n
    induction n using Nat.strongRecOn with
    | _ n ih =>
      intro length hn fuel t off got log hfuel hfresh htx hrx hgot
      cases fuel with
      | zero => omega
      | succ fuel =>
        unfold loop
        by_cases h0 : length = 0
        · subst h0
          rw [if_pos rfl]
          simp [pieces_zero, allAccepted, answered, submitted]
        · rw [if_neg h0]
          have hpos : 0 < length.toNat := by
            rcases Nat.eq_zero_or_pos length.toNat with h | h
            · exact absurd (BitVec.eq_of_toNat_eq (by simpa using h)) h0
            · exact h
          rw [pieces_pos hm hpos]
          -- the chunk
          generalize heff : (if maxSize.toNat < length.toNat then maxSize else length) = eff
          have heffn : eff.toNat = min length.toNat maxSize.toNat := by
            rw [← heff]; split <;> omega
          have heff8 : 8 * eff.toNat < 2 ^ 32 := by omega
          have hle : eff.toNat ≤ length.toNat := by omega
          simp only
          rw [← heffn]
          generalize hk : eff.toNat = k at *
          have hprep : prepare t (if send then some off else none) (if recv then some off else none) eff =
              { txBuffer := if send then some off else none, length := if send then BitVec.ofNat 32 (8 * k) else 0,
                rxBuffer := if recv then some off else none,
                rxlength := if recv then BitVec.ofNat 32 (8 * k) else 0 } := by
            have e8 := eight_mul (m := eff) (by rw [hk]; exact heff8)
            rw [hk] at e8
            unfold prepare
            obtain ⟨hf1, hf2⟩ := hfresh
            cases t; cases send <;> cases recv <;> simp_all
          rw [hprep]
          unfold transmit allAccepted answered submitted
          simp only
          cases hd : drv log.length with
          | none => simp
          | some f =>
            have hbits : (BitVec.ofNat 32 (8 * k)).toNat / 8 = k := by
              rw [BitVec.toNat_ofNat, Nat.mod_eq_of_lt heff8]; omega
            have hsent : fetch tx (if send then some off else none) (if send then BitVec.ofNat 32 (8 * k) else 0) =
                .ok (if send then (tx.drop off).take k else []) := by
              cases send with
              | false => rfl
              | true =>
                have := htx rfl
                simp only [if_true, fetch, slice, hbits]
                rw [if_pos (by omega)]
            have hrecv : deliver (if recv then got ++ rx0.drop off else rx0) (if recv then some off else none)
                (if recv then BitVec.ofNat 32 (8 * k) else 0) f =
                .ok (if recv then (got ++ (List.range k).map f) ++ rx0.drop (off + k) else rx0) := by
              cases recv with
              | false => rfl
              | true =>
                have := hrx rfl
                simp only [if_true, deliver, overwrite, hbits, List.length_map, List.length_range]
                rw [if_pos (by simp; omega), List.take_append_of_le_length (by omega),
                  List.take_of_length_le (by omega), List.drop_append, List.drop_of_length_le (l := got) (by omega),
                  List.nil_append, List.drop_drop, show off + (off + k - got.length) = off + k by omega]
            simp only [hsent, hrecv, Res.bind_ok, Bool.not_true, Bool.false_eq_true, if_false, Option.isSome_some, Bool.true_and]
            have hmap1 : (if send then some off else none : Option Nat).map (· + k) =
                if send then some (off + k) else none := by cases send <;> rfl
            have hmap2 : (if recv then some off else none : Option Nat).map (· + k) =
                if recv then some (off + k) else none := by cases recv <;> rfl
            have hsub : (length - eff).toNat = length.toNat - k := by
              rw [BitVec.toNat_sub_of_le (BitVec.le_def.2 (by omega)), hk]
            rw [hmap1, hmap2]
            have := ih (length.toNat - k) (by omega) (length - eff) hsub fuel
              { txBuffer := if send then some off else none, length := if send then BitVec.ofNat 32 (8 * k) else 0,
                rxBuffer := if recv then some off else none,
                rxlength := if recv then BitVec.ofNat 32 (8 * k) else 0 }
              (off + k) (got ++ (List.range k).map f)
              (log ++ [⟨{ txBuffer := if send then some off else none,
                          length := if send then BitVec.ofNat 32 (8 * k) else 0,
                          rxBuffer := if recv then some off else none,
                          rxlength := if recv then BitVec.ofNat 32 (8 * k) else 0 },
                        if send then (tx.drop off).take k else [], true⟩])
              (by omega) (by constructor <;> intro h <;> simp [h])
              (by intro h; have := htx h; omega) (by intro h; have := hrx h; omega)
              (by simp [hgot])
            rw [this, hsub, List.length_append, List.length_singleton]
            simp [Nat.add_assoc]
  intro fuel t off got log
  exact key _ length rfl fuel t off got log

/-- **C57**: for every driver behaviour, every maximum and length, data and buffer of sufficient size, `transfer`
submits the pieces one after the other up to the first rejection, with matching bit lengths, returns true iff all were
accepted, and stores exactly the answers in the receive buffer. -/
theorem transfer_exact (drv : Driver) (maxSize : BitVec 32) (hm : 0 < maxSize.toNat) (h8 : 8 * maxSize.toNat < 2 ^ 32)
    (tx rx : List Byte) (send recv : Bool) (length : BitVec 32)
    (htx : send = true → length.toNat ≤ tx.length) (hrx : recv = true → length.toNat ≤ rx.length)
    (log : List Submission) :
    transfer drv maxSize tx send recv length ⟨rx, log⟩ =
      .ok (allAccepted drv log.length (pieces maxSize.toNat length.toNat),
        ⟨if recv then answered drv log.length (pieces maxSize.toNat length.toNat) ++
            rx.drop (answered drv log.length (pieces maxSize.toNat length.toNat)).length else rx,
          log ++ submitted drv tx send recv log.length 0 (pieces maxSize.toNat length.toNat)⟩) := by
  have := loop_exact drv tx maxSize hm h8 send recv rx length (length.toNat + 1) {} 0 [] log (by omega)
    (by constructor <;> intro <;> exact ⟨rfl, rfl⟩) (by simpa using htx) (by simpa using hrx) rfl
  unfold transfer
  simpa using this

/-- The bytes put on the wire by submissions. -/
def wire (l : List Submission) : List Byte := (l.map (·.sent)).flatten

/-- When everything is accepted the wire carries the data exactly; otherwise a prefix of it. -/
theorem submitted_wire (drv : Driver) (tx : List Byte) (recv : Bool) (i off : Nat) (ks : List Nat)
    (h : off + ks.sum ≤ tx.length) :
    ∃ n ≤ ks.sum, wire (submitted drv tx true recv i off ks) = (tx.drop off).take n ∧
      (allAccepted drv i ks = true → n = ks.sum) := by
  induction ks generalizing i off with
  | nil => exact ⟨0, by simp, by simp [wire, submitted], by simp⟩
  | cons k ks ih =>
    simp only [List.sum_cons] at h
    unfold submitted allAccepted
    cases hd : drv i with
    | none => exact ⟨0, by simp, by simp [wire], by simp⟩
    | some f =>
      obtain ⟨n, hn, h1, h2⟩ := ih (i + 1) (off + k) (by omega)
      refine ⟨k + n, by simp; omega, ?_, ?_⟩
      · simp only [wire, if_true, List.map_cons, List.flatten_cons] at h1 ⊢
        rw [h1, List.take_add, List.drop_drop]
      · intro ha
        simp only [Option.isSome_some, Bool.true_and] at ha
        rw [List.sum_cons, h2 ha]

/-- **C57**, the data on the wire: a successful transfer sends exactly the data, a failed one a prefix of it. -/
theorem transfer_wire (drv : Driver) (maxSize : BitVec 32) (hm : 0 < maxSize.toNat) (h8 : 8 * maxSize.toNat < 2 ^ 32)
    (tx rx : List Byte) (recv : Bool) (length : BitVec 32)
    (htx : length.toNat ≤ tx.length) (hrx : recv = true → length.toNat ≤ rx.length) :
    ∃ ok s, transfer drv maxSize tx true recv length ⟨rx, []⟩ = .ok (ok, s) ∧
      (ok = true → wire s.log = tx.take length.toNat) ∧
      (∃ n ≤ length.toNat, wire s.log = tx.take n) ∧
      (ok = true ↔ ∀ e ∈ s.log, e.accepted = true) := by
  refine ⟨_, _, transfer_exact drv maxSize hm h8 tx rx true recv length (fun _ => htx) hrx [], ?_⟩
  have hsum := pieces_sum hm length.toNat
  obtain ⟨n, hn, h1, h2⟩ := submitted_wire drv tx recv 0 0 (pieces maxSize.toNat length.toNat) (by omega)
  rw [hsum] at hn
  simp only [List.length_nil, List.nil_append, List.drop_zero] at *
  refine ⟨fun h => by rw [h1, h2 h, hsum], ⟨n, hn, h1⟩, ?_⟩
  have : ∀ (ks : List Nat) (i off : Nat), allAccepted drv i ks = true ↔
      ∀ e ∈ submitted drv tx true recv i off ks, e.accepted = true := by
    intro ks
    induction ks with
    | nil => intro i off; simp [allAccepted, submitted]
    | cons k ks ih =>
      intro i off
      unfold allAccepted submitted
      cases hd : drv i with
      | none => simp
      | some f => simp [ih (i + 1) (off + k)]
  exact this _ _ _

/-- The bit lengths handed to the driver never exceed the maximum, and are never zero. -/
theorem submitted_bounds (drv : Driver) (tx : List Byte) (recv : Bool) (m n : Nat) (hm : 0 < m) (h8 : 8 * m < 2 ^ 32) :
    ∀ e ∈ submitted drv tx true recv 0 0 (pieces m n), 0 < e.trans.length.toNat ∧ e.trans.length.toNat ≤ 8 * m ∧
      (recv = true → e.trans.rxlength = e.trans.length) := by
  have : ∀ (ks : List Nat) (i off : Nat), (∀ k ∈ ks, 0 < k ∧ k ≤ m) →
      ∀ e ∈ submitted drv tx true recv i off ks, 0 < e.trans.length.toNat ∧ e.trans.length.toNat ≤ 8 * m ∧
      (recv = true → e.trans.rxlength = e.trans.length) := by
    intro ks
    induction ks with
    | nil => intro i off _ e he; simp [submitted] at he
    | cons k ks ih =>
      intro i off hk e he
      have hk0 := hk k (by simp)
      have hb : (BitVec.ofNat 32 (8 * k)).toNat = 8 * k := by
        rw [BitVec.toNat_ofNat, Nat.mod_eq_of_lt (by omega)]
      unfold submitted at he
      cases hd : drv i with
      | none =>
        simp only [hd, List.mem_singleton] at he
        subst he
        simp only [if_true, hb]
        refine ⟨by omega, by omega, ?_⟩
        intro h; simp [h]
      | some f =>
        simp only [hd, List.mem_cons] at he
        rcases he with he | he
        · subst he
          simp only [if_true, hb]
          refine ⟨by omega, by omega, ?_⟩
          intro h; simp [h]
        · exact ih _ _ (fun k' hk' => hk k' (by simp [hk'])) e he
  exact this _ _ _ (pieces_bound hm n)

theorem loop_overrun (drv : Driver) (hd : ∀ k, drv k ≠ none) (tx : List Byte) (maxSize : BitVec 32)
    (hm : 0 < maxSize.toNat) (h8 : 8 * maxSize.toNat < 2 ^ 32) (send recv : Bool) :
    ∀ (fuel : Nat) (t : Trans) (off : Nat) (length : BitVec 32) (s : St), length.toNat < fuel → Fresh t send recv →
      (send = true → off ≤ tx.length) → (recv = true → off ≤ s.rx.length) →
      (send = true ∧ tx.length < off + length.toNat) ∨ (recv = true ∧ s.rx.length < off + length.toNat) →
      loop drv tx maxSize fuel t (if send then some off else none) (if recv then some off else none) length s = .ub := by
  intro fuel
  induction fuel with
  | zero => intro _ _ _ _ h; omega
  | succ fuel ih =>
    intro t off length s hf hfresh ho1 ho2 hover
    have hl0 : 0 < length.toNat := by
      rcases hover with h | h
      · have := ho1 h.1; omega
      · have := ho2 h.1; omega
    have hne : length ≠ 0 := by rintro rfl; simp at hl0
    obtain ⟨f, hdf⟩ := Option.ne_none_iff_exists'.1 (hd s.log.length)
    generalize heff : (if maxSize.toNat < length.toNat then maxSize else length) = eff
    have heff1 : eff.toNat = min length.toNat maxSize.toNat := by rw [← heff]; split <;> omega
    have h8e : (8 * eff).toNat / 8 = eff.toNat := by rw [eight_mul_toNat (by omega)]; omega
    have hsub : (length - eff).toNat = length.toNat - eff.toNat := by
      rw [BitVec.toNat_sub_of_le (by rw [BitVec.le_def]; omega)]
    unfold loop
    rw [if_neg hne]
    dsimp only
    rw [heff]
    unfold transmit
    rw [hdf]
    have hfetch : fetch tx (prepare t (if send then some off else none) (if recv then some off else none) eff).txBuffer
        (prepare t (if send then some off else none) (if recv then some off else none) eff).length =
        if send then slice tx off eff.toNat else .ok [] := by
      cases send with
      | true => cases recv <;> (simp only [prepare, fetch, if_true, Bool.false_eq_true, if_false]; rw [h8e])
      | false =>
        obtain ⟨f1, f2⟩ := hfresh.1 rfl
        cases recv <;> simp [prepare, fetch, f1]
    have hdel : deliver s.rx (prepare t (if send then some off else none) (if recv then some off else none) eff).rxBuffer
        (prepare t (if send then some off else none) (if recv then some off else none) eff).rxlength f =
        if recv then overwrite s.rx off ((List.range eff.toNat).map f) else .ok s.rx := by
      cases recv with
      | true => cases send <;> (simp only [prepare, deliver, if_true, Bool.false_eq_true, if_false]; rw [h8e])
      | false =>
        obtain ⟨f1, f2⟩ := hfresh.2 rfl
        cases send <;> simp [prepare, deliver, f1]
    dsimp only
    rw [hfetch, hdel]
    have hfr : Fresh (prepare t (if send then some off else none) (if recv then some off else none) eff) send recv := by
      constructor
      · rintro rfl
        have := hfresh.1 rfl
        cases recv <;> simpa [prepare] using this
      · rintro rfl
        have := hfresh.2 rfl
        cases send <;> simpa [prepare] using this
    by_cases c1 : send = true ∧ tx.length < off + eff.toNat
    · rw [if_pos c1.1, slice, if_neg (by omega)]; rfl
    · have e1 : ∃ sent, (if send then slice tx off eff.toNat else .ok []) = .ok sent := by
        cases send with
        | true => exact ⟨_, by rw [if_pos rfl, slice, if_pos (by simp at c1; omega)]⟩
        | false => exact ⟨_, rfl⟩
      obtain ⟨sent, e1⟩ := e1
      rw [e1]
      simp only [Res.bind_ok]
      by_cases c2 : recv = true ∧ s.rx.length < off + eff.toNat
      · rw [if_pos c2.1, overwrite, if_neg (by simp; omega)]; rfl
      · have e2 : ∃ rx', (if recv then overwrite s.rx off ((List.range eff.toNat).map f) else .ok s.rx) = .ok rx' ∧
            rx'.length = s.rx.length := by
          cases recv with
          | true =>
            simp only [true_and, Nat.not_lt] at c2
            refine ⟨_, by rw [if_pos rfl, overwrite, if_pos (by simpa using c2)], ?_⟩
            simp; omega
          | false => exact ⟨_, rfl, rfl⟩
        obtain ⟨rx', e2, e3⟩ := e2
        rw [e2]
        simp only [Res.bind_ok, Bool.not_true, Bool.false_eq_true, if_false]
        have := ih (prepare t (if send then some off else none) (if recv then some off else none) eff) (off + eff.toNat)
          (length - eff) ⟨rx', s.log ++ [⟨prepare t (if send then some off else none) (if recv then some off else none) eff,
            sent, true⟩]⟩ (by omega) hfr (fun h => by have := ho1 h; simp [h] at c1; omega)
            (fun h => by have := ho2 h; simp only [h, true_and] at c2; dsimp only; omega)
            (by dsimp only; rw [hsub, e3]; rcases hover with h | h
                · exact .inl ⟨h.1, by omega⟩
                · exact .inr ⟨h.1, by omega⟩)
        cases send <;> cases recv <;> exact this

/-- A buffer shorter than the length is overrun: undefined behaviour, unless the driver refuses a piece before. -/
theorem transfer_overrun (drv : Driver) (hd : ∀ k, drv k ≠ none) (maxSize : BitVec 32) (hm : 0 < maxSize.toNat)
    (h8 : 8 * maxSize.toNat < 2 ^ 32) (tx rx : List Byte) (send recv : Bool) (length : BitVec 32) (log : List Submission)
    (h : (send = true ∧ tx.length < length.toNat) ∨ (recv = true ∧ rx.length < length.toNat)) :
    transfer drv maxSize tx send recv length ⟨rx, log⟩ = .ub :=
  loop_overrun drv hd tx maxSize hm h8 send recv _ _ 0 length ⟨rx, log⟩ (by omega)
    ⟨fun _ => ⟨rfl, rfl⟩, fun _ => ⟨rfl, rfl⟩⟩ (fun _ => by omega) (fun _ => by simp) (by simpa using h)

/-- **C57**: through an object without a device handle – never initialised, initialised without success, or whose release
failed – nothing is transferred, and a call with something to transfer reports failure. -/
theorem Bus.transfer_no_handle (drv : Driver) (b : Bus) (h : b.handle = false) (tx : List Byte) (send recv : Bool)
    (length : BitVec 32) (h0 : length ≠ 0) (s : St) :
    ∃ t, b.transfer drv tx send recv length s = .ok (false, { s with log := s.log ++ [⟨t, [], false⟩] }) := by
  unfold Bus.transfer Bus.answers Esp.transfer loop
  rw [if_neg (by simp [h])]
  simp only [h, Bool.false_eq_true, if_false, if_neg h0, transmit, Res.bind_ok, Bool.not_false, if_true]
  exact ⟨_, rfl⟩

/-- **C57**: a call with nothing to transfer succeeds without using the driver, whatever the state of the object. -/
theorem Bus.transfer_nothing (drv : Driver) (b : Bus) (tx : List Byte) (send recv : Bool) (s : St) :
    b.transfer drv tx send recv 0 s = .ok (true, s) := by
  unfold Bus.transfer Esp.transfer loop
  simp

/-- A receive-only transfer submits transactions of length zero with a positive receive length: a driver in full-duplex
mode, which requires `rxlength ≤ length`, rejects the first one and nothing is received. -/
theorem receive_needs_half_duplex (drv : Driver) (maxSize : BitVec 32) (hm : 0 < maxSize.toNat)
    (h8 : 8 * maxSize.toNat < 2 ^ 32) (tx rx : List Byte) (length : BitVec 32) (hl : 0 < length.toNat)
    (hrx : length.toNat ≤ rx.length) :
    ∃ ok s t, transfer drv maxSize tx false true length ⟨rx, []⟩ = .ok (ok, s) ∧ s.log.head? = some t ∧
      t.trans.length = 0 ∧ 0 < t.trans.rxlength.toNat := by
  have := transfer_exact drv maxSize hm h8 tx rx false true length (by simp) (fun _ => hrx) []
  rw [this]
  have hp := pieces_pos hm hl
  have hb : (BitVec.ofNat 32 (8 * min length.toNat maxSize.toNat)).toNat = 8 * min length.toNat maxSize.toNat := by
    rw [BitVec.toNat_ofNat, Nat.mod_eq_of_lt (by omega)]
  rw [hp]
  unfold submitted
  cases hd : drv 0 with
  | none =>
    refine ⟨_, _, _, rfl, by simp; rfl, rfl, ?_⟩
    simp only [hb]; omega
  | some f =>
    refine ⟨_, _, _, rfl, by simp; rfl, rfl, ?_⟩
    simp only [hb]; omega

/-- Ten bytes with a maximum of four; the third piece is rejected. -/
example : transfer (fun k => if k < 2 then some (fun i => BitVec.ofNat 8 (16 * k + i)) else none) 4
    [1, 2, 3, 4, 5, 6, 7, 8, 9, 10] true true 10 ⟨[0, 0, 0, 0, 0, 0, 0, 0, 0, 0], []⟩ =
    .ok (false, ⟨[0, 1, 2, 3, 16, 17, 18, 19, 0, 0],
      [⟨⟨some 0, 32, some 0, 32⟩, [1, 2, 3, 4], true⟩, ⟨⟨some 4, 32, some 4, 32⟩, [5, 6, 7, 8], true⟩,
       ⟨⟨some 8, 16, some 8, 16⟩, [], false⟩]⟩) := by decide

/-! ### Release -/

/-- **C58 is false**: whenever the driver removes the device, `release` reports failure, keeps the dangling handle and
leaves the bus initialised. -/
theorem release_success_fails (b : Bus) (h : b.handle = true) (hw : b.hw.device = true) (err2 : Nat) :
    b.release 0 err2 = .ok (false, { b with hw := { b.hw with device := false } }) := by
  simp [Bus.release, h, removeDevice, hw]

/-- A second release then uses the deallocated handle. -/
theorem release_twice_ub (b : Bus) (h : b.handle = true) (hw : b.hw.device = true) (err2 e1 e2 : Nat) :
    (do let (_, b') ← b.release 0 err2; b'.release e1 e2) = .ub := by
  rw [release_success_fails b h hw]
  simp [Bus.release, h, removeDevice]

/-- So does the destructor of every bus which was released. -/
theorem destroy_after_release_ub (b : Bus) (h : b.handle = true) (hw : b.hw.device = true) (err2 e1 e2 : Nat) :
    (do let (_, b') ← b.release 0 err2; b'.destroy e1 e2) = .ub := by
  rw [release_success_fails b h hw]
  simp [Bus.destroy, Bus.release, h, removeDevice]

/-- A bus object which was initialised and destroyed leaves the bus initialised, so that no later object can be
initialised on the same bus. -/
theorem reinit_fails (hw : Hw) (h : hw.bus = false) (ok1 ok2 : Bool) (err2 : Nat) :
    ∃ hw', ((Bus.new hw).init true true).2.destroy 0 err2 = .ok hw' ∧ hw'.bus = true ∧
      ((Bus.new hw').init ok1 ok2).1 = false := by
  refine ⟨⟨true, false⟩, ?_, rfl, ?_⟩
  · simp [Bus.new, Bus.init, h, Bus.destroy, Bus.release, removeDevice]
  · simp [Bus.new, Bus.init]

/-- When the driver fails to remove the device the handle is forgotten, and the bus cannot be freed either. -/
theorem release_failure (b : Bus) (h : b.handle = true) (hw : b.hw.device = true) (err1 err2 : Nat) (he : err1 ≠ 0) :
    b.release err1 err2 = .ok (false, { b with handle := false }) := by
  by_cases h2 : err2 = 0 <;> simp [Bus.release, h, removeDevice, hw, he, busFree, h2]

/-- `init` reports success exactly when the driver has initialised the bus, which it was not before, and attached the
device; the handle is kept then, and only then is it changed. -/
theorem init_exact (b : Bus) (ok1 ok2 : Bool) :
    ((b.init ok1 ok2).1 = true ↔ ok1 = true ∧ ok2 = true ∧ b.hw.bus = false) ∧
    ((b.init ok1 ok2).1 = true → (b.init ok1 ok2).2.handle = true ∧ (b.init ok1 ok2).2.hw = ⟨true, true⟩) ∧
    ((b.init ok1 ok2).1 = false → (b.init ok1 ok2).2.handle = b.handle ∧ (b.init ok1 ok2).2.hw.device = b.hw.device) ∧
    (b.init ok1 ok2).2.maxSize = lldescMax := by
  unfold Bus.init
  cases ok1 <;> cases ok2 <;> cases h : b.hw.bus <;> simp [h]

/-- A bus never initialised is released and destroyed without a call of the driver. -/
theorem new_destroy (hw : Hw) (err1 err2 : Nat) :
    (Bus.new hw).release err1 err2 = .ok (true, Bus.new hw) ∧ (Bus.new hw).destroy err1 err2 = .ok hw := by
  simp [Bus.new, Bus.destroy, Bus.release]

/-- **C58**, what holds: with no device there is nothing to release. -/
theorem release_none_partial (b : Bus) (h : b.handle = false) (err1 err2 : Nat) :
    b.release err1 err2 = .ok (true, b) := by
  simp [Bus.release, h]

/-- No initialised bus is ever released successfully, whatever the driver answers. -/
theorem release_never_succeeds (hw : Hw) (h : hw.bus = false) (err1 err2 : Nat) :
    ∃ b', ((Bus.new hw).init true true).2.release err1 err2 = .ok (false, b') ∧ b'.hw.bus = true := by
  by_cases he : err1 = 0
  · subst he
    exact ⟨_, release_success_fails _ (by simp [Bus.new, Bus.init, h]) (by simp [Bus.new, Bus.init, h]) err2,
      by simp [Bus.new, Bus.init, h]⟩
  · exact ⟨_, release_failure _ (by simp [Bus.new, Bus.init, h]) (by simp [Bus.new, Bus.init, h]) err1 err2 he,
      by simp [Bus.new, Bus.init, h]⟩

end Verif.Spi.Esp
