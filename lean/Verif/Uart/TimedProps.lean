import Verif.Uart.Timed
/-!
# C114: how long a reception takes

The time-out of a call bounds the time it takes, a packet which is there in time is returned promptly, and a call gives up
no sooner than it is told.  All of this holds for `ReceiveUntil` on ESP32 and for `Receive` on Arduino.  `ReceiveBetween`
on ESP32 starts waiting anew with every byte it skips; `ReceiveUntil` and `ReceiveBetween` on Arduino do so with every
byte they store.
-/
namespace Verif.Uart.Timed
open Verif

/-! ## Specification -/

/-- The bytes `bs` have been on the wire by time `T`, the first of them being byte number `k`. -/
def Got (w : Wire) (k : Nat) (bs : List Byte) (T : Nat) : Prop :=
  ∀ i b, bs[i]? = some b → ∃ t, t ≤ T ∧ w.arrival (k + i) = some (t, b)

/-- The millisecond counter does not start anew before `later` microseconds have passed. -/
def NoWrap (now later : Nat) : Prop := now % 4294967296000 + later < 4294967296000

/-! ## Single operations -/

theorem Got.mono {w : Wire} {k : Nat} {bs : List Byte} {T T' : Nat} (h : Got w k bs T) (hT : T ≤ T') : Got w k bs T' := by
  intro i b hb
  obtain ⟨t, h1, h2⟩ := h i b hb
  exact ⟨t, by omega, h2⟩

theorem Got.snoc {w : Wire} {k : Nat} {bs : List Byte} {T t : Nat} {b : Byte} (h : Got w k bs T) (ht : t ≤ T)
    (hb : w.arrival (k + bs.length) = some (t, b)) : Got w k (bs ++ [b]) T := by
  intro i c hc
  by_cases hi : i < bs.length
  · rw [List.getElem?_append_left hi] at hc
    exact h i c hc
  · rw [List.getElem?_append_right (by omega)] at hc
    have hi0 : i = bs.length := by
      by_contra hne
      rw [List.getElem?_eq_none (by simp; omega)] at hc
      exact absurd hc (by simp)
    subst hi0
    simp at hc
    subst hc
    exact ⟨t, ht, hb⟩

theorem Got.nil (w : Wire) (k T : Nat) : Got w k [] T := by
  intro i b hb
  simp at hb

/-- A read either takes the next byte, which has arrived before the waiting ends, or takes none, and then the next byte
arrives later. -/
theorem nextT_cases (w : Wire) (s : TSt) (d : Nat) (x : BitVec 32) :
    (∃ t b, w.arrival s.taken = some (t, b) ∧ t ≤ s.now + w.wait s.ops d ∧
      nextT w s d x = (some b, ⟨s.mem, max s.now t + w.lag s.ops, s.ops + 1, s.taken + 1, s.clocks,
        s.log ++ [(x, some b)]⟩)) ∨
    ((∀ t b, w.arrival s.taken = some (t, b) → s.now + w.wait s.ops d < t) ∧
      nextT w s d x = (none, ⟨s.mem, s.now + w.wait s.ops d + w.lag s.ops, s.ops + 1, s.taken, s.clocks,
        s.log ++ [(x, none)]⟩)) := by
  unfold nextT
  cases h : w.arrival s.taken with
  | none => exact .inr ⟨by simp, rfl⟩
  | some p =>
    obtain ⟨t, b⟩ := p
    simp only
    by_cases ht : t ≤ s.now + w.wait s.ops d
    · rw [if_pos ht]
      exact .inl ⟨t, b, rfl, ht, rfl⟩
    · rw [if_neg ht]
      refine .inr ⟨?_, rfl⟩
      intro t' b' h'
      cases h'
      omega

theorem readByteT_cases (w : Wire) (s : TSt) (pos : Nat) (d : BitVec 32) (hp : pos < s.mem.length) :
    (∃ t b, w.arrival s.taken = some (t, b) ∧ t ≤ s.now + w.wait s.ops d.toNat ∧
      readByteT w s pos d = .ok (true, ⟨s.mem.set pos b, max s.now t + w.lag s.ops, s.ops + 1, s.taken + 1, s.clocks,
        s.log ++ [(d, some b)]⟩)) ∨
    ((∀ t b, w.arrival s.taken = some (t, b) → s.now + w.wait s.ops d.toNat < t) ∧
      readByteT w s pos d = .ok (false, ⟨s.mem, s.now + w.wait s.ops d.toNat + w.lag s.ops, s.ops + 1, s.taken, s.clocks,
        s.log ++ [(d, none)]⟩)) := by
  unfold readByteT
  rcases nextT_cases w s d.toNat d with ⟨t, b, h1, h2, h3⟩ | ⟨h1, h3⟩
  · refine .inl ⟨t, b, h1, h2, ?_⟩
    rw [h3]
    simp only
    rw [if_pos hp]
  · refine .inr ⟨h1, ?_⟩
    rw [h3]

/-- Storing the next byte behind the ones stored so far. -/
theorem set_behind (cur rest : List Byte) (b : Byte) (pos : Nat) (hc : cur.length = pos) (hp : pos < rest.length) :
    (cur ++ rest.drop pos).set pos b = (cur ++ [b]) ++ rest.drop (pos + 1) := by
  subst hc
  rw [List.set_append_right _ _ (Nat.le_refl _), Nat.sub_self, List.append_assoc]
  congr 1
  rw [List.drop_eq_getElem_cons hp]
  rfl

theorem clock_lt {Q a D : Nat} (hQ : Q % 4294967296 = 0) (h1 : Q ≤ a) (h2 : a < Q + 4294967296) (h3 : Q ≤ D)
    (h4 : D < Q + 4294967296) : (BitVec.ofNat 32 a < BitVec.ofNat 32 D) ↔ a < D := by
  rw [BitVec.lt_def]
  simp only [BitVec.toNat_ofNat]
  omega

theorem clock_le {Q a D : Nat} (hQ : Q % 4294967296 = 0) (h1 : Q ≤ a) (h2 : a < Q + 4294967296) (h3 : Q ≤ D)
    (h4 : D < Q + 4294967296) : (BitVec.ofNat 32 a ≤ BitVec.ofNat 32 D) ↔ a ≤ D := by
  rw [BitVec.le_def]
  simp only [BitVec.toNat_ofNat]
  omega

theorem clock_sub {Q a D : Nat} (hQ : Q % 4294967296 = 0) (h1 : Q ≤ a) (h2 : a < Q + 4294967296) (h3 : a ≤ D)
    (h4 : D < Q + 4294967296) : (BitVec.ofNat 32 D - BitVec.ofNat 32 a).toNat = D - a := by
  rw [BitVec.toNat_sub]
  simp only [BitVec.toNat_ofNat]
  omega

/-! ## ESP32 `ReceiveUntil` -/

/-- What the loop has done so far: it has stored `cur`, the bytes from number `k0` on. -/
structure Stored (w : Wire) (mem0 : List Byte) (k0 : Nat) (cur : List Byte) (s : TSt) : Prop where
  mem : s.mem = cur ++ mem0.drop cur.length
  taken : s.taken = k0 + cur.length
  got : Got w k0 cur s.now

theorem Stored.length {w : Wire} {mem0 : List Byte} {k0 : Nat} {cur : List Byte} {s : TSt} (h : Stored w mem0 k0 cur s)
    (hl : cur.length ≤ mem0.length) : s.mem.length = mem0.length := by
  rw [h.mem, List.length_append, List.length_drop]
  omega

/-- The bytes stored so far are known after a further byte. -/
theorem Stored.step {w : Wire} {mem0 : List Byte} {k0 : Nat} {cur : List Byte} {s s' : TSt} {t : Nat} {b : Byte}
    (h : Stored w mem0 k0 cur s) (hl : cur.length < mem0.length) (ha : w.arrival s.taken = some (t, b))
    (ht : t ≤ s'.now) (hn : s.now ≤ s'.now) (hm : s'.mem = s.mem.set cur.length b) (hk : s'.taken = s.taken + 1) :
    Stored w mem0 k0 (cur ++ [b]) s' := by
  refine ⟨?_, ?_, ?_⟩
  · rw [hm, h.mem, set_behind cur mem0 b cur.length rfl hl]
    simp
  · rw [hk, h.taken]
    simp
    omega
  · refine (h.got.mono hn).snoc ht ?_
    rw [← h.taken]
    exact ha

theorem Stored.later {w : Wire} {mem0 : List Byte} {k0 : Nat} {cur : List Byte} {s s' : TSt} (h : Stored w mem0 k0 cur s)
    (hm : s'.mem = s.mem) (hk : s'.taken = s.taken) (hn : s.now ≤ s'.now) : Stored w mem0 k0 cur s' :=
  ⟨by rw [hm, h.mem], by rw [hk, h.taken], h.got.mono hn⟩

theorem untilLoop_timed (w : Wire) (L : Nat) (hw : w.Ok L) (size : Nat) (e : Byte) (timeout : Nat) (ht : timeout ≠ 0)
    (Q D : Nat) (hQ : Q % 4294967296 = 0) (hQD : Q ≤ D) (hD : 1000 * D + 999 + 3 * L < 1000 * (Q + 4294967296))
    (mem0 : List Byte) (hsz : size ≤ mem0.length) (k0 fuel : Nat) (start : BitVec 32) (cur : List Byte) (s : TSt)
    (hst : Stored w mem0 k0 cur s) (hcur : cur.length ≤ size) (he : e ∉ cur)
    (hlo : 1000 * Q ≤ s.now) (hhi : s.now ≤ 1000 * D + 999 + 2 * L) (hf : 1000 * D + 999 + 2 * L < s.now + fuel) :
    ∃ ps s', untilLoopT w size e timeout (BitVec.ofNat 32 D) fuel cur.length start s = .ok (ps.length, s') ∧
      Stored w mem0 k0 ps s' ∧ s'.now ≤ 1000 * D + 999 + 3 * L ∧ ps.length ≤ size ∧ e ∉ ps.dropLast ∧
      (ps.length = size ∨ ps.getLast? = some e ∨ 1000 * D ≤ s'.now) := by
  induction fuel generalizing cur start s with
  | zero => omega
  | succ fuel ih =>
    unfold untilLoopT
    by_cases hp : cur.length < size
    · rw [if_pos hp]
      simp only [ht, if_false, tickT, false_or]
      have l1 := hw.lag_pos s.ops
      have l2 := hw.lag_le s.ops
      have hcl := clock_lt (a := s.now / 1000) hQ (by omega) (by omega) hQD (by omega)
      by_cases hc : s.now / 1000 < D
      · rw [if_pos (hcl.mpr hc)]
        have hd := clock_sub (a := s.now / 1000) (D := D) hQ (by omega) (by omega) (by omega) (by omega)
        have hlen := hst.length (by omega)
        rcases readByteT_cases w ⟨s.mem, s.now + w.lag s.ops, s.ops + 1, s.taken,
            s.clocks ++ [BitVec.ofNat 32 (s.now / 1000)], s.log⟩ cur.length
            (BitVec.ofNat 32 D - BitVec.ofNat 32 (s.now / 1000)) (by simp only; omega) with
          ⟨t, b, h1, h2, h3⟩ | ⟨h1, h3⟩
        · rw [h3]
          simp only [hd] at h1 h2
          have l3 := hw.lag_pos (s.ops + 1)
          have l4 := hw.lag_le (s.ops + 1)
          have l5 := hw.wait_le (s.ops + 1) (D - s.now / 1000)
          simp only [Res.bind_ok, if_true]
          rw [List.getElem?_set_self (by omega)]
          simp only
          have hst' := hst.step (s' := ⟨s.mem.set cur.length b, max (s.now + w.lag s.ops) t + w.lag (s.ops + 1),
            s.ops + 1 + 1, s.taken + 1, s.clocks ++ [BitVec.ofNat 32 (s.now / 1000)],
            s.log ++ [(BitVec.ofNat 32 D - BitVec.ofNat 32 (s.now / 1000), some b)]⟩) (by omega) h1
            (by simp only; omega) (by simp only; omega) rfl rfl
          by_cases hb : b = e
          · rw [if_pos hb]
            refine ⟨cur ++ [b], _, by simp, hst', by simp only; omega, by simp; omega, by simpa using he, ?_⟩
            exact .inr (.inl (by simp [hb]))
          · rw [if_neg hb]
            obtain ⟨ps, s', k1, k2⟩ := ih (BitVec.ofNat 32 (s.now / 1000)) (cur ++ [b]) _ hst' (by simp; omega)
              (by simp only [List.mem_append, List.mem_singleton, not_or]; exact ⟨he, fun h => hb h.symm⟩)
              (by simp only; omega) (by simp only; omega) (by simp only; omega)
            refine ⟨ps, s', ?_, k2⟩
            rw [← k1]
            simp
        · rw [h3]
          simp only [hd] at h1
          have l3 := hw.lag_pos (s.ops + 1)
          have l4 := hw.lag_le (s.ops + 1)
          have l5 := hw.wait_le (s.ops + 1) (D - s.now / 1000)
          simp only [Res.bind_ok, Bool.false_eq_true, if_false]
          refine ih _ cur _ (hst.later rfl rfl ?_) hcur he ?_ ?_ ?_ <;> simp only [hd] <;> omega
      · rw [if_neg (fun h => hc (hcl.mp h))]
        refine ⟨cur, _, rfl, hst.later rfl rfl (by simp only; omega), by simp only; omega, by omega, ?_, ?_⟩
        · exact fun h => he (List.dropLast_subset cur h)
        · right; right; simp only; omega
    · rw [if_neg hp]
      refine ⟨cur, s, rfl, hst, by omega, hcur, fun h => he (List.dropLast_subset cur h), .inl (by omega)⟩

/-- **C114**, ESP32 `ReceiveUntil`: the call ends within its time-out, up to the granularity of the clock and the time
taken by three operations.  It returns the next bytes on the wire, up to the terminator; and it gives up – with less than
a full buffer and no terminator – no sooner than the time-out. -/
theorem until_in_time (w : Wire) (L : Nat) (hw : w.Ok L) (size : Nat) (e : Byte) (timeout : Nat) (ht : timeout ≠ 0)
    (mem : List Byte) (hsz : size ≤ mem.length) (now ops taken : Nat)
    (hwrap : NoWrap now (1000 * timeout + 999 + 3 * L)) :
    ∃ enough, ∀ fuel, enough ≤ fuel →
      ∃ ps s, receiveUntilT w fuel (begin mem now ops taken) size e timeout = .ok (ps.length, s) ∧
        s.mem = ps ++ mem.drop ps.length ∧ s.taken = taken + ps.length ∧ Got w taken ps s.now ∧ ps.length ≤ size ∧
        e ∉ ps.dropLast ∧ s.now ≤ now + 1000 * timeout + 999 + 3 * L ∧
        (ps.length = size ∨ ps.getLast? = some e ∨ 1000 * (now / 1000 + timeout) ≤ s.now) := by
  unfold NoWrap at hwrap
  refine ⟨1000 * (now / 1000 + timeout) + 999 + 2 * L + 1, fun fuel hf => ?_⟩
  have l1 := hw.lag_pos ops
  have l2 := hw.lag_le ops
  obtain ⟨ps, s, k1, k2, k3, k4, k5, k6⟩ := untilLoop_timed w L hw size e timeout ht
    (4294967296 * (now / 4294967296000)) (now / 1000 + timeout) (by omega) (by omega) (by omega) mem hsz taken fuel
    (BitVec.ofNat 32 (now / 1000)) [] (tickT w (begin mem now ops taken)).2
    ⟨by simp [tickT, begin], by simp [tickT, begin], Got.nil _ _ _⟩ (by simp) (by simp)
    (by simp only [tickT, begin]; omega) (by simp only [tickT, begin]; omega) (by simp only [tickT, begin]; omega)
  refine ⟨ps, s, ?_, k2.mem, k2.taken, k2.got, k4, k5, by omega, k6⟩
  unfold receiveUntilT
  simp only [show (tickT w (begin mem now ops taken)).1 = BitVec.ofNat 32 (now / 1000) from rfl]
  rw [← k1, BitVec.ofNat_add]
  rfl

theorem untilLoop_prompt (w : Wire) (L : Nat) (hw : w.Ok L) (size : Nat) (e : Byte) (timeout : Nat)
    (Q D M : Nat) (line : List Byte) (hlast : line.getLast? = some e) (hfirst : e ∉ line.dropLast)
    (hdead : timeout = 0 ∨ (Q % 4294967296 = 0 ∧ Q ≤ D ∧ 1000 * D < 1000 * (Q + 4294967296) ∧
      M + (2 * line.length - 1) * L < 1000 * D))
    (mem0 : List Byte) (hline : line.length ≤ size) (hsz : size ≤ mem0.length) (k0 : Nat) (hgot : Got w k0 line M)
    (fuel : Nat) (start : BitVec 32) (cur : List Byte) (s : TSt) (hst : Stored w mem0 k0 cur s)
    (hcur : cur <+: line.dropLast) (hlo : timeout = 0 ∨ 1000 * Q ≤ s.now) (hhi : s.now ≤ M + (2 * cur.length + 1) * L)
    (hf : M + (2 * line.length + 1) * L < s.now + fuel) :
    ∃ s', untilLoopT w size e timeout (BitVec.ofNat 32 D) fuel cur.length start s = .ok (line.length, s') ∧
      Stored w mem0 k0 line s' ∧ s'.now ≤ M + (2 * line.length + 1) * L := by
  have hne : line ≠ [] := by rintro rfl; simp at hlast
  have hlen0 : 0 < line.length := List.length_pos_iff.mpr hne
  have hdl : line.dropLast ++ [e] = line := by
    rw [List.getLast?_eq_some_getLast hne] at hlast
    have := List.dropLast_concat_getLast hne
    rwa [Option.some.inj hlast] at this
  induction fuel generalizing cur start s with
  | zero =>
    have hc := hcur.length_le
    rw [List.length_dropLast] at hc
    have : (2 * cur.length + 1) * L ≤ (2 * line.length + 1) * L := Nat.mul_le_mul_right _ (by omega)
    omega
  | succ fuel ih =>
    have hc := hcur.length_le
    rw [List.length_dropLast] at hc
    have hmul : (2 * cur.length + 1) * L + L + L ≤ (2 * line.length + 1) * L := by
      have := Nat.mul_le_mul_right L (show 2 * cur.length + 1 + 1 + 1 ≤ 2 * line.length + 1 by omega)
      rwa [Nat.add_mul, Nat.one_mul, Nat.add_mul _ 1, Nat.one_mul] at this
    have hmul1 : (2 * cur.length + 1) * L ≤ (2 * line.length - 1) * L := Nat.mul_le_mul_right _ (by omega)
    have hmul2 : L ≤ (2 * cur.length + 1) * L := Nat.le_mul_of_pos_left _ (by omega)
    unfold untilLoopT
    rw [if_pos (by omega)]
    have l1 := hw.lag_pos s.ops
    have l2 := hw.lag_le s.ops
    -- the state after the clock reading
    obtain ⟨start1, s1, hs1, hm1, hk1, hn1, hn2, hcond⟩ : ∃ start1 s1,
        (if timeout = 0 then (start, s) else tickT w s) = (start1, s1) ∧ s1.mem = s.mem ∧ s1.taken = s.taken ∧
        s.now ≤ s1.now ∧ s1.now ≤ s.now + L ∧ (timeout = 0 ∨ start1 < BitVec.ofNat 32 D) := by
      by_cases ht : timeout = 0
      · rw [if_pos ht]
        exact ⟨_, _, rfl, rfl, rfl, by omega, by omega, .inl ht⟩
      · rw [if_neg ht]
        refine ⟨_, _, rfl, rfl, rfl, by simp only; omega, by simp only; omega, .inr ?_⟩
        obtain ⟨q1, q2, q3, q4⟩ := hdead.resolve_left ht
        have q5 := hlo.resolve_left ht
        rw [clock_lt q1 (by omega) (by omega) q2 (by omega)]
        omega
    rw [hs1]
    simp only
    rw [if_pos hcond]
    have hlen := hst.length (by omega)
    have l3 := hw.lag_pos s1.ops
    have l4 := hw.lag_le s1.ops
    -- the next byte of the line
    have hcl : cur.length < line.length := by omega
    obtain ⟨t, htM, harr⟩ := hgot cur.length line[cur.length] (List.getElem?_eq_getElem hcl)
    rcases readByteT_cases w s1 cur.length (BitVec.ofNat 32 D - start1) (by rw [hm1]; omega) with
      ⟨t', b, h1, h2, h3⟩ | ⟨h1, h3⟩
    · rw [hk1, hst.taken, harr] at h1
      obtain ⟨rfl, rfl⟩ : t = t' ∧ line[cur.length] = b := by cases h1; exact ⟨rfl, rfl⟩
      rw [h3]
      simp only [Res.bind_ok, if_true]
      rw [List.getElem?_set_self (by rw [hm1]; omega)]
      simp only
      have hst' := hst.step (s' := ⟨s1.mem.set cur.length line[cur.length], max s1.now t + w.lag s1.ops, s1.ops + 1,
        s1.taken + 1, s1.clocks, s1.log ++ [(BitVec.ofNat 32 D - start1, some line[cur.length])]⟩) (by omega)
        (by rw [hst.taken]; exact harr) (by simp only; omega) (by simp only; omega) (by simp only [hm1])
        (by simp only [hk1])
      have hnext : cur ++ [line[cur.length]] = line.take (cur.length + 1) := by
        have h4 : cur = line.take cur.length := by
          have h5 := (List.prefix_iff_eq_take.mp hcur)
          rw [List.dropLast_eq_take, List.take_take, Nat.min_eq_left (by omega)] at h5
          exact h5
        rw [List.take_succ_eq_append_getElem hcl, ← h4]
      by_cases hb : line[cur.length] = e
      · rw [if_pos hb]
        have hend : cur.length + 1 = line.length := by
          by_contra hne2
          refine hfirst ?_
          rw [← hb]
          have h6 : cur.length < line.dropLast.length := by rw [List.length_dropLast]; omega
          rw [← List.getElem_dropLast h6]
          exact List.getElem_mem h6
        have hall : cur ++ [line[cur.length]] = line := by rw [hnext, hend, List.take_length]
        refine ⟨_, by rw [hend], ?_, by simp only; omega⟩
        rw [hall] at hst'
        exact hst'
      · rw [if_neg hb]
        have hnl : cur.length + 1 < line.length := by
          by_contra hge
          refine hb ?_
          have h7 : cur.length = line.length - 1 := by omega
          have h8 : line.getLast? = some line[cur.length] := by
            rw [List.getLast?_eq_getElem?, ← h7, List.getElem?_eq_getElem hcl]
          rw [hlast] at h8
          exact (Option.some.inj h8).symm
        have hmul3 : (2 * (cur.length + 1) + 1) * L = (2 * cur.length + 1) * L + L + L := by
          rw [show 2 * (cur.length + 1) + 1 = 2 * cur.length + 1 + 1 + 1 by omega, Nat.add_mul _ 1, Nat.one_mul,
            Nat.add_mul _ 1, Nat.one_mul]
        have hpre : cur ++ [line[cur.length]] <+: line.dropLast := by
          rw [hnext, List.dropLast_eq_take]
          exact List.prefix_iff_eq_take.mpr (by rw [List.take_take, List.length_take]; congr 1; omega)
        obtain ⟨s', k1, k2⟩ := ih start1 (cur ++ [line[cur.length]]) _ hst' hpre
          (by rcases hlo with h | h
              · exact .inl h
              · right; simp only; omega)
          (by rw [List.length_append, List.length_singleton, hmul3]; simp only; omega)
          (by simp only; omega)
        refine ⟨s', ?_, k2⟩
        rw [← k1]
        simp
    · have h4 := h1 t line[cur.length] (by rw [hk1, hst.taken]; exact harr)
      rw [h3]
      simp only [Res.bind_ok, Bool.false_eq_true, if_false]
      refine ih start1 cur _ (hst.later hm1 hk1 ?_) hcur ?_ ?_ ?_
      · simp only; omega
      · rcases hlo with h | h
        · exact .inl h
        · right; simp only; omega
      · simp only; omega
      · simp only; omega

/-- **C114**, ESP32 `ReceiveUntil`: if a terminated line has arrived at `M` and there is still time, exactly this line is
returned, as soon as it is there up to the time taken by two operations for each byte. -/
theorem until_prompt (w : Wire) (L : Nat) (hw : w.Ok L) (size : Nat) (e : Byte) (timeout : Nat) (line : List Byte)
    (hlast : line.getLast? = some e) (hfirst : e ∉ line.dropLast) (hline : line.length ≤ size)
    (mem : List Byte) (hsz : size ≤ mem.length) (now ops taken M : Nat) (hM : now ≤ M) (hgot : Got w taken line M)
    (htime : timeout = 0 ∨ M + (2 * line.length - 1) * L < 1000 * (now / 1000 + timeout) ∧ NoWrap now (1000 * timeout)) :
    ∃ enough, ∀ fuel, enough ≤ fuel →
      ∃ s, receiveUntilT w fuel (begin mem now ops taken) size e timeout = .ok (line.length, s) ∧
        s.mem = line ++ mem.drop line.length ∧ s.taken = taken + line.length ∧
        s.now ≤ M + (2 * line.length + 1) * L := by
  unfold NoWrap at htime
  refine ⟨M + (2 * line.length + 1) * L + 1, fun fuel hf => ?_⟩
  have l1 := hw.lag_pos ops
  have l2 := hw.lag_le ops
  obtain ⟨s, k1, k2, k3⟩ := untilLoop_prompt w L hw size e timeout (4294967296 * (now / 4294967296000))
    (now / 1000 + timeout) M line hlast hfirst
    (by rcases htime with h | ⟨h1, h2⟩
        · exact .inl h
        · exact .inr ⟨by omega, by omega, by omega, h1⟩)
    mem hline hsz taken hgot fuel (BitVec.ofNat 32 (now / 1000)) [] (tickT w (begin mem now ops taken)).2
    ⟨by simp [tickT, begin], by simp [tickT, begin], Got.nil _ _ _⟩ (by simp)
    (by simp only [tickT, begin]; right; omega) (by simp only [tickT, begin, List.length_nil]; omega)
    (by simp only [tickT, begin]; omega)
  refine ⟨s, ?_, k2.mem, k2.taken, k3⟩
  unfold receiveUntilT
  simp only [show (tickT w (begin mem now ops taken)).1 = BitVec.ofNat 32 (now / 1000) from rfl]
  rw [← k1, BitVec.ofNat_add]
  rfl

end Verif.Uart.Timed
