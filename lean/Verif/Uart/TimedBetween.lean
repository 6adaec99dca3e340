import Verif.Uart.TimedProps
/-!
# C114: how long a reception takes – `ReceiveBetween` on ESP32, and the end of the counter
-/
namespace Verif.Uart.Timed
open Verif

/-! ## ESP32 `ReceiveBetween` -/

/-- Waiting for the start byte, `gs` being skipped: every read is given the whole time-out. -/
theorem startLoop_timed (w : Wire) (L : Nat) (hw : w.Ok L) (sb : Byte) (m0 timeout Q M k0 : Nat)
    (hQ : Q % 4294967296 = 0) (hQm : Q ≤ m0) (hD : m0 + timeout < Q + 4294967296) (gs : List Byte) (hgs : sb ∉ gs)
    (hgot : Got w k0 gs M) (hnext : ∀ t b, w.arrival (k0 + gs.length) = some (t, b) → t ≤ M ∧ b = sb)
    (mem0 : List Byte) (hm0 : mem0 ≠ []) (fuel j : Nat) (hj : j ≤ gs.length) (s : TSt) (hk : s.taken = k0 + j)
    (hmem : s.mem.length = mem0.length ∧ s.mem.drop 1 = mem0.drop 1) (hn : s.now ≤ M + (j + 1) * L)
    (hf : gs.length < j + fuel) :
    ∃ f s', startLoopT w sb (BitVec.ofNat 32 m0) (BitVec.ofNat 32 (m0 + timeout)) fuel s = .ok (f, s') ∧
      s.now ≤ s'.now ∧
      ((f = false ∧ s'.now ≤ M + 1000 * timeout + (gs.length + 2) * L) ∨
        (f = true ∧ s'.now ≤ M + (gs.length + 2) * L ∧ Stored w mem0 (k0 + gs.length) [sb] s')) := by
  have hle := (clock_le (a := m0) (D := m0 + timeout) hQ hQm (by omega) (by omega) hD).mpr (by omega)
  have hd := clock_sub (a := m0) (D := m0 + timeout) hQ hQm (by omega) (by omega) hD
  have hlen : 0 < mem0.length := List.length_pos_iff.mpr hm0
  induction fuel generalizing j s with
  | zero => omega
  | succ fuel ih =>
    unfold startLoopT
    rw [if_pos hle]
    have l1 := hw.lag_pos s.ops
    have l2 := hw.lag_le s.ops
    have l3 := hw.wait_le s.ops (m0 + timeout - m0)
    have hm : (j + 1) * L ≤ (gs.length + 1) * L := Nat.mul_le_mul_right _ (by omega)
    have hm1 : (gs.length + 2) * L = (gs.length + 1) * L + L := by
      rw [show gs.length + 2 = gs.length + 1 + 1 by omega, Nat.add_mul _ 1, Nat.one_mul]
    have hm2 : (j + 1 + 1) * L = (j + 1) * L + L := by rw [Nat.add_mul _ 1, Nat.one_mul]
    rcases readByteT_cases w s 0 (BitVec.ofNat 32 (m0 + timeout) - BitVec.ofNat 32 m0) (by omega) with
      ⟨t, b, h1, h2, h3⟩ | ⟨h1, h3⟩
    · rw [h3]
      simp only [hd, Nat.add_sub_cancel_left] at h2 l3
      simp only [Res.bind_ok, if_true]
      rw [List.getElem?_set_self (by omega)]
      simp only
      by_cases hj' : j = gs.length
      · subst hj'
        rw [hk] at h1
        obtain ⟨htM, rfl⟩ := hnext t b h1
        rw [if_pos rfl]
        refine ⟨true, _, rfl, by simp only; omega, .inr ⟨rfl, by simp only; omega, ?_, ?_, ?_⟩⟩
        · simp only [List.length_singleton]
          rw [← hmem.2]
          cases hs : s.mem with
          | nil => rw [hs] at hmem; simp at hmem; omega
          | cons x xs => simp
        · simp only [hk, List.length_singleton]
        · intro i c hc
          have hi : i = 0 := by
            by_contra hne
            rw [List.getElem?_eq_none (by simp; omega)] at hc
            exact absurd hc (by simp)
          subst hi
          simp at hc
          subst hc
          exact ⟨t, by simp only; omega, h1⟩
      · have hjl : j < gs.length := by omega
        obtain ⟨t', ht', ha'⟩ := hgot j gs[j] (List.getElem?_eq_getElem hjl)
        rw [hk, ha'] at h1
        obtain ⟨rfl, rfl⟩ : t' = t ∧ gs[j] = b := by cases h1; exact ⟨rfl, rfl⟩
        rw [if_neg (fun h : gs[j] = sb => hgs (h ▸ List.getElem_mem hjl))]
        obtain ⟨f, s', k1, k2, k3⟩ := ih (j + 1) (by omega) ⟨s.mem.set 0 gs[j], max s.now t' + w.lag s.ops,
            s.ops + 1, s.taken + 1, s.clocks, s.log ++ [(BitVec.ofNat 32 (m0 + timeout) - BitVec.ofNat 32 m0, some gs[j])]⟩
          (by simp only [hk]; omega)
          (by simp only [List.length_set]; refine ⟨hmem.1, ?_⟩
              rw [← hmem.2]
              cases s.mem <;> simp)
          (by simp only; omega) (by omega)
        refine ⟨f, s', k1, ?_, k3⟩
        simp only at k2
        omega
    · rw [h3]
      simp only [Nat.add_sub_cancel_left] at l3
      simp only [Res.bind_ok, Bool.false_eq_true, if_false, hd, Nat.add_sub_cancel_left]
      exact ⟨false, _, rfl, by simp only; omega, .inl ⟨rfl, by simp only; omega⟩⟩

theorem restLoopT_succ (w : Wire) (size : Nat) (e : Byte) (maxTime : BitVec 32) (fuel pos : Nat) (s : TSt) :
    restLoopT w size e maxTime (fuel + 1) pos s =
      if BitVec.ofNat 32 (s.now / 1000) ≤ maxTime then
        if pos = size then .ok (pos, ⟨s.mem, s.now + w.lag s.ops, s.ops + 1, s.taken,
          s.clocks ++ [BitVec.ofNat 32 (s.now / 1000)], s.log⟩)
        else do
          let (got, s) ← readByteT w ⟨s.mem, s.now + w.lag s.ops, s.ops + 1, s.taken,
            s.clocks ++ [BitVec.ofNat 32 (s.now / 1000)], s.log⟩ pos (maxTime - BitVec.ofNat 32 (s.now / 1000))
          if got then
            match s.mem[pos]? with
            | none => .ub
            | some b =>
              if b = e then .ok (pos + 1, s)
              else restLoopT w size e maxTime fuel (pos + 1) s
          else restLoopT w size e maxTime fuel pos s
      else .ok (pos, ⟨s.mem, s.now + w.lag s.ops, s.ops + 1, s.taken, s.clocks ++ [BitVec.ofNat 32 (s.now / 1000)],
        s.log⟩) := rfl

/-- The rest of the packet: the loop ends at the time-out, or at once if it is over already. -/
theorem restLoop_timed (w : Wire) (L : Nat) (hw : w.Ok L) (size : Nat) (e sb : Byte)
    (Q D B : Nat) (hQ : Q % 4294967296 = 0) (hQD : Q ≤ D) (hB : 1000 * D + 999 + 2 * L ≤ B)
    (hwrap : B < 1000 * (Q + 4294967296))
    (mem0 : List Byte) (hsz : size ≤ mem0.length) (k0 fuel : Nat) (cur : List Byte) (s : TSt)
    (hst : Stored w mem0 k0 (sb :: cur) s) (hcur : cur.length + 1 ≤ size) (he : e ∉ cur)
    (hlo : 1000 * Q ≤ s.now) (hhi : s.now ≤ B) (hf : B < s.now + fuel) :
    ∃ ps s', restLoopT w size e (BitVec.ofNat 32 D) fuel (cur.length + 1) s = .ok (ps.length + 1, s') ∧
      Stored w mem0 k0 (sb :: ps) s' ∧ s'.now ≤ B + L ∧ ps.length + 1 ≤ size ∧ e ∉ ps.dropLast ∧ s.now ≤ s'.now ∧
      (1000 * (D + 1) ≤ s.now → ps = cur) ∧
      (ps.length + 1 = size ∨ ps.getLast? = some e ∨ 1000 * (D + 1) ≤ s'.now) := by
  induction fuel generalizing cur s with
  | zero => omega
  | succ fuel ih =>
    rw [restLoopT_succ]
    have l1 := hw.lag_pos s.ops
    have l2 := hw.lag_le s.ops
    have hcl := clock_le (a := s.now / 1000) (D := D) hQ (by omega) (by omega) hQD (by omega)
    by_cases hc : s.now / 1000 ≤ D
    · rw [if_pos (hcl.mpr hc)]
      by_cases hp : cur.length + 1 = size
      · rw [if_pos hp]
        exact ⟨cur, _, rfl, hst.later rfl rfl (by simp only; omega), by simp only; omega, hcur,
          fun h => he (List.dropLast_subset cur h), by simp only; omega, fun _ => rfl, .inl hp⟩
      · rw [if_neg hp]
        have hd := clock_sub (a := s.now / 1000) (D := D) hQ (by omega) (by omega) hc (by omega)
        have hlen := hst.length (by simp; omega)
        rcases readByteT_cases w ⟨s.mem, s.now + w.lag s.ops, s.ops + 1, s.taken,
            s.clocks ++ [BitVec.ofNat 32 (s.now / 1000)], s.log⟩ (cur.length + 1)
            (BitVec.ofNat 32 D - BitVec.ofNat 32 (s.now / 1000)) (by simp only; omega) with
          ⟨t, b, h1, h2, h3⟩ | ⟨h1, h3⟩
        · rw [h3]
          simp only [hd] at h1 h2
          have l3 := hw.lag_pos (s.ops + 1)
          have l4 := hw.lag_le (s.ops + 1)
          have l5 := hw.wait_le (s.ops + 1) (D - s.now / 1000)
          simp only [Res.bind_ok, if_true]
          rw [List.getElem?_set_self (by omega)]
          simp only
          have hst' := hst.step (s' := ⟨s.mem.set (cur.length + 1) b, max (s.now + w.lag s.ops) t + w.lag (s.ops + 1),
            s.ops + 1 + 1, s.taken + 1, s.clocks ++ [BitVec.ofNat 32 (s.now / 1000)],
            s.log ++ [(BitVec.ofNat 32 D - BitVec.ofNat 32 (s.now / 1000), some b)]⟩) (by simp; omega) h1
            (by simp only; omega) (by simp only; omega) rfl rfl
          rw [List.cons_append] at hst'
          by_cases hb : b = e
          · rw [if_pos hb]
            refine ⟨cur ++ [b], _, by simp, hst', by simp only; omega, by simp; omega, by simpa using he,
              by simp only; omega, by omega, ?_⟩
            exact .inr (.inl (by simp [hb]))
          · rw [if_neg hb]
            obtain ⟨ps, s', k1, k2, k3, k4, k5, k6, -, k7⟩ := ih (cur ++ [b]) _ hst' (by simp; omega)
              (by simp only [List.mem_append, List.mem_singleton, not_or]; exact ⟨he, fun h => hb h.symm⟩)
              (by simp only; omega) (by simp only; omega) (by simp only; omega)
            refine ⟨ps, s', ?_, k2, k3, k4, k5, by simp only at k6; omega, by omega, k7⟩
            rw [← k1]
            simp
        · rw [h3]
          simp only [hd] at h1
          have l3 := hw.lag_pos (s.ops + 1)
          have l4 := hw.lag_le (s.ops + 1)
          have l5 := hw.wait_le (s.ops + 1) (D - s.now / 1000)
          simp only [Res.bind_ok, Bool.false_eq_true, if_false]
          obtain ⟨ps, s', k1, k2, k3, k4, k5, k6, -, k7⟩ := ih cur ⟨s.mem, s.now + w.lag s.ops +
              w.wait (s.ops + 1) (BitVec.ofNat 32 D - BitVec.ofNat 32 (s.now / 1000)).toNat + w.lag (s.ops + 1),
              s.ops + 1 + 1, s.taken, s.clocks ++ [BitVec.ofNat 32 (s.now / 1000)],
              s.log ++ [(BitVec.ofNat 32 D - BitVec.ofNat 32 (s.now / 1000), none)]⟩
            (hst.later rfl rfl (by simp only; omega)) hcur he (by simp only; omega) (by simp only [hd]; omega)
            (by simp only; omega)
          exact ⟨ps, s', k1, k2, k3, k4, k5, by simp only at k6; omega, by omega, k7⟩
    · rw [if_neg (fun h => hc (hcl.mp h))]
      refine ⟨cur, _, rfl, hst.later rfl rfl (by simp only; omega), by simp only; omega, hcur,
          fun h => he (List.dropLast_subset cur h), by simp only; omega, fun _ => rfl, .inr (.inr (by simp only; omega))⟩

/-- **C114**, ESP32 `ReceiveBetween`, the part which holds: the call ends within its time-out of the last byte skipped (or
of the start byte), `M`.  It returns nothing, or the start byte and the bytes following it, up to the terminator. -/
theorem between_in_time_partial (w : Wire) (L : Nat) (hw : w.Ok L) (size : Nat) (hs2 : 2 ≤ size) (sb e : Byte)
    (timeout : Nat) (mem : List Byte) (hsz : size ≤ mem.length) (now ops taken M : Nat) (hM : now ≤ M) (gs : List Byte)
    (hgs : sb ∉ gs) (hgot : Got w taken gs M)
    (hnext : ∀ t b, w.arrival (taken + gs.length) = some (t, b) → t ≤ M ∧ b = sb)
    (hwrap : NoWrap now (M - now + 1000 * timeout + 999 + (gs.length + 2) * L)) :
    ∃ enough, ∀ fuel, enough ≤ fuel →
      ∃ n s, receiveBetweenT w fuel (begin mem now ops taken) size sb e timeout = .ok (n, s) ∧
        s.now ≤ M + 1000 * timeout + 999 + (gs.length + 3) * L ∧
        (n = 0 ∨ ∃ ps, n = (sb :: ps).length ∧ s.mem = sb :: ps ++ mem.drop n ∧ s.taken = taken + gs.length + n ∧
          Got w (taken + gs.length) (sb :: ps) s.now ∧ n ≤ size ∧ e ∉ ps.dropLast ∧
          (n = size ∨ ps.getLast? = some e ∨ 1000 * (now / 1000 + timeout + 1) ≤ s.now)) := by
  unfold NoWrap at hwrap
  have l1 := hw.lag_pos ops
  have l2 := hw.lag_le ops
  have hm1 : (gs.length + 2) * L = gs.length * L + 2 * L := by rw [Nat.add_mul]
  have hm2 : (gs.length + 3) * L = gs.length * L + 3 * L := by rw [Nat.add_mul]
  have hQ : 4294967296 * (now / 4294967296000) % 4294967296 = 0 := by omega
  refine ⟨M + 1000 * timeout + 999 + (gs.length + 2) * L + gs.length + 2, fun fuel hf => ?_⟩
  obtain ⟨f, s1, k1, k2, k3⟩ := startLoop_timed w L hw sb (now / 1000) timeout (4294967296 * (now / 4294967296000)) M taken
    hQ (by omega) (by omega) gs hgs hgot hnext mem (by rintro rfl; simp at hsz; omega) fuel 0
    (by omega) (tickT w (begin mem now ops taken)).2 rfl ⟨rfl, rfl⟩ (by simp only [tickT, begin]; omega) (by omega)
  have hrun : receiveBetweenT w fuel (begin mem now ops taken) size sb e timeout =
      (if f then restLoopT w size e (BitVec.ofNat 32 (now / 1000 + timeout)) fuel 1 s1 else .ok (0, s1)) := by
    unfold receiveBetweenT
    rw [if_neg (by omega)]
    simp only [show (tickT w (begin mem now ops taken)).1 = BitVec.ofNat 32 (now / 1000) from rfl]
    rw [← BitVec.ofNat_add, k1]
    rfl
  simp only [tickT, begin] at k2
  rw [hrun]
  rcases k3 with ⟨rfl, k4⟩ | ⟨rfl, k4, k5⟩
  · exact ⟨0, s1, rfl, by omega, .inl rfl⟩
  · simp only [if_true]
    obtain ⟨ps, s', j1, j2, j3, j4, j5, j6, -, j7⟩ := restLoop_timed w L hw size e sb
      (4294967296 * (now / 4294967296000)) (now / 1000 + timeout) (M + 1000 * timeout + 999 + (gs.length + 2) * L) hQ
      (by omega) (by omega) (by omega) mem hsz (taken + gs.length) fuel [] s1 k5 (by simp; omega) (by simp)
      (by omega) (by omega) (by omega)
    refine ⟨_, s', j1, by omega, .inr ⟨ps, by simp, ?_, ?_, j2.got, j4, j5, j7⟩⟩
    · rw [j2.mem]; simp
    · rw [j2.taken]; simp

/-- **C114** is false for `ReceiveBetween` on ESP32: while bytes other than the start byte keep coming, none of them later
than the time-out after the one before, the call does not end. -/
theorem between_endless (w : Wire) (L : Nat) (hw : w.Ok L) (size : Nat) (hs2 : 2 ≤ size) (sb e : Byte) (timeout : Nat)
    (mem : List Byte) (hsz : size ≤ mem.length) (now ops taken : Nat) (hwrap : NoWrap now (1000 * timeout))
    (hall : ∀ k, taken ≤ k → ∃ t b, w.arrival k = some (t, b) ∧ b ≠ sb)
    (hfirst : ∀ k t b, w.arrival taken = some (t, b) → t ≤ now + w.wait k timeout)
    (hgap : ∀ j k t b t' b', w.arrival j = some (t, b) → w.arrival (j + 1) = some (t', b') → t' ≤ t + w.wait k timeout)
    (fuel : Nat) : receiveBetweenT w fuel (begin mem now ops taken) size sb e timeout = .hang := by
  unfold NoWrap at hwrap
  have hQ : 4294967296 * (now / 4294967296000) % 4294967296 = 0 := by omega
  have hle := (clock_le (a := now / 1000) (D := now / 1000 + timeout) hQ (by omega) (by omega) (by omega)
    (by omega)).mpr (by omega)
  have hd := clock_sub (a := now / 1000) (D := now / 1000 + timeout) hQ (by omega) (by omega) (by omega) (by omega)
  have key : ∀ fuel s, s.mem.length = mem.length → taken ≤ s.taken →
      (∀ k t b, w.arrival s.taken = some (t, b) → t ≤ s.now + w.wait k timeout) →
      startLoopT w sb (BitVec.ofNat 32 (now / 1000)) (BitVec.ofNat 32 (now / 1000 + timeout)) fuel s = .hang := by
    intro fuel
    induction fuel with
    | zero => intros; rfl
    | succ fuel ih =>
      intro s hm hk hn
      unfold startLoopT
      rw [if_pos hle]
      obtain ⟨t, b, ha, hb⟩ := hall s.taken hk
      rcases readByteT_cases w s 0 (BitVec.ofNat 32 (now / 1000 + timeout) - BitVec.ofNat 32 (now / 1000)) (by omega) with
        ⟨t', b', h1, h2, h3⟩ | ⟨h1, h3⟩
      · rw [ha] at h1
        obtain ⟨rfl, rfl⟩ : t = t' ∧ b = b' := by cases h1; exact ⟨rfl, rfl⟩
        rw [h3]
        simp only [Res.bind_ok, if_true]
        rw [List.getElem?_set_self (by omega)]
        simp only
        rw [if_neg hb]
        refine ih _ (by simp only [List.length_set]; exact hm) (by simp only; omega) ?_
        intro k t'' b'' h''
        have := hgap s.taken k t b t'' b'' ha h''
        simp only
        omega
      · have h4 := h1 t b ha
        have h5 := hn s.ops t b ha
        rw [hd, Nat.add_sub_cancel_left] at h4
        omega
  have l1 := hw.lag_pos ops
  unfold receiveBetweenT
  rw [if_neg (by omega)]
  simp only [show (tickT w (begin mem now ops taken)).1 = BitVec.ofNat 32 (now / 1000) from rfl]
  rw [← BitVec.ofNat_add, key fuel _ rfl (Nat.le_refl _)]
  · rfl
  · intro k t b h
    have := hfirst k t b h
    simp only [tickT, begin]
    omega

/-- **C114**: a start byte which comes after the time-out is returned alone, although the packet follows it: the rest of
the packet is left to the next call. -/
theorem between_late_start (w : Wire) (L : Nat) (hw : w.Ok L) (size : Nat) (hs2 : 2 ≤ size) (sb e : Byte)
    (timeout : Nat) (mem : List Byte) (hsz : size ≤ mem.length) (now ops taken M : Nat) (hM : now ≤ M) (gs : List Byte)
    (hgs : sb ∉ gs) (hgot : Got w taken gs M) (hnext : w.arrival (taken + gs.length) = some (M, sb))
    (hlate : 1000 * (now / 1000 + timeout + 1) ≤ M)
    (hwrap : NoWrap now (M - now + 1000 * timeout + 999 + (gs.length + 2) * L)) :
    ∃ enough, ∀ fuel, enough ≤ fuel →
      ∃ n s, receiveBetweenT w fuel (begin mem now ops taken) size sb e timeout = .ok (n, s) ∧
        (n = 0 ∨ n = 1 ∧ s.mem = sb :: mem.drop 1 ∧ s.taken = taken + gs.length + 1) := by
  unfold NoWrap at hwrap
  have l1 := hw.lag_pos ops
  have l2 := hw.lag_le ops
  have hm1 : (gs.length + 2) * L = gs.length * L + 2 * L := by rw [Nat.add_mul]
  have hQ : 4294967296 * (now / 4294967296000) % 4294967296 = 0 := by omega
  refine ⟨M + 1000 * timeout + 999 + (gs.length + 2) * L + gs.length + 2, fun fuel hf => ?_⟩
  obtain ⟨f, s1, k1, k2, k3⟩ := startLoop_timed w L hw sb (now / 1000) timeout (4294967296 * (now / 4294967296000)) M taken
    hQ (by omega) (by omega) gs hgs hgot (by intro t b h; rw [hnext] at h; cases h; exact ⟨Nat.le_refl _, rfl⟩)
    mem (by rintro rfl; simp at hsz; omega) fuel 0
    (by omega) (tickT w (begin mem now ops taken)).2 rfl ⟨rfl, rfl⟩ (by simp only [tickT, begin]; omega) (by omega)
  have hrun : receiveBetweenT w fuel (begin mem now ops taken) size sb e timeout =
      (if f then restLoopT w size e (BitVec.ofNat 32 (now / 1000 + timeout)) fuel 1 s1 else .ok (0, s1)) := by
    unfold receiveBetweenT
    rw [if_neg (by omega)]
    simp only [show (tickT w (begin mem now ops taken)).1 = BitVec.ofNat 32 (now / 1000) from rfl]
    rw [← BitVec.ofNat_add, k1]
    rfl
  simp only [tickT, begin] at k2
  rw [hrun]
  rcases k3 with ⟨rfl, k4⟩ | ⟨rfl, k4, k5⟩
  · exact ⟨0, s1, rfl, .inl rfl⟩
  · simp only [if_true]
    obtain ⟨t, ht, ha⟩ := k5.got 0 sb rfl
    rw [Nat.add_zero, hnext] at ha
    obtain rfl : M = t := by cases ha; rfl
    obtain ⟨ps, s', j1, j2, j3, j4, j5, j6, j8, j7⟩ := restLoop_timed w L hw size e sb
      (4294967296 * (now / 4294967296000)) (now / 1000 + timeout) (M + 1000 * timeout + 999 + (gs.length + 2) * L) hQ
      (by omega) (by omega) (by omega) mem hsz (taken + gs.length) fuel [] s1 k5 (by simp; omega) (by simp)
      (by omega) (by omega) (by omega)
    obtain rfl := j8 (by omega)
    refine ⟨1, s', j1, .inr ⟨rfl, ?_, ?_⟩⟩
    · rw [j2.mem]; simp
    · rw [j2.taken]; simp

/-! ### A packet which is there in time -/

theorem startLoop_prompt (w : Wire) (L : Nat) (hw : w.Ok L) (sb : Byte) (m0 timeout Q M k0 now0 : Nat)
    (hQ : Q % 4294967296 = 0) (hQm : Q ≤ m0) (hD : m0 + timeout < Q + 4294967296) (gs : List Byte) (hgs : sb ∉ gs)
    (hgot : Got w k0 (gs ++ [sb]) M) (hwait : ∀ k, M ≤ now0 + w.wait k timeout)
    (mem0 : List Byte) (hm0 : mem0 ≠ []) (fuel j : Nat) (hj : j ≤ gs.length) (s : TSt) (hk : s.taken = k0 + j)
    (hmem : s.mem.length = mem0.length ∧ s.mem.drop 1 = mem0.drop 1) (hn0 : now0 ≤ s.now)
    (hn : s.now ≤ M + (j + 1) * L) (hf : gs.length < j + fuel) :
    ∃ s', startLoopT w sb (BitVec.ofNat 32 m0) (BitVec.ofNat 32 (m0 + timeout)) fuel s = .ok (true, s') ∧
      s.now ≤ s'.now ∧ s'.now ≤ M + (gs.length + 2) * L ∧ Stored w mem0 (k0 + gs.length) [sb] s' := by
  have hle := (clock_le (a := m0) (D := m0 + timeout) hQ hQm (by omega) (by omega) hD).mpr (by omega)
  have hd := clock_sub (a := m0) (D := m0 + timeout) hQ hQm (by omega) (by omega) hD
  have hlen : 0 < mem0.length := List.length_pos_iff.mpr hm0
  induction fuel generalizing j s with
  | zero => omega
  | succ fuel ih =>
    unfold startLoopT
    rw [if_pos hle]
    have l1 := hw.lag_pos s.ops
    have l2 := hw.lag_le s.ops
    have hm : (j + 1) * L ≤ (gs.length + 1) * L := Nat.mul_le_mul_right _ (by omega)
    have hm1 : (gs.length + 2) * L = (gs.length + 1) * L + L := by
      rw [show gs.length + 2 = gs.length + 1 + 1 by omega, Nat.add_mul _ 1, Nat.one_mul]
    have hm2 : (j + 1 + 1) * L = (j + 1) * L + L := by rw [Nat.add_mul _ 1, Nat.one_mul]
    have hjl : j < (gs ++ [sb]).length := by simp; omega
    obtain ⟨t', ht', ha'⟩ := hgot j (gs ++ [sb])[j] (List.getElem?_eq_getElem hjl)
    have hw' := hwait s.ops
    rcases readByteT_cases w s 0 (BitVec.ofNat 32 (m0 + timeout) - BitVec.ofNat 32 m0) (by omega) with
      ⟨t, b, h1, h2, h3⟩ | ⟨h1, h3⟩
    · rw [hk, ha'] at h1
      obtain ⟨rfl, rfl⟩ : t' = t ∧ (gs ++ [sb])[j] = b := by cases h1; exact ⟨rfl, rfl⟩
      rw [h3]
      simp only [Res.bind_ok, if_true]
      rw [List.getElem?_set_self (by omega)]
      simp only
      by_cases hj' : j = gs.length
      · subst hj'
        have hsb : (gs ++ [sb])[gs.length] = sb := by simp
        rw [if_pos hsb]
        refine ⟨_, rfl, by simp only; omega, by simp only; omega, ?_, ?_, ?_⟩
        · simp only [List.length_singleton, hsb]
          rw [← hmem.2]
          cases hs : s.mem with
          | nil => rw [hs] at hmem; simp at hmem; omega
          | cons x xs => simp
        · simp only [hk, List.length_singleton]
        · intro i c hc
          have hi : i = 0 := by
            by_contra hne
            rw [List.getElem?_eq_none (by simp; omega)] at hc
            exact absurd hc (by simp)
          subst hi
          simp at hc
          subst hc
          exact ⟨t', by simp only; omega, by rw [Nat.add_zero, ha', hsb]⟩
      · have hjg : j < gs.length := by omega
        have hgj : (gs ++ [sb])[j] = gs[j] := List.getElem_append_left hjg
        rw [if_neg (fun h => hgs (by rw [← h, hgj]; exact List.getElem_mem hjg))]
        obtain ⟨s', k1, k2, k3⟩ := ih (j + 1) (by omega) ⟨s.mem.set 0 (gs ++ [sb])[j], max s.now t' + w.lag s.ops, s.ops + 1,
            s.taken + 1, s.clocks, s.log ++ [(BitVec.ofNat 32 (m0 + timeout) - BitVec.ofNat 32 m0, some (gs ++ [sb])[j])]⟩
          (by simp only [hk]; omega)
          (by simp only [List.length_set]; refine ⟨hmem.1, ?_⟩
              rw [← hmem.2]
              cases s.mem <;> simp)
          (by simp only; omega) (by simp only; omega) (by omega)
        refine ⟨s', k1, ?_, k3⟩
        simp only at k2
        omega
    · have h4 := h1 t' _ (by rw [hk]; exact ha')
      rw [hd, Nat.add_sub_cancel_left] at h4
      omega

theorem restLoop_prompt (w : Wire) (L : Nat) (hw : w.Ok L) (size : Nat) (e sb : Byte) (Q D M N : Nat) (hMN : M + L ≤ N)
    (body : List Byte) (hlast : body.getLast? = some e) (hfirst : e ∉ body.dropLast)
    (hQ : Q % 4294967296 = 0) (hQD : Q ≤ D) (hDQ : 1000 * (D + 1) ≤ 1000 * (Q + 4294967296))
    (htime : N + (2 * body.length - 2) * L < 1000 * (D + 1))
    (mem0 : List Byte) (hline : body.length + 1 ≤ size) (hsz : size ≤ mem0.length) (k0 : Nat)
    (hgot : Got w k0 (sb :: body) M)
    (fuel : Nat) (cur : List Byte) (s : TSt) (hst : Stored w mem0 k0 (sb :: cur) s)
    (hcur : cur <+: body.dropLast) (hlo : 1000 * Q ≤ s.now) (hhi : s.now ≤ N + (2 * cur.length) * L)
    (hf : N + (2 * body.length) * L < s.now + fuel) :
    ∃ s', restLoopT w size e (BitVec.ofNat 32 D) fuel (cur.length + 1) s = .ok (body.length + 1, s') ∧
      Stored w mem0 k0 (sb :: body) s' ∧ s'.now ≤ N + (2 * body.length) * L := by
  have hne : body ≠ [] := by rintro rfl; simp at hlast
  have hlen0 : 0 < body.length := List.length_pos_iff.mpr hne
  induction fuel generalizing cur s with
  | zero =>
    have hc := hcur.length_le
    rw [List.length_dropLast] at hc
    have : (2 * cur.length) * L ≤ (2 * body.length) * L := Nat.mul_le_mul_right _ (by omega)
    omega
  | succ fuel ih =>
    have hc := hcur.length_le
    rw [List.length_dropLast] at hc
    have hmul3 : (2 * (cur.length + 1)) * L = (2 * cur.length) * L + L + L := by
      rw [show 2 * (cur.length + 1) = 2 * cur.length + 1 + 1 by omega, Nat.add_mul _ 1, Nat.one_mul,
        Nat.add_mul _ 1, Nat.one_mul]
    have hmul : (2 * (cur.length + 1)) * L ≤ (2 * body.length) * L := Nat.mul_le_mul_right _ (by omega)
    have hmul1 : (2 * cur.length) * L ≤ (2 * body.length - 2) * L := Nat.mul_le_mul_right _ (by omega)
    rw [restLoopT_succ]
    have l1 := hw.lag_pos s.ops
    have l2 := hw.lag_le s.ops
    have l3 := hw.lag_pos (s.ops + 1)
    have l4 := hw.lag_le (s.ops + 1)
    rw [if_pos ((clock_le (a := s.now / 1000) (D := D) hQ (by omega) (by omega) hQD (by omega)).mpr (by omega)),
      if_neg (by omega)]
    have hlen := hst.length (by simp; omega)
    have hcl : cur.length < body.length := by omega
    obtain ⟨t, htM, harr⟩ := hgot (cur.length + 1) body[cur.length] (by simp [List.getElem?_eq_getElem hcl])
    rcases readByteT_cases w ⟨s.mem, s.now + w.lag s.ops, s.ops + 1, s.taken,
        s.clocks ++ [BitVec.ofNat 32 (s.now / 1000)], s.log⟩ (cur.length + 1)
        (BitVec.ofNat 32 D - BitVec.ofNat 32 (s.now / 1000)) (by simp only; omega) with ⟨t', b, h1, h2, h3⟩ | ⟨h1, h3⟩
    · simp only at h1
      have htk := hst.taken
      rw [List.length_cons] at htk
      rw [htk, harr] at h1
      obtain ⟨rfl, rfl⟩ : t = t' ∧ body[cur.length] = b := by cases h1; exact ⟨rfl, rfl⟩
      rw [h3]
      simp only [Res.bind_ok, if_true]
      rw [List.getElem?_set_self (by omega)]
      simp only
      have hst' := hst.step (s' := ⟨s.mem.set (cur.length + 1) body[cur.length],
        max (s.now + w.lag s.ops) t + w.lag (s.ops + 1), s.ops + 1 + 1, s.taken + 1,
        s.clocks ++ [BitVec.ofNat 32 (s.now / 1000)],
        s.log ++ [(BitVec.ofNat 32 D - BitVec.ofNat 32 (s.now / 1000), some body[cur.length])]⟩) (by simp; omega)
        (by rw [htk]; exact harr) (by simp only; omega) (by simp only; omega) rfl rfl
      rw [List.cons_append] at hst'
      have hnext : cur ++ [body[cur.length]] = body.take (cur.length + 1) := by
        have h4 : cur = body.take cur.length := by
          have h5 := (List.prefix_iff_eq_take.mp hcur)
          rw [List.dropLast_eq_take, List.take_take, Nat.min_eq_left (by omega)] at h5
          exact h5
        rw [List.take_succ_eq_append_getElem hcl, ← h4]
      by_cases hb : body[cur.length] = e
      · rw [if_pos hb]
        have hend : cur.length + 1 = body.length := by
          by_contra hne2
          refine hfirst ?_
          rw [← hb]
          have h6 : cur.length < body.dropLast.length := by rw [List.length_dropLast]; omega
          rw [← List.getElem_dropLast h6]
          exact List.getElem_mem h6
        have hall : cur ++ [body[cur.length]] = body := by rw [hnext, hend, List.take_length]
        rw [hall] at hst'
        exact ⟨_, congrArg (fun n => Res.ok (n, _)) (show cur.length + 1 + 1 = body.length + 1 by omega), hst',
          by simp only; omega⟩
      · rw [if_neg hb]
        have hnl : cur.length + 1 < body.length := by
          by_contra hge
          refine hb ?_
          have h7 : cur.length = body.length - 1 := by omega
          have h8 : body.getLast? = some body[cur.length] := by
            rw [List.getLast?_eq_getElem?, ← h7, List.getElem?_eq_getElem hcl]
          rw [hlast] at h8
          exact (Option.some.inj h8).symm
        have hpre : cur ++ [body[cur.length]] <+: body.dropLast := by
          rw [hnext, List.dropLast_eq_take]
          exact List.prefix_iff_eq_take.mpr (by rw [List.take_take, List.length_take]; congr 1; omega)
        obtain ⟨s', k1, k2⟩ := ih (cur ++ [body[cur.length]]) _ hst' hpre (by simp only; omega)
          (by rw [List.length_append, List.length_singleton, hmul3]; simp only; omega)
          (by simp only; omega)
        refine ⟨s', ?_, k2⟩
        rw [← k1]
        simp
    · have h4 := h1 t body[cur.length] (by
        have htk := hst.taken
        rw [List.length_cons] at htk
        simp only
        rw [htk]; exact harr)
      simp only at h4
      rw [h3]
      simp only [Res.bind_ok, Bool.false_eq_true, if_false]
      refine ih cur _ (hst.later rfl rfl ?_) hcur ?_ ?_ ?_ <;> simp only <;> omega

/-- **C114**, ESP32 `ReceiveBetween`: if a packet has arrived at `M`, after `gs` which has no start byte, every read waits
until then, and there is still time, exactly this packet is returned, as soon as it is there up to the time taken by the
operations. -/
theorem between_prompt (w : Wire) (L : Nat) (hw : w.Ok L) (size : Nat) (sb e : Byte) (timeout : Nat)
    (gs body : List Byte) (hgs : sb ∉ gs) (hlast : body.getLast? = some e) (hfirst : e ∉ body.dropLast)
    (hline : body.length + 1 ≤ size) (mem : List Byte) (hsz : size ≤ mem.length) (now ops taken M : Nat) (hM : now ≤ M)
    (hgot : Got w taken (gs ++ sb :: body) M) (hwait : ∀ k, M ≤ now + w.wait k timeout)
    (htime : M + (gs.length + 2 * body.length) * L < 1000 * (now / 1000 + timeout + 1))
    (hwrap : NoWrap now (1000 * timeout)) :
    ∃ enough, ∀ fuel, enough ≤ fuel →
      ∃ s, receiveBetweenT w fuel (begin mem now ops taken) size sb e timeout = .ok (body.length + 1, s) ∧
        s.mem = sb :: body ++ mem.drop (body.length + 1) ∧ s.taken = taken + gs.length + (body.length + 1) ∧
        s.now ≤ M + (gs.length + 2 * body.length + 2) * L := by
  unfold NoWrap at hwrap
  have l1 := hw.lag_pos ops
  have l2 := hw.lag_le ops
  have hlen0 : 0 < body.length := List.length_pos_iff.mpr (by rintro rfl; simp at hlast)
  have hQ : 4294967296 * (now / 4294967296000) % 4294967296 = 0 := by omega
  have hm1 : (gs.length + 2 * body.length + 2) * L = (gs.length + 2) * L + (2 * body.length) * L := by
    rw [← Nat.add_mul]; congr 1; omega
  have hm2 : (gs.length + 2) * L + (2 * body.length - 2) * L = (gs.length + 2 * body.length) * L := by
    rw [← Nat.add_mul]; congr 1; omega
  have hm3 : M + L ≤ M + (gs.length + 2) * L := by
    have := Nat.le_mul_of_pos_left L (show 0 < gs.length + 2 by omega)
    omega
  have hone : Got w taken (gs ++ [sb]) M := by
    intro i b hb
    refine hgot i b ?_
    have hi : i < (gs ++ [sb]).length := by
      by_contra hn
      rw [List.getElem?_eq_none (by omega)] at hb
      exact absurd hb (by simp)
    rw [show gs ++ sb :: body = (gs ++ [sb]) ++ body by simp, List.getElem?_append_left hi, hb]
  have hrest : Got w (taken + gs.length) (sb :: body) M := by
    intro i b hb
    obtain ⟨t, h1, h2⟩ := hgot (gs.length + i) b (by rw [List.getElem?_append_right (by omega)]; simpa using hb)
    exact ⟨t, by omega, by rw [Nat.add_assoc]; exact h2⟩
  refine ⟨M + (gs.length + 2 * body.length + 2) * L + gs.length + 1, fun fuel hf => ?_⟩
  obtain ⟨s1, k1, k2, k3, k4⟩ := startLoop_prompt w L hw sb (now / 1000) timeout (4294967296 * (now / 4294967296000)) M taken
    now hQ (by omega) (by omega) gs hgs hone hwait mem (by rintro rfl; simp at hsz; omega) fuel 0
    (by omega) (tickT w (begin mem now ops taken)).2 rfl ⟨rfl, rfl⟩ (by simp only [tickT, begin]; omega)
    (by simp only [tickT, begin]; omega) (by omega)
  simp only [tickT, begin] at k2
  obtain ⟨s', j1, j2, j3⟩ := restLoop_prompt w L hw size e sb (4294967296 * (now / 4294967296000)) (now / 1000 + timeout)
    M (M + (gs.length + 2) * L) hm3 body hlast hfirst hQ (by omega) (by omega) (by omega) mem hline hsz (taken + gs.length)
    hrest fuel [] s1 k4 (by simp) (by omega) (by simp; omega) (by omega)
  refine ⟨s', ?_, ?_, ?_, by omega⟩
  · unfold receiveBetweenT
    rw [if_neg (by omega)]
    simp only [show (tickT w (begin mem now ops taken)).1 = BitVec.ofNat 32 (now / 1000) from rfl]
    rw [← BitVec.ofNat_add, k1]
    simp only [Res.bind_ok, if_true]
    exact j1
  · rw [j2.mem]; simp
  · rw [j2.taken]; simp

/-! ## The end of the counter -/

/-- **C114** is false near the end of the 32-bit counter: `ReceiveUntil` returns nothing, at once and without reading,
whatever has arrived. -/
theorem until_wrap (w : Wire) (L : Nat) (hw : w.Ok L) (size : Nat) (hs : 0 < size) (e : Byte) (timeout : Nat)
    (ht : timeout ≠ 0) (ht16 : timeout < 65536) (mem : List Byte) (now ops taken : Nat)
    (hend : 4294967296 ≤ now / 1000 % 4294967296 + timeout) (hnot : NoWrap now L) (fuel : Nat) :
    ∃ s, receiveUntilT w (fuel + 1) (begin mem now ops taken) size e timeout = .ok (0, s) ∧ s.mem = mem ∧
      s.taken = taken ∧ s.now ≤ now + 2 * L := by
  unfold NoWrap at hnot
  have l2 := hw.lag_le ops
  have l4 := hw.lag_le (ops + 1)
  refine ⟨(tickT w (tickT w (begin mem now ops taken)).2).2, ?_, rfl, rfl, by simp only [tickT, begin]; omega⟩
  unfold receiveUntilT untilLoopT
  simp only [tickT, begin, if_pos hs, ht, if_false, false_or]
  rw [if_neg]
  rw [BitVec.lt_def]
  simp only [BitVec.toNat_ofNat, BitVec.toNat_add]
  omega

/-- A silent wire, and a machine whose first three operations take 600 microseconds each. -/
def silent : Wire := ⟨fun _ => none, fun k => if k < 3 then 600 else 10, fun _ d => 1000 * d⟩

theorem silent_ok : silent.Ok 600 := by
  refine ⟨fun k => ?_, fun k => ?_, fun _ _ => Nat.le_refl _, fun k t b t' b' h => by cases h⟩ <;>
    simp only [silent] <;> split <;> omega

/-- **C114** is false near the end of the 32-bit counter in the other direction, too: if the counter starts anew between
the last read and the next look at the clock, `ReceiveUntil` waits for 49 days instead of 2 milliseconds. -/
theorem until_wrap_waits :
    receiveUntilT silent 4 (begin [0] 4294967293000 0 0) 1 0x0A 2 = .ok (0, ⟨[0], 8589934591830, 6, 0,
      [0xFFFFFFFD, 0xFFFFFFFD, 0, 0xFFFFFFFF], [(2, none), (0xFFFFFFFF, none)]⟩) ∧
    4294967293000 + 49 * 24 * 3600 * 1000000 ≤ 8589934591830 := by
  decide +kernel

end Verif.Uart.Timed
