import Verif.Uart.TimedBetween
/-!
# C114: how long a reception takes – Arduino, and a comparison of the two ports
-/
namespace Verif.Uart.Timed
open Verif

/-! ## `Receive` -/

theorem receiveLoopT_succ (w : Wire) (size : Nat) (maxTime : BitVec 32) (fuel pos : Nat) (s : TSt) :
    receiveLoopT w size maxTime (fuel + 1) pos s =
      if BitVec.ofNat 32 (s.now / 1000) < maxTime ∧ pos < size then do
        let (got, s) ← readByteT w ⟨s.mem, s.now + w.lag s.ops, s.ops + 1, s.taken,
          s.clocks ++ [BitVec.ofNat 32 (s.now / 1000)], s.log⟩ pos 0
        if got then receiveLoopT w size maxTime fuel (pos + 1) s
        else receiveLoopT w size maxTime fuel pos (delayT w s)
      else .ok (pos, ⟨s.mem, s.now + w.lag s.ops, s.ops + 1, s.taken, s.clocks ++ [BitVec.ofNat 32 (s.now / 1000)],
        s.log⟩) := rfl

theorem receiveLoop_timed (w : Wire) (L : Nat) (hw : w.Ok L) (size : Nat)
    (Q D : Nat) (hQ : Q % 4294967296 = 0) (hQD : Q ≤ D) (hD : 1000 * D + 1000 + 3 * L < 1000 * (Q + 4294967296))
    (mem0 : List Byte) (hsz : size ≤ mem0.length) (k0 fuel : Nat) (cur : List Byte) (s : TSt)
    (hst : Stored w mem0 k0 cur s) (hcur : cur.length ≤ size)
    (hlo : 1000 * Q ≤ s.now) (hhi : s.now ≤ 1000 * D + 1000 + 3 * L) (hf : 1000 * D + 1000 + 3 * L < s.now + fuel) :
    ∃ ps s', receiveLoopT w size (BitVec.ofNat 32 D) fuel cur.length s = .ok (ps.length, s') ∧
      Stored w mem0 k0 ps s' ∧ s'.now ≤ 1000 * D + 1000 + 4 * L ∧ ps.length ≤ size ∧
      (ps.length = size ∨ 1000 * D ≤ s'.now) := by
  induction fuel generalizing cur s with
  | zero => omega
  | succ fuel ih =>
    rw [receiveLoopT_succ]
    have l1 := hw.lag_pos s.ops
    have l2 := hw.lag_le s.ops
    have hcl := clock_lt (a := s.now / 1000) (D := D) hQ (by omega) (by omega) hQD (by omega)
    by_cases hc : s.now / 1000 < D ∧ cur.length < size
    · rw [if_pos ⟨hcl.mpr hc.1, hc.2⟩]
      have hlen := hst.length (by omega)
      rcases readByteT_cases w ⟨s.mem, s.now + w.lag s.ops, s.ops + 1, s.taken,
          s.clocks ++ [BitVec.ofNat 32 (s.now / 1000)], s.log⟩ cur.length 0 (by simp only; omega) with
        ⟨t, b, h1, h2, h3⟩ | ⟨h1, h3⟩
      · rw [h3]
        simp only at h1 h2
        have l3 := hw.lag_pos (s.ops + 1)
        have l4 := hw.lag_le (s.ops + 1)
        have l5 := hw.wait_le (s.ops + 1) ((0 : BitVec 32).toNat)
        rw [show (0 : BitVec 32).toNat = 0 from rfl] at l5 h2
        simp only [Res.bind_ok, if_true]
        have hst' := hst.step (s' := ⟨s.mem.set cur.length b, max (s.now + w.lag s.ops) t + w.lag (s.ops + 1),
          s.ops + 1 + 1, s.taken + 1, s.clocks ++ [BitVec.ofNat 32 (s.now / 1000)], s.log ++ [(0, some b)]⟩) (by omega) h1
          (by simp only; omega) (by simp only; omega) rfl rfl
        obtain ⟨ps, s', k1, k2⟩ := ih (cur ++ [b]) _ hst' (by simp; omega) (by simp only; omega) (by simp only; omega)
          (by simp only; omega)
        refine ⟨ps, s', ?_, k2⟩
        rw [← k1]
        simp
      · rw [h3]
        have l3 := hw.lag_pos (s.ops + 1)
        have l4 := hw.lag_le (s.ops + 1)
        have l5 := hw.wait_le (s.ops + 1) ((0 : BitVec 32).toNat)
        have l6 := hw.wait_le (s.ops + 1 + 1) 1
        have l7 := hw.lag_le (s.ops + 1 + 1)
        rw [show (0 : BitVec 32).toNat = 0 from rfl] at l5
        simp only [Res.bind_ok, Bool.false_eq_true, if_false]
        refine ih cur _ (hst.later rfl rfl ?_) hcur ?_ ?_ ?_ <;>
          simp only [delayT, show (0 : BitVec 32).toNat = 0 from rfl] <;> omega
    · rw [if_neg (fun h => hc ⟨hcl.mp h.1, h.2⟩)]
      refine ⟨cur, _, rfl, hst.later rfl rfl (by simp only; omega), by simp only; omega, hcur, ?_⟩
      simp only
      omega

/-- **C114**, Arduino `Receive`: the call ends within its time-out, up to one delay of a millisecond and the time taken by
four operations; it returns the next bytes on the wire, and gives up no sooner than it is told. -/
theorem receive_in_time (w : Wire) (L : Nat) (hw : w.Ok L) (size timeout : Nat) (mem : List Byte)
    (hsz : size ≤ mem.length) (now ops taken : Nat) (hwrap : NoWrap now (1000 * timeout + 1000 + 3 * L)) :
    ∃ enough, ∀ fuel, enough ≤ fuel →
      ∃ ps s, receiveT w fuel (begin mem now ops taken) size timeout = .ok (ps.length, s) ∧
        s.mem = ps ++ mem.drop ps.length ∧ s.taken = taken + ps.length ∧ Got w taken ps s.now ∧ ps.length ≤ size ∧
        s.now ≤ now + 1000 * timeout + 1000 + 4 * L ∧
        (ps.length = size ∨ 1000 * (now / 1000 + timeout) ≤ s.now) := by
  unfold NoWrap at hwrap
  refine ⟨1000 * (now / 1000 + timeout) + 1000 + 3 * L + 1, fun fuel hf => ?_⟩
  have l1 := hw.lag_pos ops
  have l2 := hw.lag_le ops
  obtain ⟨ps, s, k1, k2, k3, k4, k5⟩ := receiveLoop_timed w L hw size
    (4294967296 * (now / 4294967296000)) (now / 1000 + timeout) (by omega) (by omega) (by omega) mem hsz taken fuel
    [] (tickT w (begin mem now ops taken)).2
    ⟨by simp [tickT, begin], by simp [tickT, begin], Got.nil _ _ _⟩ (by simp)
    (by simp only [tickT, begin]; omega) (by simp only [tickT, begin]; omega) (by simp only [tickT, begin]; omega)
  refine ⟨ps, s, ?_, k2.mem, k2.taken, k2.got, k4, by omega, k5⟩
  unfold receiveT
  simp only [show (tickT w (begin mem now ops taken)).1 = BitVec.ofNat 32 (now / 1000) from rfl]
  rw [← k1, BitVec.ofNat_add]
  rfl

theorem receiveLoop_prompt (w : Wire) (L : Nat) (hw : w.Ok L) (Q D M : Nat) (line : List Byte)
    (hQ : Q % 4294967296 = 0) (hQD : Q ≤ D) (hDQ : 1000 * D < 1000 * (Q + 4294967296))
    (htime : M + 1000 + 2 * line.length * L < 1000 * D)
    (mem0 : List Byte) (hsz : line.length ≤ mem0.length) (k0 : Nat) (hgot : Got w k0 line M)
    (fuel : Nat) (cur : List Byte) (s : TSt) (hst : Stored w mem0 k0 cur s)
    (hcur : cur <+: line) (hlo : 1000 * Q ≤ s.now) (hhi : s.now ≤ M + 1000 + (2 * cur.length + 2) * L)
    (hf : M + 1000 + (2 * line.length + 2) * L < s.now + fuel) :
    ∃ s', receiveLoopT w line.length (BitVec.ofNat 32 D) fuel cur.length s = .ok (line.length, s') ∧
      Stored w mem0 k0 line s' ∧ s'.now ≤ M + 1000 + (2 * line.length + 3) * L := by
  have hml : (2 * line.length + 3) * L = (2 * line.length + 2) * L + L := by
    rw [show 2 * line.length + 3 = 2 * line.length + 2 + 1 by omega, Nat.add_mul _ 1, Nat.one_mul]
  induction fuel generalizing cur s with
  | zero =>
    have hc := hcur.length_le
    have : (2 * cur.length + 2) * L ≤ (2 * line.length + 2) * L := Nat.mul_le_mul_right _ (by omega)
    omega
  | succ fuel ih =>
    have hc := hcur.length_le
    have hm0 : (2 * cur.length + 2) * L ≤ (2 * line.length + 2) * L := Nat.mul_le_mul_right _ (by omega)
    have l1 := hw.lag_pos s.ops
    have l2 := hw.lag_le s.ops
    rw [receiveLoopT_succ]
    by_cases hend : cur.length = line.length
    · rw [if_neg (fun h => by omega)]
      have hall : cur = line := hcur.eq_of_length hend
      refine ⟨_, by rw [hend], ?_, ?_⟩
      · rw [← hall]
        exact hst.later rfl rfl (by simp only; omega)
      · simp only
        omega
    · have hcl : cur.length < line.length := by omega
      have hm1 : (2 * cur.length + 2) * L ≤ 2 * line.length * L := Nat.mul_le_mul_right _ (by omega)
      have hm2 : (2 * (cur.length + 1) + 2) * L = (2 * cur.length + 2) * L + L + L := by
        rw [show 2 * (cur.length + 1) + 2 = 2 * cur.length + 2 + 1 + 1 by omega, Nat.add_mul _ 1, Nat.one_mul,
          Nat.add_mul _ 1, Nat.one_mul]
      have hm3 : L + L ≤ (2 * cur.length + 2) * L := by
        have := Nat.mul_le_mul_right L (show 2 ≤ 2 * cur.length + 2 by omega)
        omega
      rw [if_pos ⟨(clock_lt (a := s.now / 1000) (D := D) hQ (by omega) (by omega) hQD (by omega)).mpr (by omega), hcl⟩]
      have hlen := hst.length (by omega)
      obtain ⟨t, htM, harr⟩ := hgot cur.length line[cur.length] (List.getElem?_eq_getElem hcl)
      have l3 := hw.lag_pos (s.ops + 1)
      have l4 := hw.lag_le (s.ops + 1)
      have l5 := hw.wait_le (s.ops + 1) ((0 : BitVec 32).toNat)
      have l6 := hw.wait_le (s.ops + 1 + 1) 1
      have l7 := hw.lag_le (s.ops + 1 + 1)
      have l8 := hw.lag_pos (s.ops + 1 + 1)
      rw [show (0 : BitVec 32).toNat = 0 from rfl] at l5
      rcases readByteT_cases w ⟨s.mem, s.now + w.lag s.ops, s.ops + 1, s.taken,
          s.clocks ++ [BitVec.ofNat 32 (s.now / 1000)], s.log⟩ cur.length 0 (by simp only; omega) with
        ⟨t', b, h1, h2, h3⟩ | ⟨h1, h3⟩
      · simp only at h1
        rw [hst.taken, harr] at h1
        obtain ⟨rfl, rfl⟩ : t = t' ∧ line[cur.length] = b := by cases h1; exact ⟨rfl, rfl⟩
        rw [h3]
        simp only [Res.bind_ok, if_true]
        have hst' := hst.step (s' := ⟨s.mem.set cur.length line[cur.length],
          max (s.now + w.lag s.ops) t + w.lag (s.ops + 1),
          s.ops + 1 + 1, s.taken + 1, s.clocks ++ [BitVec.ofNat 32 (s.now / 1000)],
          s.log ++ [(0, some line[cur.length])]⟩) (by omega)
          (by rw [hst.taken]; exact harr) (by simp only; omega) (by simp only; omega) rfl rfl
        have hnext : cur ++ [line[cur.length]] = line.take (cur.length + 1) := by
          rw [List.take_succ_eq_append_getElem hcl, ← List.prefix_iff_eq_take.mp hcur]
        obtain ⟨s', k1, k2⟩ := ih (cur ++ [line[cur.length]]) _ hst' (by rw [hnext]; exact List.take_prefix _ _)
          (by simp only; omega) (by rw [List.length_append, List.length_singleton, hm2]; simp only; omega)
          (by simp only; omega)
        refine ⟨s', ?_, k2⟩
        rw [← k1]
        simp
      · have h4 := h1 t line[cur.length] (by simp only; rw [hst.taken]; exact harr)
        rw [h3]
        simp only at h4
        simp only [Res.bind_ok, Bool.false_eq_true, if_false]
        rw [show (0 : BitVec 32).toNat = 0 from rfl] at h4
        refine ih cur _ (hst.later rfl rfl ?_) hcur ?_ ?_ ?_ <;>
          simp only [delayT, show (0 : BitVec 32).toNat = 0 from rfl] <;> omega

/-- **C114**, Arduino `Receive`: if as many bytes as asked for have arrived at `M` and there is still time, they are
returned as soon as they are there, up to a delay of a millisecond and the time taken by two operations for each byte. -/
theorem receive_prompt (w : Wire) (L : Nat) (hw : w.Ok L) (timeout : Nat) (line mem : List Byte)
    (hsz : line.length ≤ mem.length) (now ops taken M : Nat) (hM : now ≤ M) (hgot : Got w taken line M)
    (htime : M + 1000 + 2 * line.length * L < 1000 * (now / 1000 + timeout))
    (hwrap : NoWrap now (1000 * timeout)) :
    ∃ enough, ∀ fuel, enough ≤ fuel →
      ∃ s, receiveT w fuel (begin mem now ops taken) line.length timeout = .ok (line.length, s) ∧
        s.mem = line ++ mem.drop line.length ∧ s.taken = taken + line.length ∧
        s.now ≤ M + 1000 + (2 * line.length + 3) * L := by
  unfold NoWrap at hwrap
  have hm : (2 * line.length + 2) * L = 2 * line.length * L + 2 * L := by rw [Nat.add_mul]
  refine ⟨M + 1000 + (2 * line.length + 2) * L + 1, fun fuel hf => ?_⟩
  have l1 := hw.lag_pos ops
  have l2 := hw.lag_le ops
  obtain ⟨s, k1, k2, k3⟩ := receiveLoop_prompt w L hw (4294967296 * (now / 4294967296000))
    (now / 1000 + timeout) M line (by omega) (by omega) (by omega) htime
    mem hsz taken hgot fuel [] (tickT w (begin mem now ops taken)).2
    ⟨by simp [tickT, begin], by simp [tickT, begin], Got.nil _ _ _⟩ (by simp)
    (by simp only [tickT, begin]; omega) (by simp only [tickT, begin, List.length_nil]; omega)
    (by simp only [tickT, begin]; omega)
  refine ⟨s, ?_, k2.mem, k2.taken, k3⟩
  unfold receiveT
  simp only [show (tickT w (begin mem now ops taken)).1 = BitVec.ofNat 32 (now / 1000) from rfl]
  rw [← k1, BitVec.ofNat_add]
  rfl

/-! ## `ReceiveUntil` and `ReceiveBetween` -/

/-- `readBytesUntil` waits up to the time-out for every single byte. -/
theorem readUntil_timed (w : Wire) (L : Nat) (hw : w.Ok L) (d : Nat) (e : Byte) (base n i : Nat) (s : TSt)
    (h : base + i + n ≤ s.mem.length) :
    ∃ m s', readUntilT w d e base n i s = .ok (m, s') ∧ s'.mem.length = s.mem.length ∧ i ≤ m ∧ m ≤ i + n ∧
      s.now ≤ s'.now ∧ s'.now ≤ s.now + n * (1000 * d + L) := by
  induction n generalizing i s with
  | zero => exact ⟨i, s, rfl, rfl, by omega, by omega, by omega, by omega⟩
  | succ n ih =>
    unfold readUntilT
    have l1 := hw.lag_pos s.ops
    have l2 := hw.lag_le s.ops
    have l3 := hw.wait_le s.ops d
    have hmul : (n + 1) * (1000 * d + L) = n * (1000 * d + L) + (1000 * d + L) := by rw [Nat.add_mul, Nat.one_mul]
    rcases nextT_cases w s d 0 with ⟨t, b, h1, h2, h3⟩ | ⟨h1, h3⟩
    · rw [h3]
      simp only
      by_cases hb : b = e
      · rw [if_pos hb]
        exact ⟨i, _, rfl, rfl, by omega, by omega, by simp only; omega, by simp only; omega⟩
      · rw [if_neg hb, if_pos (by omega)]
        obtain ⟨m, s', k1, k2, k3, k4, k5, k6⟩ := ih (i + 1)
          ⟨s.mem.set (base + i) b, max s.now t + w.lag s.ops, s.ops + 1, s.taken + 1, s.clocks, s.log ++ [(0, some b)]⟩
          (by simp only [List.length_set]; omega)
        simp only [List.length_set] at k2 k5 k6
        exact ⟨m, s', k1, k2, by omega, by omega, by omega, by omega⟩
    · rw [h3]
      exact ⟨i, _, rfl, rfl, by omega, by omega, by simp only; omega, by simp only; omega⟩

theorem inForce_eq (old timeout : Nat) : inForce old timeout = if timeout = 0 then old else timeout := by
  unfold inForce
  split <;> split <;> omega

theorem store_one (mem : List Byte) (pos : Nat) (b : Byte) (h : pos < mem.length) :
    ∃ m, Arduino.store mem pos [b] = .ok m ∧ m.length = mem.length := by
  refine ⟨mem.take pos ++ [b] ++ mem.drop (pos + 1), ?_, ?_⟩
  · unfold Arduino.store
    rw [if_neg (by simp), if_pos (by simp; omega)]
    simp
  · simp
    omega

/-- **C114**, Arduino `ReceiveUntil`, the part which holds: the call ends within its time-out (or, if that is 0, the
device's own one) for every byte the buffer has room for, besides the terminator. -/
theorem untilA_in_time_partial (w : Wire) (L : Nat) (hw : w.Ok L) (old size : Nat) (hs1 : 1 ≤ size) (hs2 : size < 65536)
    (e : Byte) (timeout : Nat) (mem : List Byte) (hsz : size ≤ mem.length) (now ops taken : Nat) :
    ∃ n s, receiveUntilAT w old (begin mem now ops taken) size e timeout = .ok (n, s) ∧ 1 ≤ n ∧ n ≤ size ∧
      s.now ≤ now + (size - 1) * (1000 * (if timeout = 0 then old else timeout) + L) := by
  rw [← inForce_eq]
  have hts : Arduino.toSize ((size : Int) - 1) = size - 1 := by unfold Arduino.toSize; omega
  obtain ⟨m, s, k1, k2, k3, k4, k5, k6⟩ := readUntil_timed w L hw (inForce old timeout) e 0 (size - 1) 0
    (begin mem now ops taken) (by simp only [begin]; omega)
  simp only [begin] at k2
  obtain ⟨mm, h1, h2⟩ := store_one s.mem (m % 65536) e (by omega)
  refine ⟨(m % 65536 + 1) % 65536, { s with mem := mm }, ?_, by omega, by omega, by simpa [begin] using k6⟩
  unfold receiveUntilAT
  rw [hts, k1]
  simp only [Res.bind_ok, h1]

theorem readUntil_prompt (w : Wire) (L : Nat) (hw : w.Ok L) (d : Nat) (e : Byte) (M now0 : Nat) (line : List Byte)
    (hlast : line.getLast? = some e) (hfirst : e ∉ line.dropLast) (hwait : ∀ k, M ≤ now0 + w.wait k d)
    (mem0 : List Byte) (hsz : line.length ≤ mem0.length) (k0 : Nat) (hgot : Got w k0 line M)
    (n : Nat) (cur : List Byte) (hn : line.length ≤ cur.length + n) (s : TSt) (hst : Stored w mem0 k0 cur s)
    (hcur : cur <+: line.dropLast) (hn0 : now0 ≤ s.now) (hhi : s.now ≤ M + cur.length * L) :
    ∃ s', readUntilT w d e 0 n cur.length s = .ok (line.length - 1, s') ∧
      s'.mem = line.dropLast ++ mem0.drop (line.length - 1) ∧ s'.taken = k0 + line.length ∧
      s'.now ≤ M + line.length * L := by
  have hne : line ≠ [] := by rintro rfl; simp at hlast
  have hlen0 : 0 < line.length := List.length_pos_iff.mpr hne
  induction n generalizing cur s with
  | zero =>
    have hc := hcur.length_le
    rw [List.length_dropLast] at hc
    omega
  | succ n ih =>
    have hc := hcur.length_le
    rw [List.length_dropLast] at hc
    have hcl : cur.length < line.length := by omega
    have l1 := hw.lag_pos s.ops
    have l2 := hw.lag_le s.ops
    have hmul1 : (cur.length + 1) * L = cur.length * L + L := by rw [Nat.add_mul, Nat.one_mul]
    have hmul2 : (cur.length + 1) * L ≤ line.length * L := Nat.mul_le_mul_right _ (by omega)
    obtain ⟨t, htM, harr⟩ := hgot cur.length line[cur.length] (List.getElem?_eq_getElem hcl)
    have hw' := hwait s.ops
    unfold readUntilT
    rcases nextT_cases w s d 0 with ⟨t', b, h1, h2, h3⟩ | ⟨h1, h3⟩
    · rw [hst.taken, harr] at h1
      obtain ⟨rfl, rfl⟩ : t = t' ∧ line[cur.length] = b := by cases h1; exact ⟨rfl, rfl⟩
      rw [h3]
      simp only
      by_cases hb : line[cur.length] = e
      · rw [if_pos hb]
        have hend : cur.length + 1 = line.length := by
          by_contra hne2
          refine hfirst ?_
          rw [← hb]
          have h6 : cur.length < line.dropLast.length := by rw [List.length_dropLast]; omega
          rw [← List.getElem_dropLast h6]
          exact List.getElem_mem h6
        have hall : cur = line.dropLast := hcur.eq_of_length (by rw [List.length_dropLast]; omega)
        have hl1 : line.length - 1 = cur.length := by omega
        refine ⟨_, by rw [hl1], ?_, ?_, ?_⟩
        · simp only
          rw [hst.mem, hl1, ← hall]
        · simp only
          rw [hst.taken]
          omega
        · simp only
          omega
      · rw [if_neg hb]
        have hlen := hst.length (by omega)
        rw [if_pos (by omega)]
        have hnl : cur.length + 1 < line.length := by
          by_contra hge
          refine hb ?_
          have h7 : cur.length = line.length - 1 := by omega
          have h8 : line.getLast? = some line[cur.length] := by
            rw [List.getLast?_eq_getElem?, ← h7, List.getElem?_eq_getElem hcl]
          rw [hlast] at h8
          exact (Option.some.inj h8).symm
        have hst' := hst.step (s' := ⟨s.mem.set (0 + cur.length) line[cur.length], max s.now t + w.lag s.ops, s.ops + 1,
          s.taken + 1, s.clocks, s.log ++ [(0, some line[cur.length])]⟩) (by omega)
          (by rw [hst.taken]; exact harr) (by simp only; omega) (by simp only; omega) (by simp only [Nat.zero_add]) rfl
        have hpre : cur ++ [line[cur.length]] <+: line.dropLast := by
          have h4 : cur = line.take cur.length := by
            have h5 := (List.prefix_iff_eq_take.mp hcur)
            rw [List.dropLast_eq_take, List.take_take, Nat.min_eq_left (by omega)] at h5
            exact h5
          have hnext : cur ++ [line[cur.length]] = line.take (cur.length + 1) := by
            rw [List.take_succ_eq_append_getElem hcl, ← h4]
          rw [hnext, List.dropLast_eq_take]
          exact List.prefix_iff_eq_take.mpr (by rw [List.take_take, List.length_take]; congr 1; omega)
        obtain ⟨s', k1, k2⟩ := ih (cur ++ [line[cur.length]]) (by simp; omega) _ hst' hpre (by simp only; omega)
          (by rw [List.length_append, List.length_singleton, hmul1]; simp only; omega)
        refine ⟨s', ?_, k2⟩
        rw [← k1]
        simp
    · have h4 := h1 t line[cur.length] (by rw [hst.taken]; exact harr)
      omega

/-- **C114**, Arduino `ReceiveUntil`: if a terminated line, for which the buffer has room and one byte more, has arrived at
`M` and every read waits until then, exactly this line is returned, as soon as it is there up to the time taken by one
operation for each byte. -/
theorem untilA_prompt (w : Wire) (L : Nat) (hw : w.Ok L) (old size : Nat) (hs2 : size < 65536) (e : Byte) (timeout : Nat)
    (line : List Byte) (hlast : line.getLast? = some e) (hfirst : e ∉ line.dropLast) (hline : line.length + 1 ≤ size)
    (mem : List Byte) (hsz : size ≤ mem.length) (now ops taken M : Nat) (hM : now ≤ M) (hgot : Got w taken line M)
    (hwait : ∀ k, M ≤ now + w.wait k (if timeout = 0 then old else timeout)) :
    ∃ s, receiveUntilAT w old (begin mem now ops taken) size e timeout = .ok (line.length, s) ∧
      s.mem = line ++ mem.drop line.length ∧ s.taken = taken + line.length ∧ s.now ≤ M + line.length * L := by
  rw [← inForce_eq] at hwait
  have hne : line ≠ [] := by rintro rfl; simp at hlast
  have hlen0 : 0 < line.length := List.length_pos_iff.mpr hne
  have hts : Arduino.toSize ((size : Int) - 1) = size - 1 := by unfold Arduino.toSize; omega
  obtain ⟨s, k1, k2, k3, k4⟩ := readUntil_prompt w L hw (inForce old timeout) e M now line hlast hfirst hwait mem (by omega)
    taken hgot (size - 1) [] (by simp; omega) (begin mem now ops taken)
    ⟨by simp [begin], by simp [begin], Got.nil _ _ _⟩ (by simp) (Nat.le_refl _) (by simp only [begin, List.length_nil]; omega)
  have hdl : line.dropLast ++ [e] = line := by
    rw [List.getLast?_eq_some_getLast hne] at hlast
    have := List.dropLast_concat_getLast hne
    rwa [Option.some.inj hlast] at this
  have hmod : (line.length - 1) % 65536 = line.length - 1 := by omega
  have hstore : Arduino.store s.mem (line.length - 1) [e] = .ok (line ++ mem.drop line.length) := by
    unfold Arduino.store
    rw [if_neg (by simp), if_pos (by rw [k2]; simp; omega), k2]
    have hl : line.dropLast.length = line.length - 1 := by simp
    rw [List.take_left' hl, hdl, List.length_singleton, ← List.drop_drop, List.drop_left' hl, List.drop_drop,
      show line.length - 1 + 1 = line.length by omega]
  refine ⟨{ s with mem := line ++ mem.drop line.length }, ?_, rfl, k3, k4⟩
  unfold receiveUntilAT
  rw [hts, show readUntilT w (inForce old timeout) e 0 (size - 1) 0 = readUntilT w (inForce old timeout) e 0 (size - 1)
    ([] : List Byte).length from rfl, k1]
  simp only [Res.bind_ok, hmod, hstore]
  congr 2
  omega

theorem startAT_succ (w : Wire) (sb : Byte) (timeout : Nat) (ht : timeout ≠ 0) (maxTime : BitVec 32) (fuel : Nat) (s : TSt) :
    startAT w sb timeout maxTime (fuel + 1) s =
      if BitVec.ofNat 32 (s.now / 1000) < maxTime then
        if (nextT w (tickT w s).2 0 0).1 = some sb then .ok (true, (nextT w (tickT w s).2 0 0).2)
        else startAT w sb timeout maxTime fuel (nextT w (tickT w s).2 0 0).2
      else .ok (false, (tickT w s).2) := by
  rw [startAT]
  simp only [ht, if_false, decide_eq_true_eq]
  rfl

theorem startA_timed (w : Wire) (L : Nat) (hw : w.Ok L) (sb : Byte) (timeout : Nat) (ht : timeout ≠ 0)
    (Q D : Nat) (hQ : Q % 4294967296 = 0) (hQD : Q ≤ D) (hD : 1000 * D + 2 * L < 1000 * (Q + 4294967296))
    (fuel : Nat) (s : TSt) (hlo : 1000 * Q ≤ s.now) (hhi : s.now ≤ 1000 * D + 2 * L)
    (hf : 1000 * D + 2 * L < s.now + fuel) :
    ∃ f s', startAT w sb timeout (BitVec.ofNat 32 D) fuel s = .ok (f, s') ∧ s'.mem = s.mem ∧
      s'.now ≤ 1000 * D + 3 * L ∧ (f = true → s'.now ≤ 1000 * D + 2 * L) := by
  induction fuel generalizing s with
  | zero => omega
  | succ fuel ih =>
    rw [startAT_succ w sb timeout ht]
    have l1 := hw.lag_pos s.ops
    have l2 := hw.lag_le s.ops
    have l3 := hw.lag_pos (s.ops + 1)
    have l4 := hw.lag_le (s.ops + 1)
    have l5 := hw.wait_le (s.ops + 1) 0
    have hcl := clock_lt (a := s.now / 1000) (D := D) hQ (by omega) (by omega) hQD (by omega)
    by_cases hc : s.now / 1000 < D
    · rw [if_pos (hcl.mpr hc)]
      have hmem := (next_log w (tickT w s).2 0 0).2.1
      have hnow : s.now + 1 ≤ (nextT w (tickT w s).2 0 0).2.now ∧ (nextT w (tickT w s).2 0 0).2.now ≤ s.now + 2 * L := by
        rcases nextT_cases w (tickT w s).2 0 0 with ⟨t, b, h1, h2, h3⟩ | ⟨h1, h3⟩
        · rw [h3]
          simp only [tickT] at h2 ⊢
          omega
        · rw [h3]
          simp only [tickT]
          omega
      by_cases hb : (nextT w (tickT w s).2 0 0).1 = some sb
      · rw [if_pos hb]
        exact ⟨true, _, rfl, hmem, by omega, fun _ => by omega⟩
      · rw [if_neg hb]
        obtain ⟨f, s', k1, k2, k3⟩ := ih (nextT w (tickT w s).2 0 0).2 (by omega) (by omega) (by omega)
        exact ⟨f, s', k1, by rw [k2, hmem]; rfl, k3⟩
    · rw [if_neg (fun h => hc (hcl.mp h))]
      refine ⟨false, _, rfl, rfl, by simp only [tickT]; omega, by simp⟩

/-- **C114**, Arduino `ReceiveBetween`, the part which holds: the start byte is waited for within the time-out; then the
time-out holds for every byte the buffer has room for, besides the start byte and the terminator. -/
theorem betweenA_in_time_partial (w : Wire) (L : Nat) (hw : w.Ok L) (old size : Nat) (hs1 : 2 ≤ size) (hs2 : size < 65536)
    (sb e : Byte) (timeout : Nat) (ht : timeout ≠ 0) (mem : List Byte) (hsz : size ≤ mem.length) (now ops taken : Nat)
    (hwrap : NoWrap now (1000 * timeout + 2 * L)) :
    ∃ enough, ∀ fuel, enough ≤ fuel →
      ∃ n s, receiveBetweenAT w old fuel (begin mem now ops taken) size sb e timeout = .ok (n, s) ∧ n ≤ size ∧
        s.now ≤ now + 1000 * timeout + 3 * L + (size - 2) * (1000 * timeout + L) := by
  unfold NoWrap at hwrap
  refine ⟨now + 1000 * timeout + 2 * L + 1, fun fuel hf => ?_⟩
  have l1 := hw.lag_pos ops
  have l2 := hw.lag_le ops
  have hts : Arduino.toSize ((size : Int) - 1 - 1) = size - 2 := by unfold Arduino.toSize; omega
  obtain ⟨f, s1, k1, k2, k3, k4⟩ := startA_timed w L hw sb timeout ht (4294967296 * (now / 4294967296000))
    (now / 1000 + timeout) (by omega) (by omega) (by omega) fuel (tickT w (begin mem now ops taken)).2
    (by simp only [tickT, begin]; omega) (by simp only [tickT, begin]; omega) (by simp only [tickT, begin]; omega)
  have hmem : s1.mem = mem := by rw [k2]; rfl
  have hrun : ∀ r, ((startAT w sb timeout (BitVec.ofNat 32 (now / 1000 + timeout)) fuel (tickT w (begin mem now ops taken)).2 >>=
      fun p => if p.1 then do
          let m1 ← Arduino.store p.2.mem 0 [sb]
          let (n, s) ← readUntilT w (inForce old timeout) e 1 (Arduino.toSize ((size : Int) - 1 - 1)) 0 { p.2 with mem := m1 }
          let pos := (1 + n) % 65536
          let m3 ← Arduino.store s.mem pos [e]
          .ok ((pos + 1) % 65536, { s with mem := m3 })
        else .ok (0, p.2)) = r) →
      receiveBetweenAT w old fuel (begin mem now ops taken) size sb e timeout = r := by
    intro r h
    rw [← h]
    unfold receiveBetweenAT
    simp only [show (tickT w (begin mem now ops taken)).1 = BitVec.ofNat 32 (now / 1000) from rfl]
    rw [← BitVec.ofNat_add]
  cases f with
  | false =>
    refine ⟨0, s1, hrun _ ?_, by omega, by omega⟩
    rw [k1]
    simp
  | true =>
    have k5 := k4 rfl
    obtain ⟨m1, h1, h2⟩ := store_one s1.mem 0 sb (by rw [hmem]; omega)
    obtain ⟨m, s, j1, j2, j3, j4, j5, j6⟩ := readUntil_timed w L hw (inForce old timeout) e 1 (size - 2) 0
      { s1 with mem := m1 } (by simp only; rw [h2, hmem]; omega)
    simp only [h2, hmem] at j2
    have hif : inForce old timeout = timeout := by unfold inForce; rw [if_pos (by omega)]
    obtain ⟨mm, h3, h4⟩ := store_one s.mem ((1 + m) % 65536) e (by omega)
    simp only [hif] at j6
    refine ⟨((1 + m) % 65536 + 1) % 65536, { s with mem := mm }, hrun _ ?_, by omega, by simp only; omega⟩
    rw [k1]
    simp only [Res.bind_ok, if_true, h1, hts, j1, h3]

/-! ## The same wire on both ports -/

/-- Bytes coming one by one, one every `d` milliseconds. -/
def dripping (d : Nat) (b : Byte) : Wire := ⟨fun k => some ((k + 1) * (1000 * d), b), fun _ => 1, fun _ d => 1000 * d⟩

theorem dripping_ok (d : Nat) (b : Byte) : (dripping d b).Ok 1 := by
  refine ⟨fun _ => Nat.le_refl _, fun _ => Nat.le_refl _, fun _ _ => Nat.le_refl _, ?_⟩
  intro k t b t' b' h h'
  cases h
  cases h'
  exact Nat.mul_le_mul_right _ (by omega)

theorem readUntil_dripping (d : Nat) (hd : 1 ≤ d) (b e : Byte) (hb : b ≠ e) (n i : Nat) (s : TSt)
    (hm : i + n ≤ s.mem.length) (hk : s.taken = i) (hn : s.now ≤ i * (1000 * d) + 1) (hn0 : i * (1000 * d) ≤ s.now)
    (hn1 : i = 0 ∨ s.now = i * (1000 * d) + 1) :
    ∃ s', readUntilT (dripping d b) d e 0 n i s = .ok (i + n, s') ∧ s'.mem.length = s.mem.length ∧
      (n = 0 ∨ s'.now = (i + n) * (1000 * d) + 1) := by
  induction n generalizing i s with
  | zero => exact ⟨s, rfl, rfl, .inl rfl⟩
  | succ n ih =>
    have hmul : (i + 1) * (1000 * d) = i * (1000 * d) + 1000 * d := by rw [Nat.add_mul, Nat.one_mul]
    have hnx : nextT (dripping d b) s d 0 = (some b, ⟨s.mem, (i + 1) * (1000 * d) + 1, s.ops + 1, i + 1, s.clocks,
        s.log ++ [(0, some b)]⟩) := by
      unfold nextT
      simp only [dripping, hk]
      rw [if_pos (by omega), Nat.max_eq_right (by omega)]
    unfold readUntilT
    rw [hnx]
    simp only
    rw [if_neg hb, if_pos (by omega)]
    obtain ⟨s', k1, k2, k3⟩ := ih (i + 1) ⟨s.mem.set (0 + i) b, (i + 1) * (1000 * d) + 1, s.ops + 1, i + 1,
        s.clocks, s.log ++ [(0, some b)]⟩ (by simp only [List.length_set]; omega) rfl (by simp only; omega)
      (by simp only; omega) (.inr rfl)
    refine ⟨s', by rw [k1]; congr 2; omega, by rw [k2]; simp, .inr ?_⟩
    rcases k3 with h | h
    · subst h
      cases k1
      rfl
    · rw [h]
      congr 2
      omega

/-- **C114** is false for `ReceiveUntil` on Arduino: with a byte coming at the end of every time-out the call lasts as many
time-outs as the buffer has room for, besides the terminator – which is then stored although it has not come. -/
theorem untilA_slow (d : Nat) (hd : 1 ≤ d) (b e : Byte) (hb : b ≠ e) (old size : Nat) (hs1 : 2 ≤ size) (hs2 : size < 65536)
    (mem : List Byte) (hsz : size ≤ mem.length) :
    ∃ s, receiveUntilAT (dripping d b) old (begin mem 0 0 0) size e d = .ok (size % 65536, s) ∧
      s.now = (size - 1) * (1000 * d) + 1 := by
  have hts : Arduino.toSize ((size : Int) - 1) = size - 1 := by unfold Arduino.toSize; omega
  obtain ⟨s, k1, k2, k3⟩ := readUntil_dripping d hd b e hb (size - 1) 0 (begin mem 0 0 0) (by simp only [begin]; omega) rfl
    (by simp [begin]) (by simp [begin]) (.inl rfl)
  simp only [begin] at k2
  have hmod : (0 + (size - 1)) % 65536 = size - 1 := by omega
  obtain ⟨mm, h1, h2⟩ := store_one s.mem (size - 1) e (by omega)
  refine ⟨{ s with mem := mm }, ?_, ?_⟩
  · unfold receiveUntilAT
    rw [hts, show inForce old d = d by unfold inForce; rw [if_pos (by omega)], k1]
    simp only [Res.bind_ok, hmod, h1]
    congr 2
    omega
  · rcases k3 with h | h
    · omega
    · simp only
      rw [h, Nat.zero_add]

/-- The same call on ESP32 ends at its time-out. -/
theorem until_not_slow (d : Nat) (hd : 1 ≤ d) (hd16 : d < 65536) (b e : Byte) (size : Nat)
    (mem : List Byte) (hsz : size ≤ mem.length) :
    ∃ enough, ∀ fuel, enough ≤ fuel →
      ∃ n s, receiveUntilT (dripping d b) fuel (begin mem 0 0 0) size e d = .ok (n, s) ∧ s.now ≤ 1000 * d + 1002 := by
  obtain ⟨k, hk⟩ := until_in_time (dripping d b) 1 (dripping_ok d b) size e d (by omega) mem hsz 0 0 0
    (by unfold NoWrap; omega)
  refine ⟨k, fun fuel hf => ?_⟩
  obtain ⟨ps, s, h1, -, -, -, -, -, h2, -⟩ := hk fuel hf
  exact ⟨_, s, h1, by omega⟩

/-- On the same wire `ReceiveBetween` on ESP32 never ends. -/
theorem between_dripping (d : Nat) (hd16 : d < 65536) (b sb e : Byte) (hb : b ≠ sb) (size : Nat) (hs : 2 ≤ size)
    (mem : List Byte) (hsz : size ≤ mem.length) (fuel : Nat) :
    receiveBetweenT (dripping d b) fuel (begin mem 0 0 0) size sb e d = .hang := by
  refine between_endless (dripping d b) 1 (dripping_ok d b) size hs sb e d mem hsz 0 0 0 (by unfold NoWrap; omega) ?_ ?_ ?_ fuel
  · intro k _
    exact ⟨_, _, rfl, hb⟩
  · intro k t c h
    cases h
    simp only [dripping]
    omega
  · intro j k t c t' c' h h'
    cases h
    cases h'
    simp only [dripping]
    rw [Nat.add_mul (j + 1) 1, Nat.one_mul]
    exact Nat.le_refl _

/-! ## Examples -/

/-- The bytes `bs`, one every millisecond, on a machine with operations of 10 microseconds and ticks of 10 milliseconds. -/
def regular (bs : List Byte) : Wire :=
  ⟨fun k => bs[k]?.map (fun b => ((k + 1) * 1000, b)), fun _ => 10, fun _ d => d / 10 * 10 * 1000⟩

theorem regular_ok (bs : List Byte) : (regular bs).Ok 10 := by
  refine ⟨fun _ => by simp [regular], fun _ => Nat.le_refl _, fun _ d => ?_, ?_⟩
  · simp only [regular]
    omega
  · intro k t b t' b' h h'
    simp only [regular, Option.map_eq_some_iff, Prod.mk.injEq] at h h'
    obtain ⟨_, _, rfl, _⟩ := h
    obtain ⟨_, _, rfl, _⟩ := h'
    omega

theorem regular_got (bs : List Byte) : Got (regular bs) 0 bs (bs.length * 1000) := by
  intro i b hb
  have hi : i < bs.length := by
    by_contra hn
    rw [List.getElem?_eq_none (by omega)] at hb
    exact absurd hb (by simp)
  exact ⟨(i + 1) * 1000, Nat.mul_le_mul_right _ hi, by simp [regular, hb]⟩

/-- A line of three bytes on ESP32, with a time-out of 20 milliseconds: it is returned after 3 milliseconds. -/
example : ∃ enough, ∀ fuel, enough ≤ fuel →
    ∃ s, receiveUntilT (regular [0x61, 0x62, 0x0A, 0x63]) fuel (begin (List.replicate 8 0) 0 0 0) 8 0x0A 20 = .ok (3, s) ∧
      s.mem = [0x61, 0x62, 0x0A] ++ List.replicate 5 0 ∧ s.taken = 0 + 3 ∧ s.now ≤ 3000 + 70 :=
  until_prompt _ 10 (regular_ok _) 8 0x0A 20 [0x61, 0x62, 0x0A] rfl (by decide) (by decide) _ (by decide) 0 0 0 3000
    (by decide) (by
      intro i b hb
      match i, hb with
      | 0, hb => exact ⟨1000, by decide, by simpa [regular] using hb⟩
      | 1, hb => exact ⟨2000, by decide, by simpa [regular] using hb⟩
      | 2, hb => exact ⟨3000, by decide, by simpa [regular] using hb⟩)
    (.inr ⟨by decide, by unfold NoWrap; decide⟩)

/-- The same run, step by step: it ends after 3010 microseconds. -/
example : ∃ s, receiveUntilT (regular [0x61, 0x62, 0x0A, 0x63]) 8 (begin (List.replicate 8 0) 0 0 0) 8 0x0A 20 =
    .ok (3, s) ∧ s.now = 3010 := ⟨_, rfl, rfl⟩

/-- An unterminated line: the call gives up after 20 milliseconds, with what there is. -/
example : ∃ s, receiveUntilT ⟨fun k => [(1000, 0x61), (2000, 0x62)][k]?, fun _ => 10, fun _ d => 1000 * d⟩ 4
    (begin (List.replicate 8 0) 0 0 0) 8 0x0A 20 = .ok (2, s) ∧ s.now = 20040 := ⟨_, rfl, rfl⟩

/-- A packet after one byte which is skipped. -/
example : ∃ enough, ∀ fuel, enough ≤ fuel →
    ∃ s, receiveBetweenT (regular [0x78, 0x3A, 0x61, 0x0A]) fuel (begin (List.replicate 8 0) 0 0 0) 8 0x3A 0x0A 20 =
        .ok (3, s) ∧
      s.mem = [0x3A, 0x61, 0x0A] ++ List.replicate 5 0 ∧ s.taken = 0 + 1 + 3 ∧ s.now ≤ 4000 + 70 :=
  between_prompt _ 10 (regular_ok _) 8 0x3A 0x0A 20 [0x78] [0x61, 0x0A] (by decide) rfl (by decide) (by decide) _
    (by decide) 0 0 0 4000 (by decide) (regular_got [0x78, 0x3A, 0x61, 0x0A]) (fun _ => by simp [regular]) (by decide)
    (by unfold NoWrap; decide)

/-- With a time-out below the tick period nothing is ever waited for, and the packet is missed. -/
example : ∃ s, receiveBetweenT (regular [0x3A, 0x61, 0x0A]) 8 (begin (List.replicate 8 0) 0 0 0) 8 0x3A 0x0A 9 =
    .ok (0, s) ∧ s.now = 20 := ⟨_, rfl, rfl⟩

/-- A start byte after the time-out: the packet is cut off behind it. -/
example : ∃ s, receiveBetweenT ⟨fun k => [(9000, 0x78), (18000, 0x3A), (18000, 0x61), (18000, 0x0A)][k]?, fun _ => 10,
      fun _ d => 1000 * d⟩ 8 (begin (List.replicate 8 0) 0 0 0) 8 0x3A 0x0A 10 = .ok (1, s) ∧ s.now = 18020 := ⟨_, rfl, rfl⟩

/-- Three bytes on Arduino. -/
example : ∃ enough, ∀ fuel, enough ≤ fuel →
    ∃ s, receiveT (regular [0x61, 0x62, 0x0A]) fuel (begin (List.replicate 8 0) 0 0 0) 3 20 = .ok (3, s) ∧
      s.mem = [0x61, 0x62, 0x0A] ++ List.replicate 5 0 ∧ s.taken = 0 + 3 ∧ s.now ≤ 3000 + 1000 + 90 :=
  receive_prompt _ 10 (regular_ok _) 20 [0x61, 0x62, 0x0A] _ (by decide) 0 0 0 3000 (by decide)
    (regular_got [0x61, 0x62, 0x0A]) (by decide) (by unfold NoWrap; decide)

example : ∃ s, receiveUntilAT (regular [0x61, 0x62, 0x0A]) 1000 (begin (List.replicate 8 0) 0 0 0) 8 0x0A 20 = .ok (3, s) ∧
    s.mem = [0x61, 0x62, 0x0A] ++ List.replicate 5 0 ∧ s.taken = 0 + 3 ∧ s.now ≤ 3000 + 30 :=
  untilA_prompt _ 10 (regular_ok _) 1000 8 (by decide) 0x0A 20 [0x61, 0x62, 0x0A] rfl (by decide) (by decide) _ (by decide)
    0 0 0 3000 (by decide) (regular_got [0x61, 0x62, 0x0A]) (fun _ => by simp [regular])

end Verif.Uart.Timed
