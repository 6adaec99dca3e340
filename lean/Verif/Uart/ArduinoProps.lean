import Verif.Uart.Arduino
import Verif.Uart.EspProps
/-!
# C55: packet reception on Arduino
-/
namespace Verif.Uart.Arduino
open Verif Verif.Uart.Esp

theorem receiveLoop_ok (env : Env) (size : Nat) (maxTime : BitVec 32) (mem : List Byte) (hs : size ≤ mem.length)
    (fuel : Nat) {s : St} {cur : List Byte} (h : Inv env mem [] s cur) (hle : cur.length ≤ size) :
    receiveLoop env size maxTime fuel cur.length s ≠ .ub ∧
    ∀ n s', receiveLoop env size maxTime fuel cur.length s = .ok (n, s') →
      ∃ cur', Inv env mem [] s' cur' ∧ n = cur'.length ∧ n ≤ size ∧
        (n = size ∨ ∃ k, s'.clocks = k + 1 ∧ maxTime ≤ env.clock k) := by
  induction fuel generalizing s cur with
  | zero => exact ⟨by simp [receiveLoop], by simp [receiveLoop]⟩
  | succ fuel ih =>
    unfold receiveLoop
    simp only [tick]
    by_cases hc : env.clock s.clocks < maxTime ∧ cur.length < size
    · simp only [hc, and_self, if_true]
      have hinv : Inv env mem [] { s with clocks := s.clocks + 1 } cur := h.tick
      rcases read_step hinv (by omega) 0 with ⟨b, s1, k0, k1, k2, k3, k4, k5⟩ | ⟨s1, k0, k1, k2, k4, k5⟩
      · rw [k1]; simp only [Res.bind_ok, if_true]
        have := ih k2 (by simp; omega)
        rw [List.length_append, List.length_singleton] at this
        exact this
      · rw [k1]; simp only [Res.bind_ok, Bool.false_eq_true, if_false]
        exact ih k2 hle
    · simp only [hc, if_false]
      refine ⟨by simp, ?_⟩
      intro n s' heq
      simp only [Res.ok.injEq, Prod.mk.injEq] at heq
      obtain ⟨rfl, rfl⟩ := heq
      refine ⟨cur, h.tick, rfl, hle, ?_⟩
      by_cases hp : cur.length < size
      · refine .inr ⟨s.clocks, rfl, ?_⟩
        exact BitVec.not_lt.1 (fun hh => hc ⟨hh, hp⟩)
      · exact .inl (by omega)

/-- **C55** (`Receive`): whatever the clock and the device do, the buffer is never left, and on return it starts with
exactly the bytes read, in order, and nothing else is changed; it is full or the deadline has passed. -/
theorem receive_exact (env : Env) (fuel : Nat) (mem : List Byte) (size timeout : Nat) (hs : size ≤ mem.length) :
    receive env fuel mem size timeout ≠ .ub ∧
    ∀ n s, receive env fuel mem size timeout = .ok (n, s) →
      n = (received env s.log.length).length ∧ n ≤ size ∧ s.mem = received env s.log.length ++ mem.drop n ∧
      (n = size ∨ ∃ k, s.clocks = k + 1 ∧ env.clock 0 + BitVec.ofNat 32 timeout ≤ env.clock k) := by
  have hinv : Inv env mem [] (tick env ⟨mem, 0, []⟩).2 [] := ⟨by simp [tick], by simp [tick, received], by simp⟩
  have h := receiveLoop_ok env size (env.clock 0 + BitVec.ofNat 32 timeout) mem hs fuel hinv (by simp)
  refine ⟨h.1, ?_⟩
  intro n s heq
  obtain ⟨cur, k1, k2, k3, k4⟩ := h.2 n s heq
  have hc : received env s.log.length = cur := by rw [← k1.bytes]; rfl
  rw [hc]
  exact ⟨k2, k3, by rw [k1.mem_eq, k2], k4⟩

/-- `Receive` returns once a clock reading reaches the deadline. -/
theorem receive_terminates (env : Env) (mem : List Byte) (size timeout k : Nat) (hk1 : 1 ≤ k)
    (hk : env.clock 0 + BitVec.ofNat 32 timeout ≤ env.clock k) (fuel : Nat) (hf : k ≤ fuel) :
    receive env fuel mem size timeout ≠ .hang := by
  have key : ∀ fuel pos (s : St), s.clocks ≤ k → k < s.clocks + fuel →
      receiveLoop env size (env.clock 0 + BitVec.ofNat 32 timeout) fuel pos s ≠ .hang := by
    intro fuel
    induction fuel with
    | zero => intros; omega
    | succ fuel ih =>
      intro pos s h1 h2
      unfold receiveLoop
      simp only [tick]
      by_cases hc : env.clock s.clocks < env.clock 0 + BitVec.ofNat 32 timeout ∧ pos < size
      · simp only [hc, and_self, if_true]
        have hne : s.clocks ≠ k := by
          intro e
          rw [e] at hc
          exact absurd hc.1 (BitVec.not_lt.2 hk)
        unfold readByte
        cases env.rx s.log.length with
        | some b =>
          simp only
          split
          · simp only [Res.bind_ok, if_true]
            exact ih _ _ (by simp only; omega) (by simp only; omega)
          · simp
        | none =>
          simp only [Res.bind_ok, Bool.false_eq_true, if_false]
          exact ih _ _ (by simp only; omega) (by simp only; omega)
      · simp [hc]
  unfold receive
  simp only [tick]
  exact key _ _ _ (by simp only; omega) (by simp only; omega)

theorem toSize_nonneg (n : Nat) (h : n < 4294967296) : toSize (n : Int) = n := by
  unfold toSize
  omega

theorem store_ok (mem : List Byte) (pos : Nat) (bs : List Byte) (h : pos + bs.length ≤ mem.length) :
    store mem pos bs = .ok (mem.take pos ++ bs ++ mem.drop (pos + bs.length)) := by
  unfold store
  by_cases he : bs = []
  · rw [if_pos he, he]; simp
  · rw [if_neg he, if_pos h]

theorem untilBytes_spec (arriving : List Byte) (e : Byte) (len : Nat) :
    untilBytes arriving e len <+: arriving ∧ e ∉ untilBytes arriving e len ∧ (untilBytes arriving e len).length ≤ len ∧
      ((untilBytes arriving e len).length = len ∨ untilBytes arriving e len = arriving ∨
        untilBytes arriving e len ++ [e] <+: arriving) := by
  unfold untilBytes
  have hp : arriving.takeWhile (· ≠ e) <+: arriving := List.takeWhile_prefix _
  refine ⟨(List.take_prefix _ _).trans hp, ?_, by simp; omega, ?_⟩
  · intro hm
    have := List.all_eq_true.1 (List.all_takeWhile (p := (· ≠ e)) (l := arriving)) e ((List.take_sublist _ _).subset hm)
    simp at this
  · by_cases hl : len ≤ (arriving.takeWhile (· ≠ e)).length
    · left; simp only [List.length_take]; omega
    · right
      rw [List.take_of_length_le (by omega)]
      have hsplit := List.takeWhile_append_dropWhile (p := (· ≠ e)) (l := arriving)
      cases hd : arriving.dropWhile (· ≠ e) with
      | nil =>
        left
        rw [hd, List.append_nil] at hsplit
        exact hsplit
      | cons x xs =>
        right
        have hx : x = e := by
          have := List.head_dropWhile_not (p := (· ≠ e)) (l := arriving) (by rw [hd]; simp)
          simp only [hd, List.head_cons] at this
          simpa using this
        rw [hd, hx] at hsplit
        refine ⟨xs, ?_⟩
        rw [List.append_assoc]
        exact hsplit

/-- **C55** (`ReceiveUntil`, buffers of at least one byte): at most `bufferSize` bytes are written, the buffer starts
with bytes from the beginning of the stream, without the terminator, followed by one terminator; the count includes it;
the bytes end at the terminator, at a full buffer, or where the stream pauses; the device's time-out setting is as
before. -/
theorem receiveUntil_exact_partial (arriving : List Byte) (d : Dev) (size : Nat) (e : Byte) (timeout : Nat)
    (h1 : 1 ≤ size) (h2 : size < 65536) (hs : size ≤ d.mem.length) :
    ∃ bs d', receiveUntil arriving d size e timeout = .ok (bs.length + 1, d') ∧ bs.length + 1 ≤ size ∧
      bs <+: arriving ∧ e ∉ bs ∧
      (bs.length + 1 = size ∨ bs = arriving ∨ bs ++ [e] <+: arriving) ∧
      d'.mem = bs ++ [e] ++ d.mem.drop (bs.length + 1) ∧ d'.timeout = d.timeout ∧
      d'.used = some (if timeout = 0 then d.timeout else timeout) := by
  have hsz : toSize ((size : Int) - 1) = size - 1 := by unfold toSize; omega
  obtain ⟨k1, k2, k3, k4⟩ := untilBytes_spec arriving e (size - 1)
  generalize hbs : untilBytes arriving e (size - 1) = bs at *
  have hmem : (d.enter timeout).mem = d.mem := by unfold Dev.enter; split <;> rfl
  have hto : (d.enter timeout).timeout = if timeout = 0 then d.timeout else timeout := by
    unfold Dev.enter
    by_cases ht : timeout = 0
    · rw [if_neg (by omega), if_pos ht]
    · rw [if_pos (by omega), if_neg ht]
  have hst1 : store d.mem 0 bs = .ok (bs ++ d.mem.drop bs.length) := by
    rw [store_ok _ _ _ (by omega)]; simp
  have hst2 : store (bs ++ d.mem.drop bs.length) bs.length [e] = .ok (bs ++ [e] ++ d.mem.drop (bs.length + 1)) := by
    rw [store_ok _ _ _ (by simp; omega)]
    simp [List.drop_append]
  refine ⟨bs, ⟨d.timeout, some (d.enter timeout).timeout, bs ++ [e] ++ d.mem.drop (bs.length + 1)⟩, ?_, by omega, k1, k2,
    ?_, rfl, rfl, ?_⟩
  · unfold receiveUntil
    simp only [hsz, hbs, hmem, hst1, Res.bind_ok]
    rw [Nat.mod_eq_of_lt (by omega), hst2]
    simp only [Res.bind_ok]
    rw [Nat.mod_eq_of_lt (by omega)]
  · rcases k4 with k | k | k
    · exact .inl (by omega)
    · exact .inr (.inl k)
    · exact .inr (.inr k)
  · simp only [hto]

/-- With a buffer size of zero `ReceiveUntil` always writes outside the buffer. -/
theorem receiveUntil_zero_size_ub (arriving : List Byte) (e : Byte) (old timeout : Nat) :
    receiveUntil arriving ⟨old, none, []⟩ 0 e timeout = .ub := by
  have hmem : ((⟨old, none, []⟩ : Dev).enter timeout).mem = [] := by unfold Dev.enter; split <;> rfl
  unfold receiveUntil
  simp only [hmem]
  cases hb : untilBytes arriving e (toSize ((0 : Nat) - 1)) with
  | nil => simp [store]
  | cons b bs => simp [store]

/-- The terminator is appended although the stream paused before it: a time-out looks like a complete packet. -/
theorem receiveUntil_timeout_terminated (e b : Byte) (hb : b ≠ e) (old timeout : Nat) :
    ∃ d', receiveUntil [b] ⟨old, none, [0, 0, 0, 0]⟩ 4 e timeout = .ok (2, d') ∧ d'.mem = [b, e, 0, 0] := by
  obtain ⟨bs, d', k1, k2, k3, k4, k5, k6, k7, k8⟩ :=
    receiveUntil_exact_partial [b] ⟨old, none, [0, 0, 0, 0]⟩ 4 e timeout (by omega) (by omega) (by simp)
  have hbs : bs = [b] := by
    rcases k5 with k | k | ⟨t, k⟩
    · have := k3.length_le; simp at this; omega
    · exact k
    · have hl := congrArg List.length k
      simp at hl
      have : bs = [] := List.eq_nil_of_length_eq_zero (by omega)
      rw [this] at k
      simp at k
      exact absurd k.1.symm hb
  subst hbs
  exact ⟨d', k1, by rw [k6]; rfl⟩

/-- A packet which fills the buffer exactly leaves its terminator in the stream: the next call returns an empty packet
which was never sent. -/
theorem receiveUntil_full_splits (e : Byte) (p rest : List Byte) (hp : e ∉ p) (hlen : 1 ≤ p.length) (hl2 : p.length < 65535)
    (d : Dev) (hs : p.length + 1 ≤ d.mem.length) (timeout : Nat) :
    ∃ d1 d2, receiveUntil (p ++ e :: rest) d (p.length + 1) e timeout = .ok (p.length + 1, d1) ∧
      d1.mem = p ++ [e] ++ d.mem.drop (p.length + 1) ∧
      receiveUntil (untilRest (p ++ e :: rest) e p.length) d1 (p.length + 1) e timeout = .ok (1, d2) := by
  have htw : (p ++ e :: rest).takeWhile (· ≠ e) = p := by
    rw [List.takeWhile_append_of_pos (by intro x hx; simp; intro h; exact hp (h ▸ hx))]
    simp
  have hrest : untilRest (p ++ e :: rest) e p.length = e :: rest := by
    unfold untilRest
    rw [htw, if_neg (by omega), List.drop_left]
  obtain ⟨bs, d1, k1, k2, k3, k4, k5, k6, k7, k8⟩ :=
    receiveUntil_exact_partial (p ++ e :: rest) d (p.length + 1) e timeout (by omega) (by omega) hs
  have hbl : bs = p := by
    rcases k5 with k | k | k
    · have h1 := List.prefix_iff_eq_take.1 k3
      rw [h1, show bs.length = p.length by omega, List.take_left]
    · exfalso; apply k4; rw [k]; simp
    · have h1 := List.prefix_iff_eq_take.1 k3
      have hle : bs.length ≤ p.length := by omega
      rw [List.take_append_of_le_length hle] at h1
      obtain ⟨t, ht⟩ := k
      by_cases hlt : bs.length < p.length
      · exfalso
        have hg : (p ++ e :: rest)[bs.length]? = some e := by
          rw [← ht]
          simp
        rw [List.getElem?_append_left hlt] at hg
        exact hp (List.mem_of_getElem? hg)
      · rw [h1, List.take_of_length_le (by omega)]
  subst hbl
  have hlen1 : d1.mem.length = d.mem.length := by rw [k6]; simp; omega
  obtain ⟨bs2, d2, m1, m2, m3, m4, m5, m6, m7, m8⟩ :=
    receiveUntil_exact_partial (e :: rest) d1 (bs.length + 1) e timeout (by omega) (by omega) (by omega)
  have hb2 : bs2 = [] := by
    cases bs2 with
    | nil => rfl
    | cons x xs =>
      obtain ⟨t, ht⟩ := m3
      simp at ht
      exact absurd (by rw [ht.1]; simp) m4
  subst hb2
  exact ⟨d1, d2, k1, k6, by rw [hrest]; exact m1⟩

/-- The loop waiting for the start byte: on success the start byte was the last byte read and none of the bytes before
it was one. -/
theorem startLoop_spec (env : Env) (sb : Byte) (timeout : Nat) (maxTime : BitVec 32) (fuel clocks reads : Nat) :
    startLoop env sb timeout maxTime fuel clocks reads ≠ .ub ∧
    (∀ r, startLoop env sb timeout maxTime fuel clocks reads = .ok (true, r) →
      reads < r ∧ env.rx (r - 1) = some sb ∧ ∀ j, reads ≤ j → j + 1 < r → env.rx j ≠ some sb) ∧
    (∀ r, startLoop env sb timeout maxTime fuel clocks reads = .ok (false, r) →
      timeout ≠ 0 ∧ reads ≤ r ∧ maxTime ≤ env.clock (clocks + (r - reads)) ∧
        ∀ j, reads ≤ j → j < r → env.rx j ≠ some sb) := by
  induction fuel generalizing clocks reads with
  | zero => exact ⟨by simp [startLoop], by simp [startLoop], by simp [startLoop]⟩
  | succ fuel ih =>
    obtain ⟨i1, i2, i3⟩ := ih (clocks + 1) (reads + 1)
    unfold startLoop
    by_cases hc : timeout = 0 ∨ env.clock clocks < maxTime
    · simp only [hc, if_true]
      by_cases hr : env.rx reads = some sb
      · simp only [hr, if_true]
        refine ⟨by simp, ?_, by simp⟩
        intro r heq
        simp only [Res.ok.injEq, Prod.mk.injEq, true_and] at heq
        subst heq
        exact ⟨by omega, by simpa using hr, fun j h1 h2 => by omega⟩
      · simp only [hr, if_false]
        refine ⟨i1, ?_, ?_⟩
        · intro r heq
          obtain ⟨m1, m2, m3⟩ := i2 r heq
          refine ⟨by omega, m2, ?_⟩
          intro j h1 h2
          by_cases hj : j = reads
          · rw [hj]; exact hr
          · exact m3 j (by omega) h2
        · intro r heq
          obtain ⟨m0, m1, m2, m3⟩ := i3 r heq
          refine ⟨m0, by omega, ?_, ?_⟩
          · rw [show clocks + (r - reads) = clocks + 1 + (r - (reads + 1)) by omega]
            exact m2
          · intro j h1 h2
            by_cases hj : j = reads
            · rw [hj]; exact hr
            · exact m3 j (by omega) h2
    · simp only [hc, if_false]
      refine ⟨by simp, by simp, ?_⟩
      intro r heq
      simp only [Res.ok.injEq, Prod.mk.injEq, true_and] at heq
      subst heq
      refine ⟨fun h0 => hc (.inl h0), Nat.le_refl _, ?_, fun j h1 h2 => by omega⟩
      rw [Nat.sub_self, Nat.add_zero]
      exact BitVec.not_lt.1 (fun h0 => hc (.inr h0))

/-- **C55** (`ReceiveBetween`, buffers of at least two bytes): whatever the clock and the device do, the buffer is not
left; a non-zero count is returned iff a start byte was read, and then the buffer holds the start byte, bytes from the
beginning of what arrives after it, without the end byte, and one end byte; otherwise the buffer is unchanged; the
device's time-out setting is as before. -/
theorem receiveBetween_exact_partial (env : Env) (fuel : Nat) (arriving : List Byte) (d : Dev) (size : Nat)
    (sb e : Byte) (timeout : Nat) (h1 : 2 ≤ size) (h2 : size < 65536) (hs : size ≤ d.mem.length) :
    receiveBetween env fuel arriving d size sb e timeout ≠ .ub ∧
    ∀ n d', receiveBetween env fuel arriving d size sb e timeout = .ok (n, d') →
      n ≤ size ∧ d'.timeout = d.timeout ∧
      (n = 0 → d'.mem = d.mem ∧ timeout ≠ 0) ∧
      (n ≠ 0 → ∃ bs, n = bs.length + 2 ∧ bs <+: arriving ∧ e ∉ bs ∧
        (n = size ∨ bs = arriving ∨ bs ++ [e] <+: arriving) ∧
        d'.mem = sb :: bs ++ [e] ++ d.mem.drop n ∧
        d'.used = some (if timeout = 0 then d.timeout else timeout) ∧
        ∃ r, env.rx r = some sb ∧ ∀ j, j < r → env.rx j ≠ some sb) := by
  have hsz : toSize ((size : Int) - 1 - 1) = size - 2 := by unfold toSize; omega
  obtain ⟨k1, k2, k3, k4⟩ := untilBytes_spec arriving e (size - 2)
  have hbs : untilBytes arriving e (toSize ((size : Int) - 1 - 1)) = untilBytes arriving e (size - 2) := by rw [hsz]
  generalize untilBytes arriving e (size - 2) = bs at *
  have hmem : (d.enter timeout).mem = d.mem := by unfold Dev.enter; split <;> rfl
  have hto : (d.enter timeout).timeout = if timeout = 0 then d.timeout else timeout := by
    unfold Dev.enter
    by_cases ht : timeout = 0
    · rw [if_neg (by omega), if_pos ht]
    · rw [if_pos (by omega), if_neg ht]
  obtain ⟨u1, u2, u3⟩ := startLoop_spec env sb timeout (env.clock 0 + BitVec.ofNat 32 timeout) fuel 1 0
  unfold receiveBetween
  cases hres : startLoop env sb timeout (env.clock 0 + BitVec.ofNat 32 timeout) fuel 1 0 with
  | ub => exact absurd hres u1
  | hang => simp only [hres, Res.bind_hang]; exact ⟨by simp, by simp⟩
  | ok r =>
    obtain ⟨found, r⟩ := r
    simp only [hres, Res.bind_ok]
    cases found with
    | false =>
      simp only [Bool.false_eq_true, if_false, hmem]
      refine ⟨by simp, ?_⟩
      intro n d' heq
      simp only [Res.ok.injEq, Prod.mk.injEq] at heq
      obtain ⟨rfl, rfl⟩ := heq
      exact ⟨by omega, rfl, fun _ => ⟨rfl, (u3 r hres).1⟩, fun h => absurd rfl h⟩
    | true =>
      have hst0 : store d.mem 0 [sb] = .ok ([sb] ++ d.mem.drop 1) := by
        rw [store_ok _ _ _ (by simp; omega)]; simp
      have hst1 : store ([sb] ++ d.mem.drop 1) 1 bs = .ok ([sb] ++ bs ++ d.mem.drop (bs.length + 1)) := by
        rw [store_ok _ _ _ (by simp; omega), List.singleton_append, Nat.add_comm 1 bs.length, List.drop_succ_cons,
          List.drop_drop, Nat.add_comm 1 bs.length]
        rfl
      have hst2 : store ([sb] ++ bs ++ d.mem.drop (bs.length + 1)) (1 + bs.length) [e] =
          .ok ([sb] ++ bs ++ [e] ++ d.mem.drop (bs.length + 2)) := by
        rw [store_ok _ _ _ (by simp; omega)]
        have hl : ([sb] ++ bs).length = 1 + bs.length := by simp [Nat.add_comm]
        rw [← hl, List.take_left, List.drop_append, List.drop_eq_nil_of_le (by simp)]
        simp
      simp only [if_true, hmem, hbs, hst0, Res.bind_ok, hst1]
      rw [Nat.mod_eq_of_lt (by omega), hst2]
      simp only [Res.bind_ok]
      refine ⟨by simp, ?_⟩
      intro n d' heq
      simp only [Res.ok.injEq, Prod.mk.injEq] at heq
      obtain ⟨hn, rfl⟩ := heq
      rw [Nat.mod_eq_of_lt (by omega)] at hn
      obtain ⟨m1, m2, m3⟩ := u2 r hres
      refine ⟨by omega, rfl, fun h => by omega, fun _ => ⟨bs, by omega, k1, k2, ?_, ?_, by simp only [hto], r - 1, m2, ?_⟩⟩
      · rcases k4 with k | k | k
        · exact .inl (by omega)
        · exact .inr (.inl k)
        · exact .inr (.inr k)
      · rw [show n = bs.length + 2 by omega]; rfl
      · intro j hj
        exact m3 j (by omega) (by omega)

/-- With a buffer size of zero the length passed on is 2^32 - 1: everything up to the terminator is stored, however
many bytes that are. -/
theorem receiveUntil_zero_size_unlimited (p rest : List Byte) (e : Byte) (hp : e ∉ p) (hl : p.length < 65535) (d : Dev)
    (hs : p.length + 1 ≤ d.mem.length) (timeout : Nat) :
    ∃ d', receiveUntil (p ++ e :: rest) d 0 e timeout = .ok (p.length + 1, d') ∧
      d'.mem = p ++ [e] ++ d.mem.drop (p.length + 1) := by
  have hmem : (d.enter timeout).mem = d.mem := by unfold Dev.enter; split <;> rfl
  have hbs : untilBytes (p ++ e :: rest) e (toSize (((0 : Nat) : Int) - 1)) = p := by
    unfold untilBytes
    rw [List.takeWhile_append_of_pos (by intro x hx; simp; intro h; exact hp (h ▸ hx))]
    simp only [ne_eq, List.takeWhile_cons, Bool.false_eq_true, if_false,
      List.append_nil, decide_not, decide_true, Bool.not_true]
    exact List.take_of_length_le (by unfold toSize; omega)
  refine ⟨⟨d.timeout, some (d.enter timeout).timeout, p ++ [e] ++ d.mem.drop (p.length + 1)⟩, ?_, rfl⟩
  unfold receiveUntil
  simp only [hbs, hmem]
  rw [store_ok _ _ _ (by omega)]
  simp only [Res.bind_ok]
  rw [Nat.mod_eq_of_lt (by omega), store_ok _ _ _ (by simp; omega)]
  simp only [Res.bind_ok, Res.ok.injEq, Prod.mk.injEq, Dev.mk.injEq, true_and]
  refine ⟨Nat.mod_eq_of_lt (by omega), ?_⟩
  simp [List.drop_append]

/-- Consecutive calls of `ReceiveUntil` on one stream: the counts and the buffers. -/
def receiveSeq (size : Nat) (e : Byte) (timeout : Nat) : Nat → List Byte → Dev → Res (List (List Byte))
  | 0, _, _ => .ok []
  | k + 1, arriving, d => do
    let (n, d1) ← receiveUntil arriving d size e timeout
    let rest ← receiveSeq size e timeout k (untilRest arriving e (size - 1)) d1
    .ok (d1.mem.take n :: rest)

/-- **C55**: packets shorter than the buffer are received one by one, each with its terminator. -/
theorem receiveUntil_stream (e : Byte) (ps : List (List Byte)) (size : Nat) (h2 : size < 65536)
    (hp : ∀ p ∈ ps, e ∉ p ∧ p.length + 1 < size) (d : Dev) (hs : size ≤ d.mem.length) (timeout : Nat) :
    receiveSeq size e timeout ps.length (ps.map (· ++ [e])).flatten d = .ok (ps.map (· ++ [e])) := by
  induction ps generalizing d with
  | nil => rfl
  | cons p ps ih =>
    simp only [List.mem_cons, forall_eq_or_imp] at hp
    obtain ⟨⟨hpe, hpl⟩, hps⟩ := hp
    generalize hr : (ps.map (· ++ [e])).flatten = rest at ih
    have hcons : ((p :: ps).map (· ++ [e])).flatten = p ++ e :: rest := by simp [← hr]
    have htw : (p ++ e :: rest).takeWhile (· ≠ e) = p := by
      rw [List.takeWhile_append_of_pos (by intro x hx; simp; intro h; exact hpe (h ▸ hx))]
      simp
    have hdw : (p ++ e :: rest).dropWhile (· ≠ e) = e :: rest := by
      have := List.takeWhile_append_dropWhile (p := (· ≠ e)) (l := p ++ e :: rest)
      rw [htw] at this
      exact List.append_cancel_left this
    have hrest : untilRest (p ++ e :: rest) e (size - 1) = rest := by
      unfold untilRest
      rw [htw, if_pos (by omega), hdw]; rfl
    obtain ⟨bs, d1, k1, k2, k3, k4, k5, k6, k7, k8⟩ :=
      receiveUntil_exact_partial (p ++ e :: rest) d size e timeout (by omega) h2 hs
    have hbl : bs = p := by
      have hlen : bs.length = p.length := by
        rcases k5 with k | k | k
        · exfalso
          apply k4
          rw [List.prefix_iff_eq_take.1 k3]
          rw [List.take_append, List.take_of_length_le (by omega)]
          rw [show bs.length - p.length = (bs.length - p.length - 1) + 1 by omega]
          simp
        · exfalso; apply k4; rw [k]; simp
        · obtain ⟨t, ht⟩ := k
          have hg : (p ++ e :: rest)[bs.length]? = some e := by rw [← ht]; simp
          rcases Nat.lt_trichotomy bs.length p.length with h | h | h
          · exfalso
            rw [List.getElem?_append_left h] at hg
            exact hpe (List.mem_of_getElem? hg)
          · exact h
          · exfalso
            apply k4
            rw [List.prefix_iff_eq_take.1 k3]
            rw [List.take_append, List.take_of_length_le (by omega)]
            rw [show bs.length - p.length = (bs.length - p.length - 1) + 1 by omega]
            simp
      rw [List.prefix_iff_eq_take.1 k3, hlen, List.take_left]
    subst hbl
    have hlen1 : d1.mem.length = d.mem.length := by rw [k6]; simp; omega
    rw [hcons, List.length_cons, receiveSeq, k1]
    simp only [Res.bind_ok, hrest]
    rw [ih hps d1 (by omega)]
    simp only [Res.bind_ok, List.map_cons, Res.ok.injEq, List.cons.injEq, and_true]
    rw [k6, List.take_left' (by simp)]

example : receiveSeq 5 10 20 3 [1, 2, 10, 10, 3, 10] ⟨1000, none, [0, 0, 0, 0, 7]⟩ = .ok [[1, 2, 10], [10], [3, 10]] := by
  decide

/-- With a buffer size of one `ReceiveBetween` writes outside the buffer as soon as it finds the start byte. -/
theorem receiveBetween_size_one_ub (env : Env) (fuel : Nat) (arriving : List Byte) (sb e x : Byte) (old : Nat)
    (h : env.rx 0 = some sb) : receiveBetween env (fuel + 1) arriving ⟨old, none, [x]⟩ 1 sb e 0 = .ub := by
  unfold receiveBetween
  unfold startLoop
  simp only [true_or, if_true, h, Res.bind_ok, Dev.enter]
  cases hb : untilBytes arriving e (toSize ((1 : Nat) - 1 - 1)) with
  | nil => simp [store]
  | cons b bs =>
    have hf : ¬ 1 + (bs.length + 1) ≤ 1 := by omega
    simp [store, hf]

theorem untilBytes_packet (p rest : List Byte) (e : Byte) (hp : e ∉ p) (n : Nat) (hn : p.length ≤ n) :
    untilBytes (p ++ e :: rest) e n = p := by
  unfold untilBytes
  rw [List.takeWhile_append_of_pos (by intro x hx; simp; intro h; exact hp (h ▸ hx))]
  simp only [ne_eq, List.takeWhile_cons, Bool.false_eq_true, if_false,
    List.append_nil, decide_not, decide_true, Bool.not_true]
  exact List.take_of_length_le hn

/-- With a size of 0 or 1 the length of a packet is not limited either; from 65534 bytes on the 16-bit position wraps:
then the packet is reported as empty, and one byte more makes the terminator overwrite the start byte. -/
theorem receiveBetween_small_unlimited (env : Env) (fuel : Nat) (p rest : List Byte) (sb e : Byte) (hp : e ∉ p)
    (hl : p.length ≤ 65535) (d : Dev) (hs : p.length + 2 ≤ d.mem.length) (size : Nat) (h1 : size ≤ 1)
    (h : env.rx 0 = some sb) :
    ∃ n d', receiveBetween env (fuel + 1) (p ++ e :: rest) d size sb e 0 = .ok (n, d') ∧
      (p.length < 65534 → n = p.length + 2 ∧ d'.mem = sb :: p ++ [e] ++ d.mem.drop (p.length + 2)) ∧
      (p.length = 65534 → n = 0 ∧ d'.mem = sb :: p ++ [e] ++ d.mem.drop (p.length + 2)) ∧
      (p.length = 65535 → n = 1 ∧ d'.mem = e :: p ++ d.mem.drop (p.length + 1)) := by
  have hbs : untilBytes (p ++ e :: rest) e (toSize ((size : Int) - 1 - 1)) = p := by
    apply untilBytes_packet _ _ _ hp
    unfold toSize
    omega
  unfold receiveBetween
  unfold startLoop
  simp only [true_or, if_true, h, Res.bind_ok]
  have hmem : (d.enter 0).mem = d.mem := by simp [Dev.enter]
  rw [hmem, hbs, store_ok _ _ _ (by simp; omega)]
  simp only [Res.bind_ok]
  obtain ⟨x, ms, hms⟩ : ∃ x ms, d.mem = x :: ms := by
    cases hd : d.mem with
    | nil => rw [hd] at hs; simp at hs
    | cons x ms => exact ⟨x, ms, rfl⟩
  rw [hms] at hs ⊢
  simp only [List.length_cons] at hs
  rw [store_ok _ _ _ (by simp; omega)]
  simp only [Res.bind_ok]
  simp only [Nat.add_comm 1 p.length]
  have hlt : (p.length + 1) % 65536 < 65536 := Nat.mod_lt _ (by omega)
  rw [store_ok _ _ _ (by simp; omega)]
  simp only [Res.bind_ok]
  refine ⟨_, _, rfl, ?_, ?_, ?_⟩
  · intro hlen
    rw [Nat.mod_eq_of_lt (show p.length + 1 < 65536 by omega)]
    refine ⟨by rw [Nat.mod_eq_of_lt (by omega)], ?_⟩
    simp [List.drop_append]
  · intro hlen
    rw [Nat.mod_eq_of_lt (show p.length + 1 < 65536 by omega)]
    refine ⟨by rw [hlen], ?_⟩
    simp [List.drop_append]
  · intro hlen
    rw [show (p.length + 1) % 65536 = 0 by rw [hlen]]
    refine ⟨rfl, ?_⟩
    simp [List.drop_append]

/-- `Send` restores the device's time-out setting and passes the driver's count on. -/
theorem send_restores (d : Dev) (written timeout : Nat) (h : written < 65536) :
    (send d written timeout).1 = written ∧ (send d written timeout).2.timeout = d.timeout ∧
    (send d written timeout).2.used = some (if timeout = 0 then d.timeout else timeout) := by
  refine ⟨Nat.mod_eq_of_lt h, rfl, ?_⟩
  unfold send Dev.enter
  by_cases ht : timeout = 0
  · simp [ht]
  · simp [ht, Nat.pos_of_ne_zero ht]

/-- A concrete packet. -/
example : receiveUntil [1, 2, 10, 3] ⟨1000, none, [0, 0, 0, 0, 7]⟩ 5 10 20 =
    .ok (3, ⟨1000, some 20, [1, 2, 10, 0, 7]⟩) := by decide
example : receiveBetween (feed [9, 2] 0) 5 [5, 3, 7] ⟨1000, none, [0, 0, 0, 0]⟩ 4 2 3 20 =
    .ok (3, ⟨1000, some 20, [2, 5, 3, 0]⟩) := by decide
example : receive (feed [4, 5, 6] 0) 5 [0, 0, 0] 2 20 = .ok (2, ⟨[4, 5, 0], 4, [(0, some 4), (0, some 5)]⟩) := by decide

end Verif.Uart.Arduino
