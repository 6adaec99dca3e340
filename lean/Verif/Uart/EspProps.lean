import Verif.Uart.Esp
import Mathlib.Tactic.ByContra
/-!
# C53, C54: packet reception on ESP32
-/
namespace Verif.Uart.Esp
open Verif

/-- The bytes delivered by the first `k` reads, in order. -/
def received (env : Env) (k : Nat) : List Byte := (List.range k).filterMap env.rx

theorem received_succ (env : Env) (k : Nat) : received env (k + 1) = received env k ++ (env.rx k).toList := by
  unfold received
  rw [List.range_succ, List.filterMap_append]
  cases h : env.rx k <;> simp [h]

/-- The bytes `cur`, received after the bytes `before`, are in the buffer; the rest of it is as in `mem`. -/
structure Inv (env : Env) (mem : List Byte) (before : List Byte) (s : St) (cur : List Byte) : Prop where
  mem_eq : s.mem = cur ++ mem.drop cur.length
  bytes : before ++ cur = received env s.log.length
  le : cur.length ≤ mem.length

theorem Inv.length {env : Env} {mem before cur : List Byte} {s : St} (h : Inv env mem before s cur) :
    s.mem.length = mem.length := by
  have := h.le
  rw [h.mem_eq]
  simp
  omega

theorem read_step {env : Env} {mem before cur : List Byte} {s : St} (h : Inv env mem before s cur)
    (hl : cur.length < mem.length) (t : BitVec 32) :
    (∃ b s', env.rx s.log.length = some b ∧ readByte env s cur.length t = .ok (true, s') ∧
      Inv env mem before s' (cur ++ [b]) ∧ s'.mem[cur.length]? = some b ∧ s'.clocks = s.clocks ∧
      s'.log = s.log ++ [(t, some b)]) ∨
    (∃ s', env.rx s.log.length = none ∧ readByte env s cur.length t = .ok (false, s') ∧
      Inv env mem before s' cur ∧ s'.clocks = s.clocks ∧ s'.log = s.log ++ [(t, none)]) := by
  have hlen := h.length
  unfold readByte
  cases hr : env.rx s.log.length with
  | some b =>
    left
    simp only
    rw [if_pos (by omega)]
    refine ⟨b, _, rfl, rfl, ⟨?_, ?_, ?_⟩, ?_, rfl, rfl⟩
    · simp only
      rw [h.mem_eq, List.set_append_right _ _ (Nat.le_refl _), Nat.sub_self, List.append_assoc]
      congr 1
      rw [List.length_append, List.length_singleton]
      rw [List.drop_eq_getElem_cons hl]
      rfl
    · simp only [List.length_append, List.length_singleton]
      rw [received_succ, hr, ← h.bytes]
      simp
    · simp; omega
    · simp only
      rw [List.getElem?_set_self (by omega)]
  | none =>
    right
    refine ⟨_, rfl, rfl, ⟨h.mem_eq, ?_, h.le⟩, rfl, rfl⟩
    simp only [List.length_append, List.length_singleton]
    rw [received_succ, hr, h.bytes]
    simp

theorem Inv.tick {env : Env} {mem before cur : List Byte} {s : St} (h : Inv env mem before s cur) :
    Inv env mem before (tick env s).2 cur := ⟨h.mem_eq, h.bytes, h.le⟩

/-- Every wait was asked to end at `maxTime`, counted from a clock reading before it. -/
def Bounded (env : Env) (maxTime : BitVec 32) (s : St) : Prop :=
  ∀ p ∈ s.log, ∃ k, k < s.clocks ∧ env.clock k < maxTime ∧ p.1 = maxTime - env.clock k

theorem untilLoop_ok (env : Env) (size : Nat) (e : Byte) (timeout : Nat) (maxTime : BitVec 32) (mem : List Byte)
    (hs : size ≤ mem.length) (fuel : Nat) {s : St} {cur : List Byte} {start : BitVec 32}
    (h : Inv env mem [] s cur) (hle : cur.length ≤ size) (he : e ∉ cur)
    (hb : timeout ≠ 0 → Bounded env maxTime s) :
    untilLoop env size e timeout maxTime fuel cur.length start s ≠ .ub ∧
    ∀ n s', untilLoop env size e timeout maxTime fuel cur.length start s = .ok (n, s') →
      ∃ cur', Inv env mem [] s' cur' ∧ n = cur'.length ∧ n ≤ size ∧ e ∉ cur'.dropLast ∧
        (timeout ≠ 0 → Bounded env maxTime s') ∧
        (cur'.getLast? = some e ∨ n = size ∨
          (timeout ≠ 0 ∧ ∃ k, s'.clocks = k + 1 ∧ maxTime ≤ env.clock k)) := by
  induction fuel generalizing s cur start with
  | zero => exact ⟨by simp [untilLoop], by simp [untilLoop]⟩
  | succ fuel ih =>
    have hdrop : e ∉ cur.dropLast := fun hm => he ((List.dropLast_sublist _).subset hm)
    unfold untilLoop
    by_cases hp : cur.length < size
    · rw [if_pos hp]
      by_cases ht : timeout = 0
      · simp only [ht, true_or, if_true]
        rcases read_step h (by omega) (maxTime - start) with ⟨b, s1, k0, k1, k2, k3, k4, k5⟩ | ⟨s1, k0, k1, k2, k4, k5⟩
        · rw [k1]; simp only [Res.bind_ok, if_true, k3]
          by_cases hbe : b = e
          · rw [if_pos hbe]
            refine ⟨by simp, ?_⟩
            intro n s' heq
            simp only [Res.ok.injEq, Prod.mk.injEq] at heq
            obtain ⟨rfl, rfl⟩ := heq
            refine ⟨cur ++ [b], k2, by simp, by omega, by simpa using he, by simp, .inl (by simp [hbe])⟩
          · rw [if_neg hbe]
            have := ih (start := start) k2 (by simp; omega) (by simp only [List.mem_append, List.mem_singleton, not_or]; exact ⟨he, fun h => hbe h.symm⟩)
              (fun h0 => absurd ht h0)
            rw [List.length_append, List.length_singleton, ht] at this
            exact this
        · rw [k1]; simp only [Res.bind_ok, Bool.false_eq_true, if_false]
          have := ih (start := start) k2 hle he (fun h0 => absurd ht h0)
          rw [ht] at this
          exact this
      · simp only [if_false, ht, false_or, ne_eq, not_false_eq_true, true_and, true_implies, tick]
        have hb0 := hb ht
        by_cases hlt : env.clock s.clocks < maxTime
        · rw [if_pos hlt]
          have hinv : Inv env mem [] { s with clocks := s.clocks + 1 } cur := h.tick
          rcases read_step hinv (by omega) (maxTime - env.clock s.clocks) with
            ⟨b, s1, k0, k1, k2, k3, k4, k5⟩ | ⟨s1, k0, k1, k2, k4, k5⟩
          · have hb1 : Bounded env maxTime s1 := by
              intro p hp
              rw [k5] at hp
              simp only at k4
              rcases List.mem_append.1 hp with hp | hp
              · obtain ⟨k, m1, m2⟩ := hb0 p hp
                exact ⟨k, by omega, m2⟩
              · rw [List.mem_singleton.1 hp]
                exact ⟨s.clocks, by omega, hlt, rfl⟩
            rw [k1]; simp only [Res.bind_ok, if_true, k3]
            by_cases hbe : b = e
            · rw [if_pos hbe]
              refine ⟨by simp, ?_⟩
              intro n s' heq
              simp only [Res.ok.injEq, Prod.mk.injEq] at heq
              obtain ⟨rfl, rfl⟩ := heq
              refine ⟨cur ++ [b], k2, by simp, by omega, by simpa using he, hb1, .inl (by simp [hbe])⟩
            · rw [if_neg hbe]
              have := ih (start := env.clock s.clocks) k2 (by simp; omega) (by simp only [List.mem_append, List.mem_singleton, not_or]; exact ⟨he, fun h => hbe h.symm⟩)
                (fun _ => hb1)
              rw [List.length_append, List.length_singleton] at this
              simpa only [ht, ne_eq, not_false_eq_true, true_and, true_implies] using this
          · have hb1 : Bounded env maxTime s1 := by
              intro p hp
              rw [k5] at hp
              simp only at k4
              rcases List.mem_append.1 hp with hp | hp
              · obtain ⟨k, m1, m2⟩ := hb0 p hp
                exact ⟨k, by omega, m2⟩
              · rw [List.mem_singleton.1 hp]
                exact ⟨s.clocks, by omega, hlt, rfl⟩
            rw [k1]; simp only [Res.bind_ok, Bool.false_eq_true, if_false]
            have := ih (start := env.clock s.clocks) k2 hle he (fun _ => hb1)
            simpa only [ht, ne_eq, not_false_eq_true, true_and, true_implies] using this
        · rw [if_neg hlt]
          refine ⟨by simp, ?_⟩
          intro n s' heq
          simp only [Res.ok.injEq, Prod.mk.injEq] at heq
          obtain ⟨rfl, rfl⟩ := heq
          refine ⟨cur, h.tick, rfl, hle, hdrop, ?_, .inr (.inr ⟨s.clocks, rfl, by
            have : ¬ (env.clock s.clocks) < maxTime := hlt
            exact BitVec.not_lt.1 this⟩)⟩
          intro p hp
          obtain ⟨k, m1, m2⟩ := hb0 p hp
          exact ⟨k, by simp only; omega, m2⟩
    · rw [if_neg hp]
      refine ⟨by simp, ?_⟩
      intro n s' heq
      simp only [Res.ok.injEq, Prod.mk.injEq] at heq
      obtain ⟨rfl, rfl⟩ := heq
      exact ⟨cur, h, rfl, hle, hdrop, hb, .inr (.inl (by omega))⟩

/-- **C53**: whatever the clock and the driver do, `ReceiveUntil` never leaves the buffer, and when it returns, the
buffer starts with exactly the bytes delivered by its reads, in order, the terminator being at most the last of them,
nothing else is changed, and it stopped because of the terminator, a full buffer or the deadline; every wait was asked
to end at the deadline. -/
theorem receiveUntil_exact (env : Env) (fuel : Nat) (mem : List Byte) (size : Nat) (e : Byte) (timeout : Nat)
    (hs : size ≤ mem.length) :
    receiveUntil env fuel mem size e timeout ≠ .ub ∧
    ∀ n s, receiveUntil env fuel mem size e timeout = .ok (n, s) →
      n = (received env s.log.length).length ∧ n ≤ size ∧
      s.mem = received env s.log.length ++ mem.drop n ∧
      e ∉ (received env s.log.length).dropLast ∧
      ((received env s.log.length).getLast? = some e ∨ n = size ∨
        (timeout ≠ 0 ∧ ∃ k, s.clocks = k + 1 ∧ env.clock 0 + BitVec.ofNat 32 timeout ≤ env.clock k)) ∧
      (timeout ≠ 0 → ∀ p ∈ s.log, ∃ k, k < s.clocks ∧
        env.clock k < env.clock 0 + BitVec.ofNat 32 timeout ∧
        p.1 = env.clock 0 + BitVec.ofNat 32 timeout - env.clock k) := by
  have hinv : Inv env mem [] (tick env ⟨mem, 0, []⟩).2 [] := ⟨by simp [tick], by simp [tick, received], by simp⟩
  have h := untilLoop_ok env size e timeout (env.clock 0 + BitVec.ofNat 32 timeout) mem hs fuel (start := env.clock 0)
    hinv (by simp) (by simp) (fun _ p hp => by simp [tick] at hp)
  refine ⟨h.1, ?_⟩
  intro n s heq
  obtain ⟨cur, k1, k2, k3, k4, k5, k6⟩ := h.2 n s heq
  have hc : received env s.log.length = cur := by rw [← k1.bytes]; rfl
  rw [hc]
  refine ⟨k2, k3, by rw [k1.mem_eq, k2], k4, k6, k5⟩

theorem until_terminates_aux (env : Env) (size : Nat) (e : Byte) (timeout : Nat) (ht : timeout ≠ 0)
    (maxTime : BitVec 32) (k : Nat) (hk : maxTime ≤ env.clock k) (fuel pos : Nat) (start : BitVec 32) (s : St)
    (hc : s.clocks ≤ k) (hf : k < s.clocks + fuel) :
    untilLoop env size e timeout maxTime fuel pos start s ≠ .hang := by
  induction fuel generalizing pos start s with
  | zero => omega
  | succ fuel ih =>
    unfold untilLoop
    split
    · simp only [ht, false_or, tick]
      split
      · rename_i hlt
        have hne : s.clocks ≠ k := by
          intro e
          rw [e] at hlt
          exact absurd hlt (BitVec.not_lt.2 hk)
        unfold readByte
        cases hr : env.rx s.log.length with
        | some b =>
          simp only
          split
          · simp only [Res.bind_ok, if_true]
            split
            · simp
            · split
              · simp
              · exact ih _ _ _ (by simp only; omega) (by simp only; omega)
          · simp
        | none =>
          simp only [Res.bind_ok, Bool.false_eq_true, if_false]
          exact ih _ _ _ (by simp only; omega) (by simp only; omega)
      · simp
    · simp

/-- **C53**: with a time-out, `ReceiveUntil` returns as soon as a clock reading reaches the deadline. -/
theorem receiveUntil_terminates (env : Env) (mem : List Byte) (size : Nat) (e : Byte) (timeout : Nat)
    (ht : timeout ≠ 0) (k : Nat) (hk1 : 1 ≤ k) (hk : env.clock 0 + BitVec.ofNat 32 timeout ≤ env.clock k)
    (fuel : Nat) (hf : k ≤ fuel) : receiveUntil env fuel mem size e timeout ≠ .hang := by
  unfold receiveUntil
  simp only [tick]
  exact until_terminates_aux env size e timeout ht _ k hk fuel _ _ _ (by simp only; omega) (by simp only; omega)

/-- Without a time-out (the default) `ReceiveUntil` polls forever while nothing arrives. -/
theorem receiveUntil_zero_blocks (env : Env) (h : ∀ k, env.rx k = none) (mem : List Byte) (size : Nat) (hs : 0 < size)
    (e : Byte) (fuel : Nat) : receiveUntil env fuel mem size e 0 = .hang := by
  unfold receiveUntil
  simp only [tick]
  have key : ∀ fuel start s, untilLoop env size e 0 (env.clock 0 + BitVec.ofNat 32 0) fuel 0 start s = .hang := by
    intro fuel
    induction fuel with
    | zero => intros; rfl
    | succ fuel ih =>
      intro start s
      unfold untilLoop
      rw [if_pos hs]
      simp only [if_true, true_or, readByte, h, Res.bind_ok, Bool.false_eq_true, if_false]
      exact ih _ _
  exact key fuel _ _

/-- If the deadline wraps around the 32-bit counter, `ReceiveUntil` gives up at once, whatever is waiting: the time-out
has not passed. -/
theorem receiveUntil_wrap_gives_up (env : Env) (fuel : Nat) (mem : List Byte) (size : Nat) (hs : 0 < size) (e : Byte)
    (timeout : Nat) (ht : timeout ≠ 0) (ht2 : timeout < 65536)
    (hw : 4294967296 ≤ (env.clock 0).toNat + timeout) (hc : env.clock 1 = env.clock 0) :
    receiveUntil env (fuel + 1) mem size e timeout = .ok (0, ⟨mem, 2, []⟩) := by
  unfold receiveUntil
  simp only [tick]
  unfold untilLoop
  rw [if_pos hs]
  simp only [if_false, ht, false_or, tick]
  rw [if_neg]
  have := (env.clock 0).isLt
  show ¬ env.clock 1 < _
  rw [hc, BitVec.lt_def, BitVec.toNat_add, BitVec.toNat_ofNat]
  omega

/-- An environment in which the bytes `xs` arrive at consecutive reads and the clock stands still. -/
def feed (xs : List Byte) (t : BitVec 32) : Env := ⟨fun _ => t, fun k => xs[k]?⟩

/-- A concrete run: two bytes and the terminator, more bytes left for later. -/
example : receiveUntil (feed [1, 2, 10, 3] 100) 10 [0, 0, 0, 0, 7] 5 10 20 =
    .ok (3, ⟨[1, 2, 10, 0, 7], 4, [(20, some 1), (20, some 2), (20, some 10)]⟩) := by decide

/-! ## `ReceiveBetween` -/

theorem startLoop_ok (env : Env) (sb : Byte) (start maxTime : BitVec 32) (hle : start ≤ maxTime) (mem : List Byte)
    (hm : 0 < mem.length) (fuel : Nat) {s : St} {before : List Byte}
    (hmem : ∃ x, s.mem = x :: mem.drop 1) (hb : before = received env s.log.length) (hnot : sb ∉ before)
    (hlog : ∀ p ∈ s.log, p.1 = maxTime - start) :
    startLoop env sb start maxTime fuel s ≠ .ub ∧
    (∀ s', startLoop env sb start maxTime fuel s = .ok (true, s') →
      ∃ before', Inv env mem before' s' [sb] ∧ sb ∉ before' ∧ s'.clocks = s.clocks ∧
        ∀ p ∈ s'.log, p.1 = maxTime - start) ∧
    (∀ s', startLoop env sb start maxTime fuel s = .ok (false, s') →
      (∃ x, s'.mem = x :: mem.drop 1) ∧ sb ∉ received env s'.log.length ∧ s'.clocks = s.clocks ∧
        (∃ l, s'.log = l ++ [(maxTime - start, none)]) ∧ ∀ p ∈ s'.log, p.1 = maxTime - start) := by
  induction fuel generalizing s before with
  | zero => exact ⟨by simp [startLoop], by simp [startLoop], by simp [startLoop]⟩
  | succ fuel ih =>
    obtain ⟨x, hx⟩ := hmem
    have hlog' : ∀ o, ∀ p ∈ s.log ++ [(maxTime - start, o)], p.1 = maxTime - start := by
      intro o p hp
      rcases List.mem_append.1 hp with hp | hp
      · exact hlog p hp
      · rw [List.mem_singleton.1 hp]
    unfold startLoop
    rw [if_pos hle]
    unfold readByte
    cases hr : env.rx s.log.length with
    | some b =>
      simp only
      rw [if_pos (by rw [hx]; simp)]
      have hset : s.mem.set 0 b = b :: mem.drop 1 := by rw [hx]; rfl
      simp only [Res.bind_ok, if_true, hset, List.getElem?_cons_zero]
      by_cases hbs : b = sb
      · rw [if_pos hbs]
        refine ⟨by simp, ?_, by simp⟩
        intro s' heq
        simp only [Res.ok.injEq, Prod.mk.injEq, true_and] at heq
        subst heq
        refine ⟨before, ⟨by simp [hbs], ?_, by simp; omega⟩, hnot, rfl, hlog' _⟩
        simp only [List.length_append, List.length_singleton]
        rw [received_succ, hr, ← hb, hbs]
        simp
      · rw [if_neg hbs]
        have hrec : before ++ [b] = received env (s.log ++ [(maxTime - start, some b)]).length := by
          simp only [List.length_append, List.length_singleton]
          rw [received_succ, hr, ← hb]
          simp
        exact ih (s := { s with mem := b :: mem.drop 1, log := s.log ++ [(maxTime - start, some b)] })
          ⟨b, rfl⟩ hrec
          (by
            simp only [List.mem_append, List.mem_singleton, not_or]
            exact ⟨hnot, fun h => hbs h.symm⟩)
          (hlog' _)
    | none =>
      simp only [Res.bind_ok, Bool.false_eq_true, if_false]
      refine ⟨by simp, by simp, ?_⟩
      intro s' heq
      simp only [Res.ok.injEq, Prod.mk.injEq, true_and] at heq
      subst heq
      refine ⟨⟨x, hx⟩, ?_, rfl, ⟨_, rfl⟩, hlog' _⟩
      simp only [List.length_append, List.length_singleton]
      rw [received_succ, hr, ← hb]
      simpa using hnot

theorem restLoop_ok (env : Env) (size : Nat) (e : Byte) (maxTime : BitVec 32) (mem before : List Byte)
    (hs : size ≤ mem.length) (sb : Byte) (fuel : Nat) {s : St} {post : List Byte}
    (h : Inv env mem before s (sb :: post)) (hle : post.length + 1 ≤ size) (he : e ∉ post) :
    restLoop env size e maxTime fuel (post.length + 1) s ≠ .ub ∧
    ∀ n s', restLoop env size e maxTime fuel (post.length + 1) s = .ok (n, s') →
      ∃ post', Inv env mem before s' (sb :: post') ∧ n = post'.length + 1 ∧ n ≤ size ∧ e ∉ post'.dropLast ∧
        (post'.getLast? = some e ∨ n = size ∨ ∃ k, s'.clocks = k + 1 ∧ maxTime < env.clock k) := by
  induction fuel generalizing s post with
  | zero => exact ⟨by simp [restLoop], by simp [restLoop]⟩
  | succ fuel ih =>
    have hdrop : e ∉ post.dropLast := fun hm => he ((List.dropLast_sublist _).subset hm)
    unfold restLoop
    simp only [tick]
    by_cases hlt : env.clock s.clocks ≤ maxTime
    · simp only [hlt, if_true]
      by_cases hp : post.length + 1 = size
      · rw [if_pos hp]
        refine ⟨by simp, ?_⟩
        intro n s' heq
        simp only [Res.ok.injEq, Prod.mk.injEq] at heq
        obtain ⟨rfl, rfl⟩ := heq
        exact ⟨post, h.tick, rfl, hle, hdrop, .inr (.inl hp)⟩
      · rw [if_neg hp]
        have hinv : Inv env mem before { s with clocks := s.clocks + 1 } (sb :: post) := h.tick
        rcases read_step hinv (by simp only [List.length_cons]; omega) (maxTime - env.clock s.clocks) with
          ⟨b, s1, k0, k1, k2, k3, k4, k5⟩ | ⟨s1, k0, k1, k2, k4, k5⟩
        · rw [List.length_cons] at k1 k3
          rw [k1]; simp only [Res.bind_ok, if_true, k3]
          by_cases hbe : b = e
          · rw [if_pos hbe]
            refine ⟨by simp, ?_⟩
            intro n s' heq
            simp only [Res.ok.injEq, Prod.mk.injEq] at heq
            obtain ⟨rfl, rfl⟩ := heq
            refine ⟨post ++ [b], by simpa using k2, by simp, by omega, by simpa using he, .inl (by simp [hbe])⟩
          · rw [if_neg hbe]
            have := ih (post := post ++ [b]) (by simpa using k2) (by simp; omega) (by
              simp only [List.mem_append, List.mem_singleton, not_or]; exact ⟨he, fun h => hbe h.symm⟩)
            rw [List.length_append, List.length_singleton] at this
            exact this
        · rw [List.length_cons] at k1
          rw [k1]; simp only [Res.bind_ok, Bool.false_eq_true, if_false]
          exact ih k2 hle he
    · simp only [hlt, if_false]
      refine ⟨by simp, ?_⟩
      intro n s' heq
      simp only [Res.ok.injEq, Prod.mk.injEq] at heq
      obtain ⟨rfl, rfl⟩ := heq
      exact ⟨post, h.tick, rfl, hle, hdrop, .inr (.inr ⟨s.clocks, rfl, BitVec.not_le.1 hlt⟩)⟩

/-- **C54** (while the deadline does not wrap): whatever the clock and the driver do, `ReceiveBetween` never leaves the
buffer; if it returns a count `n > 0`, the bytes delivered were some bytes without the start byte, then the start byte,
then `n - 1` bytes with the end byte at most last, and the buffer holds exactly the latter `n`; it stopped because of
the end byte, a full buffer or the deadline.  If it returns 0, no start byte was delivered (and the last read timed
out), and at most the first byte of the buffer is changed. -/
theorem receiveBetween_exact_partial (env : Env) (fuel : Nat) (mem : List Byte) (size : Nat) (sb e : Byte)
    (timeout : Nat) (hs : size ≤ mem.length) (hw : (env.clock 0).toNat + timeout < 4294967296) :
    receiveBetween env fuel mem size sb e timeout ≠ .ub ∧
    ∀ n s, receiveBetween env fuel mem size sb e timeout = .ok (n, s) →
      n ≤ size ∧
      (n = 0 → s.mem.drop 1 = mem.drop 1 ∧ sb ∉ received env s.log.length ∧
        (2 ≤ size → ∃ l, s.log = l ++ [(BitVec.ofNat 32 timeout, none)])) ∧
      (n ≠ 0 → ∃ before post, received env s.log.length = before ++ sb :: post ∧ sb ∉ before ∧
        n = post.length + 1 ∧ s.mem = sb :: post ++ mem.drop n ∧ e ∉ post.dropLast ∧
        (post.getLast? = some e ∨ n = size ∨
          ∃ k, s.clocks = k + 1 ∧ (env.clock 0).toNat + timeout < (env.clock k).toNat)) := by
  unfold receiveBetween
  by_cases h2 : size < 2
  · rw [if_pos h2]
    refine ⟨by simp, ?_⟩
    intro n s heq
    simp only [Res.ok.injEq, Prod.mk.injEq] at heq
    obtain ⟨rfl, rfl⟩ := heq
    exact ⟨by omega, fun _ => ⟨rfl, by simp [received], fun h => by omega⟩, fun h => absurd rfl h⟩
  · rw [if_neg h2]
    simp only [tick]
    have hclk := (env.clock 0).isLt
    have hmax : (env.clock 0 + BitVec.ofNat 32 timeout).toNat = (env.clock 0).toNat + timeout := by
      rw [BitVec.toNat_add, BitVec.toNat_ofNat, Nat.mod_eq_of_lt (a := timeout) (by omega), Nat.mod_eq_of_lt (by omega)]
    have hle : env.clock 0 ≤ env.clock 0 + BitVec.ofNat 32 timeout := by
      rw [BitVec.le_def, hmax]; omega
    have hsub : env.clock 0 + BitVec.ofNat 32 timeout - env.clock 0 = BitVec.ofNat 32 timeout := by
      rw [BitVec.add_comm, BitVec.add_sub_cancel]
    obtain ⟨x, xs, hx⟩ : ∃ x xs, mem = x :: xs := by
      cases mem with
      | nil => simp at hs; omega
      | cons x xs => exact ⟨x, xs, rfl⟩
    have hst := startLoop_ok env sb (env.clock 0) (env.clock 0 + BitVec.ofNat 32 timeout) hle mem (by rw [hx]; simp)
      fuel (s := ⟨mem, 0 + 1, []⟩) (before := []) ⟨x, by rw [hx]; rfl⟩ (by simp [received]) (by simp) (by simp)
    obtain ⟨u1, u2, u3⟩ := hst
    cases hres : startLoop env sb (env.clock 0) (env.clock 0 + BitVec.ofNat 32 timeout) fuel ⟨mem, 0 + 1, []⟩ with
    | ub => exact absurd hres u1
    | hang => exact ⟨by simp, by simp⟩
    | ok r =>
      obtain ⟨found, s1⟩ := r
      simp only [Res.bind_ok]
      cases found with
      | false =>
        simp only [Bool.false_eq_true, if_false]
        refine ⟨by simp, ?_⟩
        intro n s heq
        simp only [Res.ok.injEq, Prod.mk.injEq] at heq
        obtain ⟨rfl, rfl⟩ := heq
        obtain ⟨⟨y, v1⟩, v2, v3, v4, v5⟩ := u3 s1 hres
        refine ⟨by omega, fun _ => ⟨by rw [v1]; rfl, v2, fun _ => ?_⟩, fun h => absurd rfl h⟩
        rw [hsub] at v4
        exact v4
      | true =>
        simp only [if_true]
        obtain ⟨before, v1, v2, v3, v4⟩ := u2 s1 hres
        have hrest := restLoop_ok env size e (env.clock 0 + BitVec.ofNat 32 timeout) mem before hs sb fuel (post := [])
          v1 (by simp; omega) (by simp)
        refine ⟨hrest.1, ?_⟩
        intro n s heq
        obtain ⟨post, w1, w2, w3, w4, w5⟩ := hrest.2 n s heq
        refine ⟨w3, fun h => by omega, fun _ => ⟨before, post, w1.bytes.symm, v2, w2, ?_, w4, ?_⟩⟩
        · rw [w1.mem_eq, w2]; rfl
        · rcases w5 with w | w | ⟨k, w, w'⟩
          · exact .inl w
          · exact .inr (.inl w)
          · refine .inr (.inr ⟨k, w, ?_⟩)
            rw [BitVec.lt_def, hmax] at w'
            exact w'

/-- The rest of a packet when the first byte of the buffer was not received. -/
theorem restLoop_unstarted (env : Env) (size : Nat) (e : Byte) (maxTime : BitVec 32) (mem : List Byte)
    (hs : size ≤ mem.length) (x : Byte) (fuel : Nat) {s : St} {post : List Byte}
    (hm : s.mem = x :: post ++ mem.drop (post.length + 1)) (hr : received env s.log.length = post)
    (hle : post.length + 1 ≤ size) (he : e ∉ post) :
    restLoop env size e maxTime fuel (post.length + 1) s ≠ .ub ∧
    ∀ n s', restLoop env size e maxTime fuel (post.length + 1) s = .ok (n, s') →
      n = (received env s'.log.length).length + 1 ∧ n ≤ size ∧
      s'.mem = x :: received env s'.log.length ++ mem.drop n ∧ e ∉ (received env s'.log.length).dropLast ∧
      ((received env s'.log.length).getLast? = some e ∨ n = size ∨
        ∃ k, s'.clocks = k + 1 ∧ maxTime < env.clock k) := by
  induction fuel generalizing s post with
  | zero => exact ⟨by simp [restLoop], by simp [restLoop]⟩
  | succ fuel ih =>
    have hdrop : e ∉ post.dropLast := fun hm => he ((List.dropLast_sublist _).subset hm)
    unfold restLoop
    simp only [tick]
    by_cases hlt : env.clock s.clocks ≤ maxTime
    · simp only [hlt, if_true]
      by_cases hp : post.length + 1 = size
      · rw [if_pos hp]
        refine ⟨by simp, ?_⟩
        intro n s' heq
        simp only [Res.ok.injEq, Prod.mk.injEq] at heq
        obtain ⟨rfl, rfl⟩ := heq
        dsimp only
        rw [hr]
        exact ⟨rfl, hle, hm, hdrop, .inr (.inl hp)⟩
      · rw [if_neg hp]
        have hlen : post.length + 1 < s.mem.length := by rw [hm]; simp; omega
        unfold readByte
        cases hrx : env.rx s.log.length with
        | some b =>
          simp only [if_pos hlen, Res.bind_ok, if_true]
          rw [List.getElem?_set_self hlen]
          dsimp only
          have hrec : received env (s.log ++ [(maxTime - env.clock s.clocks, some b)]).length = post ++ [b] := by
            simp only [List.length_append, List.length_singleton]
            rw [received_succ, hrx, hr]
            simp
          have hset : s.mem.set (post.length + 1) b = x :: (post ++ [b]) ++ mem.drop ((post ++ [b]).length + 1) := by
            obtain ⟨y, ys, hy⟩ : ∃ y ys, mem.drop (post.length + 1) = y :: ys := by
              cases hd : mem.drop (post.length + 1) with
              | nil => have := congrArg List.length hd; simp at this; omega
              | cons y ys => exact ⟨y, ys, rfl⟩
            have hy' : mem.drop (post.length + 1 + 1) = ys := by
              rw [← List.drop_drop, hy]; rfl
            rw [hm, hy]
            simp only [List.length_append, List.length_singleton, hy']
            rw [List.set_append_right _ _ (by simp)]
            simp
          by_cases hbe : b = e
          · rw [if_pos hbe]
            refine ⟨by simp, ?_⟩
            intro n s' heq
            simp only [Res.ok.injEq, Prod.mk.injEq] at heq
            obtain ⟨rfl, rfl⟩ := heq
            dsimp only
            rw [hrec]
            exact ⟨by simp, by omega, by rw [hset]; simp, by simpa using he, .inl (by simp [hbe])⟩
          · rw [if_neg hbe]
            have := ih (s := ⟨s.mem.set (post.length + 1) b, s.clocks + 1, s.log ++ [(maxTime - env.clock s.clocks, some b)]⟩)
              hset hrec (by simp; omega) (by
              simp only [List.mem_append, List.mem_singleton, not_or]; exact ⟨he, fun h => hbe h.symm⟩)
            rw [List.length_append, List.length_singleton] at this
            exact this
        | none =>
          simp only [Res.bind_ok, Bool.false_eq_true, if_false]
          refine ih (s := ⟨s.mem, s.clocks + 1, s.log ++ [(maxTime - env.clock s.clocks, none)]⟩) hm ?_ hle he
          simp only [List.length_append, List.length_singleton]
          rw [received_succ, hrx, hr]
          simp
    · simp only [hlt, if_false]
      refine ⟨by simp, ?_⟩
      intro n s' heq
      simp only [Res.ok.injEq, Prod.mk.injEq] at heq
      obtain ⟨rfl, rfl⟩ := heq
      dsimp only
      rw [hr]
      exact ⟨rfl, hle, hm, hdrop, .inr (.inr ⟨s.clocks, rfl, BitVec.not_le.1 hlt⟩)⟩

/-- **C54** when the deadline wraps around the 32-bit counter: no start byte is waited for.  The packet returned consists of
a byte of the buffer that was not received and the bytes delivered by the driver until the end byte, the full buffer, or
the wrapped deadline. -/
theorem receiveBetween_wrap_exact (env : Env) (fuel : Nat) (mem : List Byte) (size : Nat) (sb e : Byte)
    (timeout : Nat) (ht : timeout < 65536) (hs : size ≤ mem.length) (h2 : 2 ≤ size)
    (hw : 4294967296 ≤ (env.clock 0).toNat + timeout) :
    receiveBetween env fuel mem size sb e timeout ≠ .ub ∧
    ∀ n s, receiveBetween env fuel mem size sb e timeout = .ok (n, s) →
      n = (received env s.log.length).length + 1 ∧ n ≤ size ∧
      (∃ x, mem.head? = some x ∧ s.mem = x :: received env s.log.length ++ mem.drop n) ∧
      e ∉ (received env s.log.length).dropLast ∧
      ((received env s.log.length).getLast? = some e ∨ n = size ∨
        ∃ k, s.clocks = k + 1 ∧ (env.clock 0).toNat + timeout - 4294967296 < (env.clock k).toNat) := by
  have hlt := (env.clock 0).isLt
  have hmax : (env.clock 0 + BitVec.ofNat 32 timeout).toNat = (env.clock 0).toNat + timeout - 4294967296 := by
    rw [BitVec.toNat_add, BitVec.toNat_ofNat]; omega
  have hn : ¬ env.clock 0 ≤ env.clock 0 + BitVec.ofNat 32 timeout := by
    rw [BitVec.le_def, hmax]; omega
  obtain ⟨x, xs, rfl⟩ : ∃ x xs, mem = x :: xs := by
    cases mem with
    | nil => simp at hs; omega
    | cons x xs => exact ⟨x, xs, rfl⟩
  unfold receiveBetween
  rw [if_neg (by omega)]
  simp only [tick]
  cases fuel with
  | zero => exact ⟨by simp [startLoop], by simp [startLoop]⟩
  | succ fuel =>
    unfold startLoop
    rw [if_neg hn]
    simp only [Res.bind_ok, if_true]
    have h := restLoop_unstarted env size e (env.clock 0 + BitVec.ofNat 32 timeout) (x :: xs) hs x (fuel + 1)
      (s := ⟨x :: xs, 0 + 1, []⟩) (post := []) rfl rfl (by simp; omega) (by simp)
    refine ⟨h.1, ?_⟩
    intro n s heq
    obtain ⟨k1, k2, k3, k4, k5⟩ := h.2 n s heq
    refine ⟨k1, k2, ⟨x, rfl, k3⟩, k4, ?_⟩
    rcases k5 with k | k | ⟨k, w, w'⟩
    · exact .inl k
    · exact .inr (.inl k)
    · refine .inr (.inr ⟨k, w, ?_⟩)
      rw [BitVec.lt_def, hmax] at w'
      exact w'

/-- If the deadline wraps around the 32-bit counter, `ReceiveBetween` returns 1 without having received anything: the
caller is given an unwritten byte as a packet. -/
theorem receiveBetween_wrap (env : Env) (fuel : Nat) (mem : List Byte) (size : Nat) (hs : 2 ≤ size) (sb e : Byte)
    (timeout : Nat) (ht : timeout < 65536) (hw : 4294967296 ≤ (env.clock 0).toNat + timeout)
    (hc : env.clock 1 = env.clock 0) :
    receiveBetween env (fuel + 1) mem size sb e timeout = .ok (1, ⟨mem, 2, []⟩) := by
  have hlt := (env.clock 0).isLt
  have hn : ¬ env.clock 0 ≤ env.clock 0 + BitVec.ofNat 32 timeout := by
    rw [BitVec.le_def, BitVec.toNat_add, BitVec.toNat_ofNat]
    omega
  unfold receiveBetween
  rw [if_neg (by omega)]
  simp only [tick]
  unfold startLoop
  rw [if_neg hn]
  simp only [Res.bind_ok, if_true]
  unfold restLoop
  simp only [tick]
  have hn' : ¬ env.clock (0 + 1) ≤ env.clock 0 + BitVec.ofNat 32 timeout := by
    show ¬ env.clock 1 ≤ _
    rw [hc]
    exact hn
  simp only [hn', if_false]

/-- The deadline is not enforced while waiting for the start byte: for every `n` there is a run which makes `n + 1`
reads, each allowed to wait for the full time-out, without looking at the clock once. -/
theorem receiveBetween_waits_past_deadline (n : Nat) (mem : List Byte) (size : Nat) (h2 : 2 ≤ size)
    (hs : size ≤ mem.length) (sb e : Byte) (timeout : Nat) :
    ∃ env s, env.clock = (fun _ => 0) ∧
      receiveBetween env (n + 1) mem size sb e timeout = .ok (0, s) ∧ s.clocks = 1 ∧
      s.log = List.replicate n (BitVec.ofNat 32 timeout, some (sb + 1)) ++ [(BitVec.ofNat 32 timeout, none)] := by
  let env : Env := ⟨fun _ => 0, fun k => if k < n then some (sb + 1) else none⟩
  have hmax : ∀ x : BitVec 32, (0 : BitVec 32) + x = x := fun x => BitVec.zero_add x
  have hne : sb + 1 ≠ sb := by
    intro h
    have := congrArg BitVec.toNat h
    rw [BitVec.toNat_add] at this
    have := sb.isLt
    have h1 : (1 : Byte).toNat = 1 := rfl
    omega
  have key : ∀ fuel j (m : List Byte), m ≠ [] → fuel + j = n + 1 → 0 < fuel →
      ∃ m', startLoop env sb 0 (BitVec.ofNat 32 timeout) fuel
        ⟨m, 1, List.replicate j (BitVec.ofNat 32 timeout, some (sb + 1))⟩ = .ok (false, ⟨m', 1,
          List.replicate n (BitVec.ofNat 32 timeout, some (sb + 1)) ++ [(BitVec.ofNat 32 timeout, none)]⟩) := by
    intro fuel
    induction fuel with
    | zero => intros; omega
    | succ fuel ih =>
      intro j m hm hj _
      unfold startLoop
      rw [if_pos (by rw [BitVec.le_def]; exact Nat.zero_le _)]
      unfold readByte
      simp only [List.length_replicate]
      have hsub : BitVec.ofNat 32 timeout - 0 = BitVec.ofNat 32 timeout := BitVec.sub_zero _
      by_cases hjn : j < n
      · have hr : env.rx j = some (sb + 1) := if_pos hjn
        rw [hr]
        simp only
        rw [if_pos (List.length_pos_iff.2 hm)]
        obtain ⟨a, as, rfl⟩ : ∃ a as, m = a :: as := by
          cases m with
          | nil => exact absurd rfl hm
          | cons a as => exact ⟨a, as, rfl⟩
        simp only [Res.bind_ok, if_true, List.set_cons_zero, List.getElem?_cons_zero, if_neg hne, hsub]
        have hrep : List.replicate j (BitVec.ofNat 32 timeout, some (sb + 1)) ++
            [(BitVec.ofNat 32 timeout, some (sb + 1))] = List.replicate (j + 1) (BitVec.ofNat 32 timeout, some (sb + 1)) :=
          List.replicate_succ'.symm
        rw [hrep]
        exact ih (j + 1) _ (by simp) (by omega) (by omega)
      · have hr : env.rx j = none := if_neg hjn
        rw [hr]
        simp only [Res.bind_ok, Bool.false_eq_true, if_false, hsub]
        have : j = n := by omega
        subst this
        exact ⟨m, rfl⟩
  obtain ⟨m', hm'⟩ := key (n + 1) 0 mem (by intro h; rw [h] at hs; simp at hs; omega) (by omega) (by omega)
  refine ⟨env, ⟨m', 1, List.replicate n (BitVec.ofNat 32 timeout, some (sb + 1)) ++
    [(BitVec.ofNat 32 timeout, none)]⟩, rfl, ?_, rfl, rfl⟩
  unfold receiveBetween
  rw [if_neg (by omega)]
  simp only [tick]
  have h0 : env.clock 0 = 0 := rfl
  simp only [h0, hmax]
  rw [show (⟨mem, 0 + 1, []⟩ : St) = ⟨mem, 1, List.replicate 0 (BitVec.ofNat 32 timeout, some (sb + 1))⟩ from rfl, hm']
  simp only [Res.bind_ok, Bool.false_eq_true, if_false]

/-- With the default time-out of zero `ReceiveBetween` does not wait at all. -/
theorem receiveBetween_zero_timeout (env : Env) (h : env.rx 0 = none) (fuel : Nat) (mem : List Byte) (size : Nat)
    (sb e : Byte) : ∃ s, receiveBetween env (fuel + 1) mem size sb e 0 = .ok (0, s) ∧ s.mem = mem := by
  unfold receiveBetween
  split
  · exact ⟨_, rfl, rfl⟩
  · simp only [tick]
    unfold startLoop
    have h0 : env.clock 0 + BitVec.ofNat 32 0 = env.clock 0 := BitVec.add_zero _
    rw [h0, if_pos (BitVec.le_refl _)]
    simp only [readByte, List.length_nil, h, Res.bind_ok, Bool.false_eq_true, if_false]
    exact ⟨_, rfl, rfl⟩

/-- A concrete run: noise, a packet, more bytes left for later. -/
example : receiveBetween (feed [9, 8, 2, 5, 3, 7] 100) 10 [0, 0, 0, 0] 4 2 3 20 =
    .ok (3, ⟨[2, 5, 3, 0], 3, [(20, some 9), (20, some 8), (20, some 2), (20, some 5), (20, some 3)]⟩) := by decide

/-- A driver error is reported by `Receive` and `Send` as 65535 transferred bytes, more than any buffer asked for
except one of that size. -/
theorem error_reported_as_count : countResult (-1) = 65535 := by decide

/-- Otherwise the driver's count is passed on. -/
theorem count_passed_on (n : Nat) (h : n < 65536) : countResult n = n := by
  unfold countResult
  rw [BitVec.ofInt_natCast, BitVec.toNat_ofNat]
  exact Nat.mod_eq_of_lt h

end Verif.Uart.Esp
