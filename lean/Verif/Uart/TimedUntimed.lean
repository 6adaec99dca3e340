import Verif.Uart.Timed
/-!
# C114: every timed run is a run of the untimed models
-/
namespace Verif.Uart.Timed
open Verif
open Verif.Uart.Esp (Env St)

/-- The environment answers as the wire has answered up to `s`. -/
def Answers (env : Env) (s : TSt) : Prop :=
  (∀ k c, s.clocks[k]? = some c → env.clock k = c) ∧ (∀ k d o, s.log[k]? = some (d, o) → env.rx k = o)

/-- `s'` comes after `s`. -/
def After (s s' : TSt) : Prop := s.clocks <+: s'.clocks ∧ s.log <+: s'.log

theorem After.refl (s : TSt) : After s s := ⟨List.prefix_refl _, List.prefix_refl _⟩

theorem After.trans {a b c : TSt} (h : After a b) (h' : After b c) : After a c := ⟨h.1.trans h'.1, h.2.trans h'.2⟩

theorem Answers.before {env : Env} {s s' : TSt} (h : Answers env s') (ha : After s s') : Answers env s := by
  obtain ⟨⟨x, hx⟩, ⟨y, hy⟩⟩ := ha
  constructor
  · intro k c hk
    refine h.1 k c ?_
    have hl : k < s.clocks.length := by
      by_contra hn
      rw [List.getElem?_eq_none (by omega)] at hk
      exact absurd hk (by simp)
    rw [← hx, List.getElem?_append_left hl, hk]
  · intro k d o hk
    refine h.2 k d o ?_
    have hl : k < s.log.length := by
      by_contra hn
      rw [List.getElem?_eq_none (by omega)] at hk
      exact absurd hk (by simp)
    rw [← hy, List.getElem?_append_left hl, hk]

theorem tick_after (w : Wire) (s : TSt) : After s (tickT w s).2 := ⟨List.prefix_append _ _, List.prefix_refl _⟩

theorem tick_untimed {env : Env} {w : Wire} {s : TSt} (h : Answers env (tickT w s).2) :
    Esp.tick env s.untimed = ((tickT w s).1, (tickT w s).2.untimed) := by
  have := h.1 s.clocks.length (BitVec.ofNat 32 (s.now / 1000)) (by simp [tickT])
  simp [Esp.tick, TSt.untimed, tickT, this]

theorem next_after (w : Wire) (s : TSt) (d : Nat) (x : BitVec 32) : After s (nextT w s d x).2 := by
  unfold nextT
  split
  · split
    · exact ⟨List.prefix_refl _, List.prefix_append _ _⟩
    · exact ⟨List.prefix_refl _, List.prefix_append _ _⟩
  · exact ⟨List.prefix_refl _, List.prefix_append _ _⟩

theorem next_rx {env : Env} {w : Wire} {s : TSt} {d : Nat} {x : BitVec 32} (h : Answers env (nextT w s d x).2) :
    env.rx s.log.length = (nextT w s d x).1 := by
  obtain ⟨h1, -, -⟩ := next_log w s d x
  exact h.2 s.log.length x _ (by rw [h1]; simp)

theorem read_after {w : Wire} {s : TSt} {pos : Nat} {d : BitVec 32} {g : Bool} {s' : TSt}
    (h : readByteT w s pos d = .ok (g, s')) : After s s' := by
  have ha := next_after w s d.toNat d
  unfold readByteT at h
  revert h ha
  rcases nextT w s d.toNat d with ⟨o, s1⟩
  cases o with
  | none => intro h ha; cases h; exact ha
  | some b =>
    intro h ha
    simp only at h
    split at h
    · cases h; exact ha
    · cases h

theorem read_untimed {env : Env} {w : Wire} {s : TSt} {pos : Nat} {d : BitVec 32} {g : Bool} {s' : TSt}
    (h : readByteT w s pos d = .ok (g, s')) (ha : Answers env s') :
    Esp.readByte env s.untimed pos d = .ok (g, s'.untimed) := by
  have hl := next_log w s d.toNat d
  have hr := @next_rx env w s d.toNat d
  unfold readByteT at h
  unfold Esp.readByte
  revert h hl hr
  rcases nextT w s d.toNat d with ⟨o, s1⟩
  intro h hl hr
  simp only at hl
  cases o with
  | none =>
    simp only at h
    cases h
    have hrx := hr ha
    simp only [TSt.untimed] at hrx ⊢
    rw [hrx]
    simp [hl.1, hl.2.1, hl.2.2]
  | some b =>
    simp only at h
    split at h
    · rename_i hp
      cases h
      have hrx := hr ha
      rw [hl.2.1] at hp
      simp only [TSt.untimed] at hrx ⊢
      rw [hrx]
      simp [hl.1, hl.2.1, hl.2.2, hp]
    · cases h

theorem untilLoop_untimed {env : Env} {w : Wire} {size : Nat} {e : Byte} {timeout : Nat} {maxTime : BitVec 32}
    {fuel pos : Nat} {start : BitVec 32} {s : TSt} {r : Nat} {s' : TSt}
    (h : untilLoopT w size e timeout maxTime fuel pos start s = .ok (r, s')) :
    After s s' ∧ (Answers env s' →
      Esp.untilLoop env size e timeout maxTime fuel pos start s.untimed = .ok (r, s'.untimed)) := by
  induction fuel generalizing pos start s with
  | zero => cases h
  | succ fuel ih =>
    unfold untilLoopT at h
    unfold Esp.untilLoop
    by_cases hp : pos < size
    · rw [if_pos hp] at h
      rw [if_pos hp]
      -- the state after the clock reading
      obtain ⟨start1, s1, hs1, hafter, hun⟩ : ∃ start1 s1, (if timeout = 0 then (start, s) else tickT w s) = (start1, s1) ∧
          After s s1 ∧ (Answers env s1 → (if timeout = 0 then (start, s.untimed) else Esp.tick env s.untimed)
            = (start1, s1.untimed)) := by
        by_cases ht : timeout = 0
        · simp only [ht, if_true]
          exact ⟨_, _, rfl, After.refl _, fun _ => rfl⟩
        · simp only [ht, if_false]
          exact ⟨_, _, rfl, tick_after w s, fun h => tick_untimed h⟩
      rw [hs1] at h
      simp only at h
      by_cases hc : timeout = 0 ∨ start1 < maxTime
      · rw [if_pos hc] at h
        obtain ⟨⟨g, s2⟩, hr, h⟩ := Res.bind_eq_ok.mp h
        have ha2 := read_after hr
        simp only at h
        cases g with
        | true =>
          simp only [if_true] at h
          cases hm : s2.mem[pos]? with
          | none => rw [hm] at h; cases h
          | some b =>
            rw [hm] at h
            simp only at h
            by_cases hb : b = e
            · rw [if_pos hb] at h
              cases h
              refine ⟨hafter.trans ha2, fun ha => ?_⟩
              rw [hun (ha.before ha2)]
              simp only
              rw [if_pos hc, read_untimed hr ha]
              simp [TSt.untimed, hm, hb]
            · rw [if_neg hb] at h
              obtain ⟨k1, k2⟩ := ih h
              refine ⟨(hafter.trans ha2).trans k1, fun ha => ?_⟩
              rw [hun (ha.before (ha2.trans k1))]
              simp only
              rw [if_pos hc, read_untimed hr (ha.before k1), ← k2 ha]
              simp [TSt.untimed, hm, hb]
        | false =>
          simp only [Bool.false_eq_true, if_false] at h
          obtain ⟨k1, k2⟩ := ih h
          refine ⟨(hafter.trans ha2).trans k1, fun ha => ?_⟩
          rw [hun (ha.before (ha2.trans k1))]
          simp only
          rw [if_pos hc, read_untimed hr (ha.before k1), ← k2 ha]
          simp
      · rw [if_neg hc] at h
        cases h
        refine ⟨hafter, fun ha => ?_⟩
        rw [hun ha]
        simp only
        rw [if_neg hc]
    · rw [if_neg hp] at h
      rw [if_neg hp]
      cases h
      exact ⟨After.refl _, fun _ => rfl⟩

/-- A timed `ReceiveUntil` is a run of the untimed model. -/
theorem receiveUntil_untimed (env : Env) (w : Wire) (fuel : Nat) (mem : List Byte) (now ops taken size : Nat) (e : Byte)
    (timeout r : Nat) (s : TSt) (h : receiveUntilT w fuel (begin mem now ops taken) size e timeout = .ok (r, s))
    (ha : Answers env s) : Esp.receiveUntil env fuel mem size e timeout = .ok (r, s.untimed) := by
  unfold receiveUntilT at h
  simp only at h
  obtain ⟨k1, k2⟩ := untilLoop_untimed (env := env) h
  unfold Esp.receiveUntil
  have := tick_untimed (ha.before k1)
  rw [show (⟨mem, 0, []⟩ : St) = (begin mem now ops taken).untimed from rfl, this]
  exact k2 ha

theorem startLoop_untimed {env : Env} {w : Wire} {sb : Byte} {start maxTime : BitVec 32} {fuel : Nat} {s : TSt}
    {f : Bool} {s' : TSt} (h : startLoopT w sb start maxTime fuel s = .ok (f, s')) :
    After s s' ∧ (Answers env s' → Esp.startLoop env sb start maxTime fuel s.untimed = .ok (f, s'.untimed)) := by
  induction fuel generalizing s with
  | zero => cases h
  | succ fuel ih =>
    unfold startLoopT at h
    unfold Esp.startLoop
    by_cases hc : start ≤ maxTime
    · rw [if_pos hc] at h
      rw [if_pos hc]
      obtain ⟨⟨g, s2⟩, hr, h⟩ := Res.bind_eq_ok.mp h
      have ha2 := read_after hr
      simp only at h
      cases g with
      | true =>
        simp only [if_true] at h
        cases hm : s2.mem[0]? with
        | none => rw [hm] at h; cases h
        | some b =>
          rw [hm] at h
          simp only at h
          by_cases hb : b = sb
          · rw [if_pos hb] at h
            cases h
            refine ⟨ha2, fun ha => ?_⟩
            rw [read_untimed hr ha]
            simp [TSt.untimed, hm, hb]
          · rw [if_neg hb] at h
            obtain ⟨k1, k2⟩ := ih h
            refine ⟨ha2.trans k1, fun ha => ?_⟩
            rw [read_untimed hr (ha.before k1), ← k2 ha]
            simp [TSt.untimed, hm, hb]
      | false =>
        simp only [Bool.false_eq_true, if_false] at h
        cases h
        refine ⟨ha2, fun ha => ?_⟩
        rw [read_untimed hr ha]
        simp
    · rw [if_neg hc] at h
      rw [if_neg hc]
      cases h
      exact ⟨After.refl _, fun _ => rfl⟩

theorem restLoop_untimed {env : Env} {w : Wire} {size : Nat} {e : Byte} {maxTime : BitVec 32} {fuel pos : Nat} {s : TSt}
    {r : Nat} {s' : TSt} (h : restLoopT w size e maxTime fuel pos s = .ok (r, s')) :
    After s s' ∧ (Answers env s' → Esp.restLoop env size e maxTime fuel pos s.untimed = .ok (r, s'.untimed)) := by
  induction fuel generalizing pos s with
  | zero => cases h
  | succ fuel ih =>
    unfold restLoopT at h
    unfold Esp.restLoop
    have ha1 := tick_after w s
    have hun := @tick_untimed env w s
    revert h ha1 hun
    rcases tickT w s with ⟨start, s1⟩
    intro h ha1 hun
    simp only at h ha1 hun
    by_cases hc : start ≤ maxTime
    · rw [if_pos hc] at h
      by_cases hp : pos = size
      · rw [if_pos hp] at h
        cases h
        refine ⟨ha1, fun ha => ?_⟩
        rw [hun ha]
        simp only
        rw [if_pos hc, if_pos hp]
      · rw [if_neg hp] at h
        obtain ⟨⟨g, s2⟩, hr, h⟩ := Res.bind_eq_ok.mp h
        have ha2 := read_after hr
        simp only at h
        cases g with
        | true =>
          simp only [if_true] at h
          cases hm : s2.mem[pos]? with
          | none => rw [hm] at h; cases h
          | some b =>
            rw [hm] at h
            simp only at h
            by_cases hb : b = e
            · rw [if_pos hb] at h
              cases h
              refine ⟨ha1.trans ha2, fun ha => ?_⟩
              rw [hun (ha.before ha2)]
              simp only
              rw [if_pos hc, if_neg hp, read_untimed hr ha]
              simp [TSt.untimed, hm, hb]
            · rw [if_neg hb] at h
              obtain ⟨k1, k2⟩ := ih h
              refine ⟨(ha1.trans ha2).trans k1, fun ha => ?_⟩
              rw [hun (ha.before (ha2.trans k1))]
              simp only
              rw [if_pos hc, if_neg hp, read_untimed hr (ha.before k1), ← k2 ha]
              simp [TSt.untimed, hm, hb]
        | false =>
          simp only [Bool.false_eq_true, if_false] at h
          obtain ⟨k1, k2⟩ := ih h
          refine ⟨(ha1.trans ha2).trans k1, fun ha => ?_⟩
          rw [hun (ha.before (ha2.trans k1))]
          simp only
          rw [if_pos hc, if_neg hp, read_untimed hr (ha.before k1), ← k2 ha]
          simp
    · rw [if_neg hc] at h
      cases h
      refine ⟨ha1, fun ha => ?_⟩
      rw [hun ha]
      simp only
      rw [if_neg hc]

/-- A timed `ReceiveBetween` is a run of the untimed model. -/
theorem receiveBetween_untimed (env : Env) (w : Wire) (fuel : Nat) (mem : List Byte) (now ops taken size : Nat)
    (sb e : Byte) (timeout r : Nat) (s : TSt)
    (h : receiveBetweenT w fuel (begin mem now ops taken) size sb e timeout = .ok (r, s)) (ha : Answers env s) :
    Esp.receiveBetween env fuel mem size sb e timeout = .ok (r, s.untimed) := by
  unfold receiveBetweenT at h
  unfold Esp.receiveBetween
  by_cases hz : size < 2
  · rw [if_pos hz] at h
    rw [if_pos hz]
    cases h
    rfl
  · rw [if_neg hz] at h
    rw [if_neg hz]
    simp only at h
    obtain ⟨⟨f, s2⟩, hr, h⟩ := Res.bind_eq_ok.mp h
    obtain ⟨a1, u1⟩ := startLoop_untimed (env := env) hr
    have hu := @tick_untimed env w (begin mem now ops taken)
    rw [show (begin mem now ops taken).untimed = ⟨mem, 0, []⟩ from rfl] at hu
    simp only at h
    cases f with
    | true =>
      simp only [if_true] at h
      obtain ⟨k1, k2⟩ := restLoop_untimed (env := env) h
      rw [hu (ha.before (a1.trans k1))]
      simp only
      rw [u1 (ha.before k1)]
      simp only [Res.bind_ok, if_true]
      exact k2 ha
    | false =>
      simp only [Bool.false_eq_true, if_false] at h
      cases h
      rw [hu (ha.before a1)]
      simp only
      rw [u1 ha]
      simp

theorem receiveLoop_untimed {env : Env} {w : Wire} {size : Nat} {maxTime : BitVec 32} {fuel pos : Nat} {s : TSt}
    {r : Nat} {s' : TSt} (h : receiveLoopT w size maxTime fuel pos s = .ok (r, s')) :
    After s s' ∧ (Answers env s' → Arduino.receiveLoop env size maxTime fuel pos s.untimed = .ok (r, s'.untimed)) := by
  induction fuel generalizing pos s with
  | zero => cases h
  | succ fuel ih =>
    unfold receiveLoopT at h
    unfold Arduino.receiveLoop
    have ha1 := tick_after w s
    have hun := @tick_untimed env w s
    revert h ha1 hun
    rcases tickT w s with ⟨now, s1⟩
    intro h ha1 hun
    simp only at h ha1 hun
    by_cases hc : now < maxTime ∧ pos < size
    · rw [if_pos hc] at h
      obtain ⟨⟨g, s2⟩, hr, h⟩ := Res.bind_eq_ok.mp h
      have ha2 := read_after hr
      simp only at h
      cases g with
      | true =>
        simp only [if_true] at h
        obtain ⟨k1, k2⟩ := ih h
        refine ⟨(ha1.trans ha2).trans k1, fun ha => ?_⟩
        rw [hun (ha.before (ha2.trans k1))]
        simp only
        rw [if_pos hc, read_untimed hr (ha.before k1), ← k2 ha]
        simp
      | false =>
        simp only [Bool.false_eq_true, if_false] at h
        obtain ⟨k1, k2⟩ := ih h
        have hd : After s2 (delayT w s2) := ⟨List.prefix_refl _, List.prefix_refl _⟩
        refine ⟨((ha1.trans ha2).trans hd).trans k1, fun ha => ?_⟩
        rw [hun (ha.before ((ha2.trans hd).trans k1))]
        simp only
        rw [if_pos hc, read_untimed hr (ha.before (hd.trans k1)), ← k2 ha]
        simp [TSt.untimed, delayT]
    · rw [if_neg hc] at h
      cases h
      refine ⟨ha1, fun ha => ?_⟩
      rw [hun ha]
      simp only
      rw [if_neg hc]

/-- A timed `Receive` is a run of the untimed model. -/
theorem receive_untimed (env : Env) (w : Wire) (fuel : Nat) (mem : List Byte) (now ops taken size timeout r : Nat)
    (s : TSt) (h : receiveT w fuel (begin mem now ops taken) size timeout = .ok (r, s)) (ha : Answers env s) :
    Arduino.receive env fuel mem size timeout = .ok (r, s.untimed) := by
  unfold receiveT at h
  simp only at h
  obtain ⟨k1, k2⟩ := receiveLoop_untimed (env := env) h
  unfold Arduino.receive
  rw [show (⟨mem, 0, []⟩ : St) = (begin mem now ops taken).untimed from rfl, tick_untimed (ha.before k1)]
  exact k2 ha

theorem readUntil_untimed {env : Env} {w : Wire} {d : Nat} {e : Byte} {base n i : Nat} {s : TSt} {r : Nat} {s' : TSt}
    (h : readUntilT w d e base n i s = .ok (r, s')) :
    After s s' ∧ (Answers env s' → Arduino.readUntil env e base n i s.untimed = .ok (r, s'.untimed)) := by
  induction n generalizing i s with
  | zero =>
    cases h
    exact ⟨After.refl _, fun _ => rfl⟩
  | succ n ih =>
    unfold readUntilT at h
    unfold Arduino.readUntil
    have ha1 := next_after w s d 0
    have hl := next_log w s d 0
    have hr := @next_rx env w s d 0
    revert h ha1 hl hr
    rcases nextT w s d 0 with ⟨o, s1⟩
    intro h ha1 hl hr
    simp only at h ha1 hl hr
    cases o with
    | none =>
      cases h
      refine ⟨ha1, fun ha => ?_⟩
      simp only [TSt.untimed]
      rw [hr ha]
      simp [hl.1, hl.2.1, hl.2.2]
    | some c =>
      simp only at h
      by_cases hc : c = e
      · rw [if_pos hc] at h
        cases h
        refine ⟨ha1, fun ha => ?_⟩
        simp only [TSt.untimed]
        rw [hr ha]
        simp [hl.1, hl.2.1, hl.2.2, hc]
      · rw [if_neg hc] at h
        split at h
        · rename_i hb
          obtain ⟨k1, k2⟩ := ih h
          have hd : After s1 { s1 with mem := s1.mem.set (base + i) c } := ⟨List.prefix_refl _, List.prefix_refl _⟩
          refine ⟨(ha1.trans hd).trans k1, fun ha => ?_⟩
          rw [hl.2.1] at hb
          rw [← k2 ha]
          simp only [TSt.untimed]
          rw [hr (ha.before (hd.trans k1))]
          simp [hl.1, hl.2.1, hl.2.2, hc, hb]
        · cases h

/-- A timed `ReceiveUntil` on Arduino is a run of the untimed model. -/
theorem receiveUntilA_untimed (env : Env) (w : Wire) (old : Nat) (mem : List Byte) (now ops taken size : Nat) (e : Byte)
    (timeout r : Nat) (s : TSt) (h : receiveUntilAT w old (begin mem now ops taken) size e timeout = .ok (r, s))
    (ha : Answers env s) : Arduino.receiveUntilS env mem size e = .ok (r, s.untimed) := by
  unfold receiveUntilAT at h
  obtain ⟨⟨n, s1⟩, h1, h⟩ := Res.bind_eq_ok.mp h
  obtain ⟨m, h2, h⟩ := Res.bind_eq_ok.mp h
  obtain ⟨k1, k2⟩ := readUntil_untimed (env := env) h1
  cases h
  have ha1 : Answers env s1 := ha
  unfold Arduino.receiveUntilS
  rw [show (⟨mem, 0, []⟩ : St) = (begin mem now ops taken).untimed from rfl, k2 ha1]
  simp only [Res.bind_ok]
  rw [show s1.untimed.mem = s1.mem from rfl, h2]
  rfl

theorem startA_untimed {env : Env} {w : Wire} {sb : Byte} {timeout : Nat} {maxTime : BitVec 32} {fuel : Nat} {s : TSt}
    {f : Bool} {s' : TSt} (h : startAT w sb timeout maxTime fuel s = .ok (f, s')) :
    After s s' ∧ (Answers env s' → Arduino.startS env sb timeout maxTime fuel s.untimed = .ok (f, s'.untimed)) := by
  induction fuel generalizing s with
  | zero => cases h
  | succ fuel ih =>
    unfold startAT at h
    unfold Arduino.startS
    obtain ⟨g, s1, hs1, hafter, hun⟩ : ∃ g s1, (if timeout = 0 then (true, s) else
          (decide ((tickT w s).1 < maxTime), (tickT w s).2)) = (g, s1) ∧ After s s1 ∧
        (Answers env s1 → (if timeout = 0 then (true, s.untimed) else
          (decide (env.clock s.untimed.clocks < maxTime), (Esp.tick env s.untimed).2)) = (g, s1.untimed)) := by
      by_cases ht : timeout = 0
      · simp only [ht, if_true]
        exact ⟨_, _, rfl, After.refl _, fun _ => rfl⟩
      · simp only [ht, if_false]
        refine ⟨_, _, rfl, tick_after w s, fun h => ?_⟩
        have hu := tick_untimed h
        rw [hu]
        have : env.clock s.untimed.clocks = (tickT w s).1 := congrArg Prod.fst hu
        rw [this]
    rw [hs1] at h
    simp only at h
    cases g with
    | false =>
      simp only [Bool.false_eq_true, if_false] at h
      cases h
      refine ⟨hafter, fun ha => ?_⟩
      rw [hun ha]
      simp
    | true =>
      simp only [if_true] at h
      have ha1 := next_after w s1 0 0
      have hl := next_log w s1 0 0
      have hr := @next_rx env w s1 0 0
      have hst : ({ s1.untimed with log := s1.untimed.log ++ [(0, (nextT w s1 0 0).1)] } : St) =
          (nextT w s1 0 0).2.untimed := by
        simp only [TSt.untimed, hl.1, hl.2.1, hl.2.2]
      by_cases hb : (nextT w s1 0 0).1 = some sb
      · rw [if_pos hb] at h
        cases h
        refine ⟨hafter.trans ha1, fun ha => ?_⟩
        rw [hun (ha.before ha1)]
        simp only [if_true]
        rw [show env.rx s1.untimed.log.length = (nextT w s1 0 0).1 from hr ha, if_pos hb, hst]
      · rw [if_neg hb] at h
        obtain ⟨k1, k2⟩ := ih h
        refine ⟨(hafter.trans ha1).trans k1, fun ha => ?_⟩
        rw [hun (ha.before (ha1.trans k1))]
        simp only [if_true]
        rw [show env.rx s1.untimed.log.length = (nextT w s1 0 0).1 from hr (ha.before k1), if_neg hb, hst]
        exact k2 ha

/-- A timed `ReceiveBetween` on Arduino is a run of the untimed model. -/
theorem receiveBetweenA_untimed (env : Env) (w : Wire) (old fuel : Nat) (mem : List Byte) (now ops taken size : Nat)
    (sb e : Byte) (timeout r : Nat) (s : TSt)
    (h : receiveBetweenAT w old fuel (begin mem now ops taken) size sb e timeout = .ok (r, s)) (ha : Answers env s) :
    Arduino.receiveBetweenS env fuel mem size sb e timeout = .ok (r, s.untimed) := by
  unfold receiveBetweenAT at h
  simp only at h
  obtain ⟨⟨f, s2⟩, hr, h⟩ := Res.bind_eq_ok.mp h
  obtain ⟨a1, u1⟩ := startA_untimed (env := env) hr
  have hu := @tick_untimed env w (begin mem now ops taken)
  rw [show (begin mem now ops taken).untimed = ⟨mem, 0, []⟩ from rfl] at hu
  unfold Arduino.receiveBetweenS
  simp only at h
  cases f with
  | true =>
    simp only [if_true] at h
    obtain ⟨m1, h1, h⟩ := Res.bind_eq_ok.mp h
    obtain ⟨⟨n, s3⟩, h3, h⟩ := Res.bind_eq_ok.mp h
    obtain ⟨m3, h4, h⟩ := Res.bind_eq_ok.mp h
    obtain ⟨k1, k2⟩ := readUntil_untimed (env := env) h3
    cases h
    have ha3 : Answers env s3 := ha
    have hd : After s2 { s2 with mem := m1 } := ⟨List.prefix_refl _, List.prefix_refl _⟩
    rw [hu (ha3.before ((a1.trans hd).trans k1))]
    simp only
    rw [u1 (ha3.before (hd.trans k1))]
    simp only [Res.bind_ok, if_true]
    rw [show s2.untimed.mem = s2.mem from rfl, h1]
    simp only [Res.bind_ok]
    rw [show ({ s2.untimed with mem := m1 } : St) = ({ s2 with mem := m1 } : TSt).untimed from rfl, k2 ha3]
    simp only [Res.bind_ok]
    rw [show s3.untimed.mem = s3.mem from rfl, h4]
    rfl
  | false =>
    simp only [Bool.false_eq_true, if_false] at h
    cases h
    rw [hu (ha.before a1)]
    simp only
    rw [u1 ha]
    simp

/-- Every state has an environment which answers as the wire has. -/
theorem answers_exists (s : TSt) : ∃ env, Answers env s := by
  refine ⟨⟨fun k => (s.clocks[k]?).getD 0, fun k => ((s.log[k]?).map Prod.snd).join⟩, ?_, ?_⟩
  · intro k c h
    simp [h]
  · intro k d o h
    simp [h]

end Verif.Uart.Timed
