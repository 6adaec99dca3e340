import Verif.Hal.Adc
/-!
# C64: analog pins on the ESP32
-/
namespace Verif.Hal.Adc
open Verif

/-- The map assigns channel `j` of unit `i` to the pin. -/
def Assigned (map : Map) (pin : BitVec 8) (i j : Nat) : Prop := ∃ u, map[i]? = some u ∧ u[j]? = some (pin.toNat : Int)

theorem findChannel_some {pin : BitVec 8} {u : List Int} {o j : Nat} (h : findChannel pin u o = some j) :
    o ≤ j ∧ u[j - o]? = some (pin.toNat : Int) ∧ ∀ k, k < j - o → u[k]? ≠ some (pin.toNat : Int) := by
  induction u generalizing o with
  | nil => simp [findChannel] at h
  | cons p ps ih =>
    unfold findChannel at h
    by_cases hp : p = pin.toNat
    · rw [if_pos hp] at h
      cases h
      simp [hp]
    · rw [if_neg hp] at h
      obtain ⟨h1, h2, h3⟩ := ih h
      refine ⟨by omega, ?_, ?_⟩
      · rw [show j - o = (j - (o + 1)) + 1 by omega, List.getElem?_cons_succ]; exact h2
      · intro k hk
        cases k with
        | zero => simpa using hp
        | succ k => rw [List.getElem?_cons_succ]; exact h3 k (by omega)

theorem findChannel_none {pin : BitVec 8} {u : List Int} {o : Nat} :
    findChannel pin u o = none ↔ ∀ k : Nat, u[k]? ≠ some (pin.toNat : Int) := by
  induction u generalizing o with
  | nil => simp [findChannel]
  | cons p ps ih =>
    unfold findChannel
    by_cases hp : p = pin.toNat
    · rw [if_pos hp]
      constructor
      · intro h; cases h
      · intro h; exact absurd (by simp [hp]) (h 0)
    · rw [if_neg hp, ih]
      constructor
      · intro h k
        cases k with
        | zero => simpa using hp
        | succ k => rw [List.getElem?_cons_succ]; exact h k
      · intro h k
        have := h (k + 1)
        rwa [List.getElem?_cons_succ] at this

theorem findUnit_some {pin : BitVec 8} {map : Map} {o i j : Nat} (h : findUnit pin map o = some (i, j)) :
    o ≤ i ∧ Assigned map pin (i - o) j ∧ ∀ i' j', Assigned map pin i' j' → i - o < i' ∨ i' = i - o ∧ j ≤ j' := by
  induction map generalizing o with
  | nil => simp [findUnit] at h
  | cons u us ih =>
    unfold findUnit at h
    cases hc : findChannel pin u 0 with
    | some c =>
      simp only [hc, Option.some.injEq, Prod.mk.injEq] at h
      obtain ⟨rfl, rfl⟩ := h
      obtain ⟨-, h2, h3⟩ := findChannel_some hc
      refine ⟨Nat.le_refl _, ⟨u, by simp, by simpa using h2⟩, ?_⟩
      rintro i' j' ⟨u', hu, hj⟩
      cases i' with
      | zero =>
        right
        simp only [List.getElem?_cons_zero, Option.some.injEq] at hu
        subst hu
        refine ⟨by omega, ?_⟩
        rcases Nat.lt_or_ge j' c with hlt | hge
        · exact absurd hj (h3 j' (by omega))
        · exact hge
      | succ i' => left; omega
    | none =>
      simp only [hc] at h
      obtain ⟨h1, ⟨u', hu, hj⟩, h3⟩ := ih h
      refine ⟨by omega, ⟨u', ?_, hj⟩, ?_⟩
      · rw [show i - o = (i - (o + 1)) + 1 by omega, List.getElem?_cons_succ]; exact hu
      · rintro i' j' ⟨v, hv, hvj⟩
        cases i' with
        | zero =>
          simp only [List.getElem?_cons_zero, Option.some.injEq] at hv
          subst hv
          exact absurd hvj (findChannel_none.1 hc j')
        | succ i' =>
          rw [List.getElem?_cons_succ] at hv
          rcases h3 i' j' ⟨v, hv, hvj⟩ with h | h
          · left; omega
          · right; omega

theorem findUnit_none {pin : BitVec 8} {map : Map} {o : Nat} :
    findUnit pin map o = none ↔ ∀ i j, ¬ Assigned map pin i j := by
  induction map generalizing o with
  | nil => simp [findUnit, Assigned]
  | cons u us ih =>
    unfold findUnit
    cases hc : findChannel pin u 0 with
    | some c =>
      obtain ⟨-, h2, -⟩ := findChannel_some hc
      constructor
      · intro h; cases h
      · intro h; exact absurd ⟨u, by simp, by simpa using h2⟩ (h 0 c)
    | none =>
      simp only
      rw [ih]
      constructor
      · intro h i j
        rintro ⟨v, hv, hvj⟩
        cases i with
        | zero =>
          simp only [List.getElem?_cons_zero, Option.some.injEq] at hv
          subst hv
          exact findChannel_none.1 hc j hvj
        | succ i => exact h i j ⟨v, by simpa using hv, hvj⟩
      · intro h i j
        rintro ⟨v, hv, hvj⟩
        exact h (i + 1) j ⟨v, by simpa using hv, hvj⟩

/-- **C64**: the channel found for a pin is assigned to it by the map, and is the first one. -/
theorem lookup_sound {map : Map} {pinCount : Nat} {pin : BitVec 8} {i j : Nat} (h : lookup map pinCount pin = some (i, j)) :
    Assigned map pin i j ∧ pin.toNat < pinCount ∧
    ∀ i' j', Assigned map pin i' j' → i < i' ∨ i' = i ∧ j ≤ j' := by
  unfold lookup at h
  split at h
  · rename_i hlt
    obtain ⟨-, h2, h3⟩ := findUnit_some h
    exact ⟨h2, hlt, h3⟩
  · cases h

/-- **C64**: no channel is found iff the pin does not exist or the map does not mention it. -/
theorem lookup_complete (map : Map) (pinCount : Nat) (pin : BitVec 8) :
    lookup map pinCount pin = none ↔ pinCount ≤ pin.toNat ∨ ∀ i j, ¬ Assigned map pin i j := by
  unfold lookup
  split
  · rename_i hlt
    rw [findUnit_none]
    constructor
    · exact Or.inr
    · rintro (h | h)
      · omega
      · exact h
  · rename_i hge
    exact ⟨fun _ => Or.inl (by omega), fun _ => rfl⟩

/-- **C64**: reading gives −1 iff no channel of the two units is mapped, the unit is in use, or a call of the driver
fails; otherwise it gives the value converted on the mapped channel. -/
theorem singleRead_exact_partial (map : Map) (pinCount : Nat) (drv : Driver) (pin : BitVec 8) (s : St) :
    (∃ v : Nat, (singleRead map pinCount drv pin s).1 = v ∧
      ∃ i j, lookup map pinCount pin = some (i, j) ∧ i < 2 ∧ i ∉ s.inUse ∧ drv.newUnit s.calls = true ∧
        drv.config (s.calls ++ [.newUnit i]) = true ∧ drv.read (s.calls ++ [.newUnit i, .config i j]) = some v) ∨
    ((singleRead map pinCount drv pin s).1 = -1 ∧
      (lookup map pinCount pin = none ∨ ∃ i j, lookup map pinCount pin = some (i, j) ∧
        (2 ≤ i ∨ i ∈ s.inUse ∨ drv.newUnit s.calls = false ∨ drv.config (s.calls ++ [.newUnit i]) = false ∨
          drv.read (s.calls ++ [.newUnit i, .config i j]) = none))) := by
  unfold singleRead
  cases hl : lookup map pinCount pin with
  | none => right; simp
  | some ij =>
    obtain ⟨i, j⟩ := ij
    simp only
    have key : ∀ i < 2, (∃ v : Nat, (singleReadADC drv i j s).1 = v ∧ i ∉ s.inUse ∧ drv.newUnit s.calls = true ∧
        drv.config (s.calls ++ [.newUnit i]) = true ∧ drv.read (s.calls ++ [.newUnit i, .config i j]) = some v) ∨
        ((singleReadADC drv i j s).1 = -1 ∧ (i ∈ s.inUse ∨ drv.newUnit s.calls = false ∨
          drv.config (s.calls ++ [.newUnit i]) = false ∨
          drv.read (s.calls ++ [.newUnit i, .config i j]) = none)) := by
      intro i _
      unfold singleReadADC
      by_cases hn : drv.newUnit s.calls = true
      · by_cases hu : i ∈ s.inUse
        · right; simp [hu]
        · rw [if_pos (by simp [hn, hu])]
          simp only
          by_cases hc : drv.config (s.calls ++ [.newUnit i]) = true
          · rw [if_pos hc]
            rw [show s.calls ++ [Ev.newUnit i] ++ [Ev.config i j] = s.calls ++ [.newUnit i, .config i j] by simp]
            cases hr : drv.read (s.calls ++ [.newUnit i, .config i j]) with
            | none => right; simp
            | some v => left; exact ⟨v, rfl, hu, hn, hc, rfl⟩
          · rw [if_neg hc]; right; simp [Bool.eq_false_iff.2 hc]
      · right; simp [Bool.eq_false_iff.2 hn]
    by_cases h0 : i = 0
    · rw [if_pos h0]
      subst h0
      rcases key 0 (by omega) with ⟨v, h1, h2⟩ | ⟨h1, h2⟩
      · left; exact ⟨v, h1, 0, j, rfl, by omega, h2⟩
      · right; exact ⟨h1, Or.inr ⟨0, j, rfl, Or.inr h2⟩⟩
    · rw [if_neg h0]
      by_cases h1 : i = 1
      · rw [if_pos h1]
        subst h1
        rcases key 1 (by omega) with ⟨v, h1, h2⟩ | ⟨h1, h2⟩
        · left; exact ⟨v, h1, 1, j, rfl, by omega, h2⟩
        · right; exact ⟨h1, Or.inr ⟨1, j, rfl, Or.inr h2⟩⟩
      · rw [if_neg h1]
        right
        exact ⟨rfl, Or.inr ⟨i, j, rfl, Or.inl (by omega)⟩⟩

/-- **C64**: the calls made by a read, in this order and no further ones: the unit of the channel is created; unless this
fails the channel is configured; unless this fails it is read.  The unit is in use afterwards if its creation succeeded,
and nothing else changes. -/
theorem singleRead_calls (map : Map) (pinCount : Nat) (drv : Driver) (pin : BitVec 8) (s : St) :
    ∃ cs, (singleRead map pinCount drv pin s).2.calls = s.calls ++ cs ∧
      (((lookup map pinCount pin = none ∨ ∃ i j, lookup map pinCount pin = some (i, j) ∧ 2 ≤ i) ∧ cs = [] ∧
        (singleRead map pinCount drv pin s).2.inUse = s.inUse) ∨
      ∃ i j, lookup map pinCount pin = some (i, j) ∧ i < 2 ∧
        (((drv.newUnit s.calls = false ∨ i ∈ s.inUse) ∧ cs = [.newUnit i] ∧
            (singleRead map pinCount drv pin s).2.inUse = s.inUse) ∨
          ((drv.newUnit s.calls = true ∧ i ∉ s.inUse) ∧ (singleRead map pinCount drv pin s).2.inUse = i :: s.inUse ∧
            (drv.config (s.calls ++ [.newUnit i]) = false ∧ cs = [.newUnit i, .config i j] ∨
              drv.config (s.calls ++ [.newUnit i]) = true ∧ cs = [.newUnit i, .config i j, .read i j])))) := by
  have key : ∀ i j, ∃ cs, (singleReadADC drv i j s).2.calls = s.calls ++ cs ∧
      (((drv.newUnit s.calls = false ∨ i ∈ s.inUse) ∧ cs = [.newUnit i] ∧ (singleReadADC drv i j s).2.inUse = s.inUse) ∨
        ((drv.newUnit s.calls = true ∧ i ∉ s.inUse) ∧ (singleReadADC drv i j s).2.inUse = i :: s.inUse ∧
          (drv.config (s.calls ++ [.newUnit i]) = false ∧ cs = [.newUnit i, .config i j] ∨
            drv.config (s.calls ++ [.newUnit i]) = true ∧ cs = [.newUnit i, .config i j, .read i j]))) := by
    intro i j
    unfold singleReadADC
    by_cases hn : drv.newUnit s.calls = true ∧ i ∉ s.inUse
    · rw [if_pos (by simp [hn])]
      simp only
      by_cases hc : drv.config (s.calls ++ [.newUnit i]) = true
      · rw [if_pos hc]
        refine ⟨[.newUnit i, .config i j, .read i j], ?_, .inr ⟨hn, ?_, .inr ⟨hc, rfl⟩⟩⟩ <;> split <;> simp
      · rw [if_neg hc]
        exact ⟨[.newUnit i, .config i j], by simp, .inr ⟨hn, rfl, .inl ⟨Bool.eq_false_iff.2 hc, rfl⟩⟩⟩
    · rw [if_neg (by simpa using hn)]
      refine ⟨_, rfl, .inl ⟨?_, rfl, rfl⟩⟩
      rcases hb : drv.newUnit s.calls with _ | _
      · exact .inl rfl
      · exact .inr (Classical.byContradiction fun h => hn ⟨hb, h⟩)
  unfold singleRead
  cases hl : lookup map pinCount pin with
  | none => exact ⟨[], by simp, .inl ⟨.inl rfl, rfl, rfl⟩⟩
  | some ij =>
    obtain ⟨i, j⟩ := ij
    simp only
    by_cases h0 : i = 0
    · subst h0
      rw [if_pos rfl]
      obtain ⟨cs, h1, h2⟩ := key 0 j
      exact ⟨cs, h1, .inr ⟨0, j, rfl, by omega, h2⟩⟩
    · rw [if_neg h0]
      by_cases h1 : i = 1
      · subst h1
        rw [if_pos rfl]
        obtain ⟨cs, h1, h2⟩ := key 1 j
        exact ⟨cs, h1, .inr ⟨1, j, rfl, by omega, h2⟩⟩
      · rw [if_neg h1]
        exact ⟨[], by simp, .inl ⟨.inr ⟨i, j, rfl, by omega⟩, rfl, rfl⟩⟩

theorem singleReadADC_inUse (drv : Driver) (unit channel : Nat) (s : St) :
    ∀ u ∈ s.inUse, u ∈ (singleReadADC drv unit channel s).2.inUse := by
  intro u hu
  unfold singleReadADC
  split
  · simp only
    split
    · split <;> simp [hu]
    · simp [hu]
  · exact hu

theorem singleReadADC_ok {drv : Driver} {unit channel : Nat} {s : St} (h : (singleReadADC drv unit channel s).1 ≠ -1) :
    unit ∈ (singleReadADC drv unit channel s).2.inUse := by
  unfold singleReadADC at h ⊢
  split at h
  · rename_i hc
    rw [if_pos hc]
    simp only
    split
    · split <;> simp
    · simp
  · exact absurd rfl h

theorem singleRead_inUse (map : Map) (pinCount : Nat) (drv : Driver) (pin : BitVec 8) (s : St) :
    ∀ u ∈ s.inUse, u ∈ (singleRead map pinCount drv pin s).2.inUse := by
  intro u hu
  unfold singleRead
  split
  · exact hu
  · split
    · exact singleReadADC_inUse _ _ _ _ u hu
    · split
      · exact singleReadADC_inUse _ _ _ _ u hu
      · exact hu

/-- A sequence of reads. -/
def reads (map : Map) (pinCount : Nat) (drv : Driver) : List (BitVec 8) → St → List Int × St
  | [], s => ([], s)
  | p :: ps, s =>
    ((singleRead map pinCount drv p s).1 :: (reads map pinCount drv ps (singleRead map pinCount drv p s).2).1,
      (reads map pinCount drv ps (singleRead map pinCount drv p s).2).2)

theorem reads_inUse (map : Map) (pinCount : Nat) (drv : Driver) (ps : List (BitVec 8)) (s : St) :
    ∀ u ∈ s.inUse, u ∈ (reads map pinCount drv ps s).2.inUse := by
  induction ps generalizing s with
  | nil => exact fun u hu => hu
  | cons p ps ih => exact fun u hu => ih _ u (singleRead_inUse _ _ _ _ _ u hu)

/-- **C64 is false** for repeated reads: after one successful read of a pin, every later read of any pin of the same
unit fails, whatever was read between. -/
theorem second_read_fails (map : Map) (pinCount : Nat) (drv : Driver) (pin pin' : BitVec 8) (i j j' : Nat)
    (hpin : lookup map pinCount pin = some (i, j)) (hpin' : lookup map pinCount pin' = some (i, j'))
    (between : List (BitVec 8)) (s : St) (hok : (singleRead map pinCount drv pin s).1 ≠ -1) :
    (singleRead map pinCount drv pin' (reads map pinCount drv between (singleRead map pinCount drv pin s).2).2).1 = -1 := by
  have hmem : i ∈ (singleRead map pinCount drv pin s).2.inUse := by
    unfold singleRead at hok ⊢
    rw [hpin] at hok ⊢
    simp only at hok ⊢
    by_cases h0 : i = 0
    · subst h0
      rw [if_pos rfl] at hok ⊢
      exact singleReadADC_ok hok
    · rw [if_neg h0] at hok ⊢
      by_cases h1 : i = 1
      · subst h1
        rw [if_pos rfl] at hok ⊢
        exact singleReadADC_ok hok
      · rw [if_neg h1] at hok
        exact absurd rfl hok
  have hmem2 := reads_inUse map pinCount drv between _ i hmem
  rcases singleRead_exact_partial map pinCount drv pin' (reads map pinCount drv between (singleRead map pinCount drv pin s).2).2 with
    ⟨v, -, i2, j2, hl, -, hn, -⟩ | ⟨h, -⟩
  · rw [hpin'] at hl
    cases hl
    exact absurd hmem2 hn
  · exact h

/-- The map of the ESP32 and a driver which never fails by itself: the first read works, the second does not. -/
example : (reads [[36, 37, 38, 39, 32, 33, 34, 35, -1, -1], [4, 0, 2, 15, 13, 12, 14, 27, 25, 26]] 40
    ⟨fun _ => true, fun _ => true, fun _ => some 1234⟩ [34, 35, 34, 25, 5] ⟨[], []⟩).1 =
    [1234, -1, -1, 1234, -1] := by decide

example : lookup [[36, 37, 38, 39, 32, 33, 34, 35, -1, -1], [4, 0, 2, 15, 13, 12, 14, 27, 25, 26]] 40 25 = some (1, 8) := by
  decide

example : (reads [[36, 37, 38, 39, 32, 33, 34, 35, -1, -1], [4, 0, 2, 15, 13, 12, 14, 27, 25, 26]] 40
    ⟨fun _ => true, fun _ => true, fun _ => some 1234⟩ [34, 35, 25, 5] ⟨[], []⟩).2 =
    ⟨[.newUnit 0, .config 0 6, .read 0 6, .newUnit 0, .newUnit 1, .config 1 8, .read 1 8], [1, 0]⟩ := by decide

end Verif.Hal.Adc
