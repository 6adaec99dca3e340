import Verif.Storage.RecoveryProps
import Verif.Storage.Arbitrary
/-!
# C68: the excluded power losses

For every object whose size field is 256 or more and 1 to 5 modulo 256, a power loss between the two bytes of the size
field can make a value appear under a name which was never used.
-/
namespace Verif.Storage

/-- Two entries, then nothing. -/
private theorem two_entries {m : List Byte} (hcap : CapOk m.length) {k v : Nat} (hk : k ≠ 0) (hv : v ≠ 0) (h6 : k + 6 ≤ m.length)
    (h1 : nodeSize m 0 = .ok k) (h2 : nodeSize m k = .ok v) (hkv : k + v ≤ m.length)
    (h3 : k + v + 6 ≤ m.length → nodeSize m (k + v) = .ok 0) :
    create m false = .ok ⟨m, k + v⟩ ∧ WalkL m 0 [(0, k), (k, v)] (k + v) := by
  have hw : WalkL m 0 [(0, k), (k, v)] (k + v) :=
    .cons 0 k _ _ (by omega) h1 hk (by omega) (by
      rw [Nat.zero_add]
      exact .cons k v _ _ h6 h2 hv hkv (.nil _))
  refine ⟨?_, hw⟩
  unfold create
  simp only [Bool.false_eq_true, if_false]
  rw [openLoop_list hcap hw _ (by simp only [List.length_cons, List.length_nil]; omega)]
  obtain ⟨f, hf⟩ : ∃ f, m.length + 1 - [(0, k), (k, v)].length = f + 1 :=
    ⟨m.length - 2, by simp only [List.length_cons, List.length_nil]; omega⟩
  rw [hf, openLoop]
  simp only [descSize]
  split
  · rename_i h
    rw [h3 h]
    rfl
  · rfl

private theorem zeros_get {p : List Byte} {L i : Nat} (h : p.length ≤ i) (h' : i < p.length + L) :
    (p ++ List.replicate L (0 : Byte))[i]? = some 0 := by
  rw [List.getElem?_append_right h, List.getElem?_replicate, if_pos (by omega)]

private theorem zeros_sub {p : List Byte} {L q n : Nat} (h : p.length ≤ q) (h' : q + n ≤ p.length + L) :
    sub (p ++ List.replicate L (0 : Byte)) q n = List.replicate n 0 := by
  unfold sub
  rw [List.drop_append, List.drop_eq_nil_of_le h, List.nil_append, List.drop_replicate, List.take_replicate]
  congr 1; omega

/-- The region after the name and the lower byte of the size have been written to an empty storage. -/
private theorem torn_region (L : Nat) (name obj : List Byte) (hn : name.length ≤ 4) (hL : 6 + obj.length ≤ L)
    (hcap : CapOk L) :
    cstep ⟨List.replicate L 0, 0⟩ (.crash name obj 5) = (do
      let s ← create (([BitVec.ofNat 8 (6 + obj.length), 0] ++ storedIdx name) ++ List.replicate (L - 6) 0) false
      .ok (s, .opened)) := by
  have hl : (storedIdx name).length = 4 := by unfold storedIdx; simp; omega
  obtain ⟨a, b, c, d, e⟩ : ∃ a b c d, storedIdx name = [a, b, c, d] := by
    match h : storedIdx name, hl with
    | [a, b, c, d], _ => exact ⟨a, b, c, d, rfl⟩
  have hplan : setPlan ⟨List.replicate L 0, 0⟩ name obj =
      .ok ⟨writesAt 2 [a, b, c, d] ++ writesAt 0 (le16 (6 + obj.length)) ++ writesAt 6 obj, 6 + obj.length, true⟩ := by
    unfold setPlan getIdx
    rw [getIdxLoop]
    simp only [descSize, Nat.zero_add, Nat.reduceLeDiff, if_false, Res.bind_ok, List.length_replicate]
    rw [if_neg (by omega), e]
    simp only [CapOk] at hcap
    rw [add32_of_lt (by omega)]
    simp
  have hL6 : L = (L - 6) + 6 := by omega
  have hr : List.replicate L (0 : Byte) = [0, 0, 0, 0, 0, 0] ++ List.replicate (L - 6) 0 := by
    rw [show [0, 0, 0, 0, 0, 0] = List.replicate 6 (0 : Byte) from rfl, List.replicate_append_replicate]
    congr 1; omega
  have hlow : BitVec.ofNat 8 ((6 + obj.length) % 2 ^ 16 % 256) = BitVec.ofNat 8 (6 + obj.length) := by
    apply BitVec.eq_of_toNat_eq
    simp only [BitVec.toNat_ofNat]
    omega
  have htake : (writesAt 2 [a, b, c, d] ++ writesAt 0 (le16 (6 + obj.length)) ++ writesAt 6 obj).take 5 =
      [(2, a), (3, b), (4, c), (5, d), (0, BitVec.ofNat 8 (6 + obj.length))] := by
    unfold le16
    rw [hlow]
    simp [writesAt]
  simp only [cstep, hplan, Res.bind_ok]
  rw [htake, e]
  have hw : applyWrites (List.replicate L 0) [(2, a), (3, b), (4, c), (5, d), (0, BitVec.ofNat 8 (6 + obj.length))] =
      .ok (([BitVec.ofNat 8 (6 + obj.length), 0] ++ [a, b, c, d]) ++ List.replicate (L - 6) 0) := by
    rw [hr]
    simp [applyWrites]
  rw [hw]
  rfl

/-- The name which makes it happen, and the size of the object which appears. -/
def tornName : Nat → List Byte × Nat
  | 1 => ([1], 250)
  | 2 => ([7], 1)
  | 3 => ([97, 7], 1)
  | 4 => ([97, 97, 7], 1)
  | _ => ([97, 97, 97, 7], 1)

/-- **C68**: the exclusion is necessary for every size of object it concerns: there is a name such that, if power is lost
between the two bytes of the size field while the first object of this name is stored, in a storage of any capacity, an
object of zeros is found afterwards under the empty name, which was never used. -/
theorem torn_size_phantom (obj : List Byte) (hsz : 6 + obj.length < 65536) (htorn : ¬ TearSafe (6 + obj.length)) :
    ∃ (name : List Byte) (n : Nat), name.length ≤ 4 ∧ stripNul name ≠ stripNul [] ∧
      ∀ m : List Byte, CapOk m.length → 6 + obj.length ≤ m.length →
        ∃ s s', create m true = .ok s ∧ crun s [.crash name obj 5, .call (.get [] n)] =
          .ok (s', [.opened, .value (some (List.replicate n 0))]) := by
  have ht : 256 ≤ 6 + obj.length ∧ 1 ≤ (6 + obj.length) % 256 ∧ (6 + obj.length) % 256 ≤ 5 := by
    unfold TearSafe at htorn; omega
  obtain ⟨h256, hk1, hk5⟩ := ht
  have hlow : BitVec.ofNat 8 (6 + obj.length) = BitVec.ofNat 8 ((6 + obj.length) % 256) := by
    apply BitVec.eq_of_toNat_eq
    simp only [BitVec.toNat_ofNat]
    omega
  generalize hk : (6 + obj.length) % 256 = k at *
  have hnl : (tornName k).1.length ≤ 4 := by
    obtain rfl | rfl | rfl | rfl | rfl : k = 1 ∨ k = 2 ∨ k = 3 ∨ k = 4 ∨ k = 5 := by omega
    all_goals decide
  refine ⟨(tornName k).1, (tornName k).2, hnl, ?_, fun m hcap hm => ?_⟩
  · obtain rfl | rfl | rfl | rfl | rfl : k = 1 ∨ k = 2 ∨ k = 3 ∨ k = 4 ∨ k = 5 := by omega
    all_goals decide
  · refine ⟨⟨List.replicate m.length 0, 0⟩, ?_⟩
    obtain ⟨r, hr⟩ : ∃ r, m.length = r + 6 := ⟨m.length - 6, by omega⟩
    have hstep := torn_region m.length (tornName k).1 obj hnl hm hcap
    rw [hlow] at hstep
    have hr6 : m.length - 6 = r := by omega
    rw [hr6] at hstep
    -- entries: `k` bytes, then the bytes of the name taken for a size
    have key : ∃ v p, ([BitVec.ofNat 8 k, 0] ++ storedIdx (tornName k).1 : List Byte) = p ∧ p.length = 6 ∧
        nodeSize (p ++ List.replicate r 0) 0 = .ok k ∧ nodeSize (p ++ List.replicate r 0) k = .ok v ∧ v ≠ 0 ∧
        v = 6 + (tornName k).2 ∧ k + v ≤ 257 ∧ 6 ≤ k + v ∧
        sub (p ++ List.replicate r 0) (k + 2) 4 = [0, 0, 0, 0] ∧
        sub (p ++ List.replicate r 0) (k + 6) (tornName k).2 = List.replicate (tornName k).2 0 := by
      obtain rfl | rfl | rfl | rfl | rfl : k = 1 ∨ k = 2 ∨ k = 3 ∨ k = 4 ∨ k = 5 := by omega
      all_goals
        obtain ⟨r', rfl⟩ : ∃ r', r = r' + 251 := ⟨r - 251, by omega⟩
        have hrep : List.replicate (r' + 251) (0 : Byte) = List.replicate 251 0 ++ List.replicate r' 0 := by
          rw [List.replicate_append_replicate]; congr 1; omega
        rw [hrep]
      · refine ⟨256, [1, 0, 1, 0, 0, 0], rfl, rfl, rfl, rfl, by decide, rfl, by decide, by decide, rfl, ?_⟩
        rw [← hrep]
        exact zeros_sub (p := [1, 0, 1, 0, 0, 0]) (by decide) (by simp only [tornName, List.length_cons, List.length_nil]; omega)
      · exact ⟨7, [2, 0, 7, 0, 0, 0], rfl, rfl, rfl, rfl, by decide, rfl, by decide, by decide, rfl, rfl⟩
      · exact ⟨7, [3, 0, 97, 7, 0, 0], rfl, rfl, rfl, rfl, by decide, rfl, by decide, by decide, rfl, rfl⟩
      · exact ⟨7, [4, 0, 97, 97, 7, 0], rfl, rfl, rfl, rfl, by decide, rfl, by decide, by decide, rfl, rfl⟩
      · exact ⟨7, [5, 0, 97, 97, 97, 7], rfl, rfl, rfl, rfl, by decide, rfl, by decide, by decide, rfl, rfl⟩
    obtain ⟨v, p, hp, hpl, g1, g2, g3, g4, g5, g6, g7, g8⟩ := key
    rw [hp] at hstep
    have hlen : (p ++ List.replicate r (0 : Byte)).length = m.length := by simp [hpl]; omega
    obtain ⟨c1, c2⟩ := two_entries (m := p ++ List.replicate r 0) (by rw [hlen]; exact hcap) (by omega) g3 (by omega) g1 g2
      (by omega) (fun h => by
        unfold nodeSize
        rw [zeros_get (by omega) (by omega), zeros_get (by omega) (by omega)]
        rfl)
    refine ⟨⟨p ++ List.replicate r 0, k + v⟩, rfl, ?_⟩
    have hget := get_list (s := ⟨p ++ List.replicate r 0, k + v⟩) (by rw [hlen]; exact hcap) c2 [] (tornName k).2
    have hview : view (p ++ List.replicate r 0) [(0, k), (k, v)] [] (tornName k).2 =
        some (List.replicate (tornName k).2 0) := by
      unfold view
      have h0 : hit (p ++ List.replicate r 0) [] (tornName k).2 (0, k) = false := by
        unfold hit; rw [decide_eq_false_iff_not]; simp only; omega
      have h1 : hit (p ++ List.replicate r 0) [] (tornName k).2 (k, v) = true := by
        unfold hit
        rw [decide_eq_true_eq]
        exact ⟨by decide, g4, g7⟩
      rw [List.find?_cons, h0, List.find?_cons, h1]
      simp only [Option.map_some, g8]
    rw [hview] at hget
    rw [c1] at hstep
    have h1 : cstep ⟨List.replicate m.length 0, 0⟩ (.crash (tornName k).1 obj 5) =
        .ok (⟨p ++ List.replicate r 0, k + v⟩, .opened) := hstep
    have h2 : cstep ⟨p ++ List.replicate r 0, k + v⟩ (.call (.get [] (tornName k).2)) =
        .ok (⟨p ++ List.replicate r 0, k + v⟩, .value (some (List.replicate (tornName k).2 0))) := by
      simp only [cstep, step, hget, Res.bind_ok]
    simp only [crun, h1, h2, Res.bind_ok]

/-- An object of the smallest size concerned. -/
example : 6 + (List.replicate 251 (1 : Byte)).length < 65536 ∧ ¬ TearSafe (6 + (List.replicate 251 (1 : Byte)).length) := by
  simp only [List.length_replicate, TearSafe]; omega

end Verif.Storage
