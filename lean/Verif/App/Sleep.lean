import Verif.Storage.Props
/-!
# C125: deep sleep does not disturb a program which keeps its data in the storage

"Go to deep sleep and preserve the driver's data" (README.md:7).  The program: any number of drivers, each with data of a fixed
size, stored under a name; each time the device wakes up the data are loaded (what is not there gets its initial value), the
program works with them, saves them and sleeps.  The memory of the storage keeps its contents in deep sleep; when power is
switched on it contains anything and the storage is made with `init = true`.

The program is the user's, `set`, `get` and the constructor are the code of PersistentStorage.h / .cpp as modelled in
`Storage/Model.lean`.
-/
namespace Verif.App.Sleep
open Verif Verif.Storage

/-! ## The program -/

/-- `auto data = storage.get<T>(name).value_or(initial);` for each driver: `(name, initial)`. -/
def load (s : Store) : List (List Byte × List Byte) → Res (List (List Byte))
  | [] => .ok []
  | (name, initial) :: ds => do
    let v ← Storage.get s name initial.length
    let vs ← load s ds
    .ok ((match v with | some data => data | none => initial) :: vs)

/-- `storage.set(name, data);` for each driver; the results are not looked at. -/
def save (s : Store) : List (List Byte × List Byte) → Res Store
  | [] => .ok s
  | (name, data) :: ds => do
    let (s, _) ← Storage.set s name data
    save s ds

variable {I O : Type}

/-- From waking up to going to sleep.  `work` is what the program does with the data of its drivers and with what it finds
around it; it may fail. -/
def wake (work : I → List (List Byte) → Res (List (List Byte) × O)) (drivers : List (List Byte × List Byte)) (init : Bool)
    (m : List Byte) (i : I) : Res (List Byte × O) := do
  let s ← create m init
  let ds ← load s drivers
  let (ds, o) ← work i ds
  let s ← save s ((drivers.map (·.1)).zip ds)
  .ok (s.mem, o)

/-- Switched on once and woken up `k` times: the memory and what the program did. -/
def life (work : I → List (List Byte) → Res (List (List Byte) × O)) (drivers : List (List Byte × List Byte))
    (m : List Byte) (input : Nat → I) : Nat → Res (List Byte × List O)
  | 0 => do
    let (m, o) ← wake work drivers true m (input 0)
    .ok (m, [o])
  | k + 1 => do
    let (m, os) ← life work drivers m input k
    let (m, o) ← wake work drivers false m (input (k + 1))
    .ok (m, os ++ [o])

/-! ## Specification -/

/-- The same program which never sleeps and keeps its data in variables. -/
def awake (work : I → List (List Byte) → Res (List (List Byte) × O)) (initial : List (List Byte)) (input : Nat → I) :
    Nat → Res (List (List Byte) × List O)
  | 0 => do
    let (ds, o) ← work (input 0) initial
    .ok (ds, [o])
  | k + 1 => do
    let (ds, os) ← awake work initial input k
    let (ds, o) ← work (input (k + 1)) ds
    .ok (ds, os ++ [o])

/-- What the program did. -/
def done {α : Type} (r : Res (α × List O)) : Res (List O) := do
  let (_, os) ← r
  .ok os

/-- Short names, sizes that fit the size field, no two drivers with the same name and size. -/
structure Good (drivers : List (List Byte × List Byte)) : Prop where
  names : ∀ d ∈ drivers, d.1.length ≤ 4
  sizes : ∀ d ∈ drivers, 6 + d.2.length < 65536
  distinct : drivers.Pairwise fun x y => stripNul x.1 ≠ stripNul y.1 ∨ x.2.length ≠ y.2.length

/-- The space the data need. -/
def space (drivers : List (List Byte × List Byte)) : Nat := (drivers.map fun d => 6 + d.2.length).sum

/-- The data have the sizes of the drivers' types. -/
def Sized (drivers : List (List Byte × List Byte)) (ds : List (List Byte)) : Prop :=
  ds.map List.length = drivers.map (·.2.length)

/-- Working with the data does not change their sizes. -/
def Typed (work : I → List (List Byte) → Res (List (List Byte) × O)) (drivers : List (List Byte × List Byte)) : Prop :=
  ∀ i ds ds' o, Sized drivers ds → work i ds = .ok (ds', o) → Sized drivers ds'

/-! ## Proof -/

theorem implements_get {s : Store} {a : AMap} (h : Implements s a) {name : List Byte} {n : Nat} (hn : name.length ≤ 4)
    (hs : 6 + n < 65536) : Storage.get s name n = .ok (a.get name n) := by
  obtain ⟨s1, h1, -⟩ := implements_step h rfl (.get name n) ⟨hn, hs⟩
  simp only [Storage.step, AMap.step] at h1
  rw [Res.bind_eq_ok] at h1
  obtain ⟨v, h2, h3⟩ := h1
  simp only [Res.ok.injEq, Prod.mk.injEq, Storage.Out.value.injEq] at h3
  rw [h2, h3.2]

theorem implements_set {s : Store} {a : AMap} {cap : Nat} (h : Implements s a) (hc : s.mem.length = cap) {name obj : List Byte}
    (hn : name.length ≤ 4) (hs : 6 + obj.length < 65536) :
    ∃ s', Storage.set s name obj = .ok (s', (a.set cap name obj).2) ∧ Implements s' (a.set cap name obj).1 ∧
      s'.mem.length = cap := by
  obtain ⟨s1, h1, h2, h3⟩ := implements_step h hc (.set name obj) ⟨hn, hs⟩
  simp only [Storage.step, AMap.step] at h1 h2
  rw [Res.bind_eq_ok] at h1
  obtain ⟨⟨s2, b⟩, h4, h5⟩ := h1
  simp only [Res.ok.injEq, Prod.mk.injEq, Storage.Out.flag.injEq] at h5
  obtain ⟨rfl, rfl⟩ := h5
  exact ⟨s2, h4, h2, h3⟩

theorem load_exact {s : Store} {a : AMap} (h : Implements s a) (drivers : List (List Byte × List Byte))
    (hn : ∀ d ∈ drivers, d.1.length ≤ 4) (hs : ∀ d ∈ drivers, 6 + d.2.length < 65536) :
    load s drivers = .ok (drivers.map fun d => (a.get d.1 d.2.length).getD d.2) := by
  induction drivers with
  | nil => rfl
  | cons d drivers ih =>
    obtain ⟨name, initial⟩ := d
    simp only [List.mem_cons, forall_eq_or_imp] at hn hs
    rw [load, implements_get h hn.1 hs.1, Res.bind_ok, ih hn.2 hs.2, Res.bind_ok]
    simp only [List.map_cons]
    cases a.get name initial.length <;> rfl

/-- The map after saving. -/
def saved (cap : Nat) (a : AMap) : List (List Byte × List Byte) → AMap
  | [] => a
  | (name, data) :: ds => saved cap (a.set cap name data).1 ds

theorem save_exact {s : Store} {a : AMap} {cap : Nat} (h : Implements s a) (hc : s.mem.length = cap)
    (zs : List (List Byte × List Byte)) (hn : ∀ z ∈ zs, z.1.length ≤ 4) (hs : ∀ z ∈ zs, 6 + z.2.length < 65536) :
    ∃ s', save s zs = .ok s' ∧ Implements s' (saved cap a zs) ∧ s'.mem.length = cap := by
  induction zs generalizing s a with
  | nil => exact ⟨s, rfl, h, hc⟩
  | cons z zs ih =>
    obtain ⟨name, data⟩ := z
    simp only [List.mem_cons, forall_eq_or_imp] at hn hs
    obtain ⟨s1, h1, h2, h3⟩ := implements_set h hc hn.1 hs.1
    obtain ⟨s2, h4, h5, h6⟩ := ih h2 h3 hn.2 hs.2
    refine ⟨s2, ?_, h5, h6⟩
    rw [save, h1, Res.bind_ok]
    exact h4

def Apart (x y : List Byte × List Byte) : Prop := stripNul x.1 ≠ stripNul y.1 ∨ x.2.length ≠ y.2.length

theorem get_set_other (a : AMap) (cap : Nat) (x y : List Byte × List Byte) (h : Apart x y) :
    (a.set cap x.1 x.2).1.get y.1 y.2.length = a.get y.1 y.2.length := by
  have hp : a.put x.1 x.2 (stripNul y.1) y.2.length = a.val (stripNul y.1) y.2.length := by
    unfold AMap.put
    rw [if_neg]
    rintro ⟨h1, h2⟩
    rcases h with h | h
    · exact h h1.symm
    · exact h h2.symm
  unfold AMap.set
  split
  · exact hp
  · split
    · exact hp
    · rfl

theorem get_put (a : AMap) (name data : List Byte) (u : Nat) : (⟨a.put name data, u⟩ : AMap).get name data.length = some data := by
  simp [AMap.get, AMap.put]

theorem saved_other (cap : Nat) (a : AMap) (zs : List (List Byte × List Byte)) (y : List Byte × List Byte)
    (h : ∀ z ∈ zs, Apart z y) : (saved cap a zs).get y.1 y.2.length = a.get y.1 y.2.length := by
  induction zs generalizing a with
  | nil => rfl
  | cons z zs ih =>
    obtain ⟨name, data⟩ := z
    simp only [List.mem_cons, forall_eq_or_imp] at h
    rw [saved, ih _ h.2]
    exact get_set_other a cap (name, data) y h.1

/-- Saving over what is there. -/
theorem saved_present (cap : Nat) (a : AMap) (zs : List (List Byte × List Byte)) (hd : zs.Pairwise Apart)
    (hp : ∀ z ∈ zs, (a.get z.1 z.2.length).isSome) :
    ∀ z ∈ zs, (saved cap a zs).get z.1 z.2.length = some z.2 := by
  induction zs generalizing a with
  | nil => simp
  | cons z zs ih =>
    obtain ⟨name, data⟩ := z
    rw [List.pairwise_cons] at hd
    simp only [List.mem_cons, forall_eq_or_imp] at hp ⊢
    rw [saved]
    have hset : (a.set cap name data).1 = ⟨a.put name data, a.used⟩ := by
      unfold AMap.set
      rw [if_pos hp.1]
    refine ⟨?_, ih _ hd.2 fun y hy => ?_⟩
    · rw [saved_other cap _ zs (name, data) fun z hz => (hd.1 z hz).elim (fun h => .inl h.symm) fun h => .inr h.symm, hset]
      exact get_put a name data _
    · rw [get_set_other a cap (name, data) y (hd.1 y hy)]
      exact hp.2 y hy

/-- Saving for the first time, with room. -/
theorem saved_absent (cap : Nat) (a : AMap) (zs : List (List Byte × List Byte)) (hd : zs.Pairwise Apart)
    (hp : ∀ z ∈ zs, a.get z.1 z.2.length = none) (hr : a.used + space zs ≤ cap) :
    ∀ z ∈ zs, (saved cap a zs).get z.1 z.2.length = some z.2 := by
  induction zs generalizing a with
  | nil => simp
  | cons z zs ih =>
    obtain ⟨name, data⟩ := z
    rw [List.pairwise_cons] at hd
    simp only [List.mem_cons, forall_eq_or_imp] at hp ⊢
    simp only [space, List.map_cons, List.sum_cons] at hr
    rw [saved]
    have hset : (a.set cap name data).1 = ⟨a.put name data, a.used + 6 + data.length⟩ := by
      unfold AMap.set
      rw [if_neg (by rw [hp.1]; simp), if_pos (by omega)]
    refine ⟨?_, ih _ hd.2 (fun y hy => ?_) ?_⟩
    · rw [saved_other cap _ zs (name, data) fun z hz => (hd.1 z hz).elim (fun h => .inl h.symm) fun h => .inr h.symm, hset]
      exact get_put a name data _
    · rw [get_set_other a cap (name, data) y (hd.1 y hy)]
      exact hp.2 y hy
    · rw [hset]
      simp only [space]
      omega

/-- Saving for the first time, without room for everything: something is not there. -/
theorem saved_lost (cap : Nat) (a : AMap) (zs : List (List Byte × List Byte)) (hd : zs.Pairwise Apart)
    (hp : ∀ z ∈ zs, a.get z.1 z.2.length = none) (ha : a.used ≤ cap) (hr : cap < a.used + space zs) :
    ∃ z ∈ zs, (saved cap a zs).get z.1 z.2.length = none := by
  induction zs generalizing a with
  | nil => simp [space] at hr; omega
  | cons z zs ih =>
    obtain ⟨name, data⟩ := z
    rw [List.pairwise_cons] at hd
    simp only [List.mem_cons, forall_eq_or_imp] at hp
    simp only [space, List.map_cons, List.sum_cons] at hr
    by_cases hroom : a.used + 6 + data.length ≤ cap
    · have hset : (a.set cap name data).1 = ⟨a.put name data, a.used + 6 + data.length⟩ := by
        unfold AMap.set
        rw [if_neg (by rw [hp.1]; simp), if_pos hroom]
      obtain ⟨z, hz, h⟩ := ih (a.set cap name data).1 hd.2 (fun y hy => by
        rw [get_set_other a cap (name, data) y (hd.1 y hy)]
        exact hp.2 y hy) (by rw [hset]; exact hroom) (by rw [hset]; simp only [space]; omega)
      exact ⟨z, by simp [hz], h⟩
    · have hset : (a.set cap name data).1 = a := by
        unfold AMap.set
        rw [if_neg (by rw [hp.1]; simp), if_neg hroom]
      refine ⟨(name, data), by simp, ?_⟩
      rw [saved, saved_other cap _ zs (name, data) fun z hz => (hd.1 z hz).elim (fun h => .inl h.symm) fun h => .inr h.symm, hset]
      exact hp.1

/-! ### Data of the drivers -/

/-- Names with data. -/
def withNames (drivers : List (List Byte × List Byte)) (ds : List (List Byte)) : List (List Byte × List Byte) :=
  (drivers.map (·.1)).zip ds

theorem withNames_induct {P : List (List Byte × List Byte) → List (List Byte) → Prop} (hnil : P [] [])
    (hcons : ∀ name initial drivers d ds, d.length = initial.length → Sized drivers ds → P drivers ds →
      P ((name, initial) :: drivers) (d :: ds)) :
    ∀ drivers ds, Sized drivers ds → P drivers ds := by
  intro drivers
  induction drivers with
  | nil =>
    intro ds h
    have : ds = [] := by simpa [Sized] using h
    subst this
    exact hnil
  | cons x drivers ih =>
    obtain ⟨name, initial⟩ := x
    intro ds h
    cases ds with
    | nil => simp [Sized] at h
    | cons d ds =>
      simp only [Sized, List.map_cons, List.cons.injEq] at h
      exact hcons _ _ _ _ _ h.1 h.2 (ih ds h.2)

theorem withNames_mem (drivers : List (List Byte × List Byte)) (ds : List (List Byte)) (h : Sized drivers ds) :
    ∀ z ∈ withNames drivers ds, ∃ d ∈ drivers, z.1 = d.1 ∧ z.2.length = d.2.length := by
  refine withNames_induct (P := fun drivers ds => ∀ z ∈ withNames drivers ds, ∃ d ∈ drivers, z.1 = d.1 ∧ z.2.length = d.2.length)
    ?_ ?_ drivers ds h
  · intro z hz; cases hz
  · intro name initial drivers d ds hd hs ih z hz
    simp only [withNames, List.map_cons, List.zip_cons_cons, List.mem_cons] at hz
    rcases hz with rfl | hz
    · exact ⟨(name, initial), by simp, rfl, hd⟩
    · obtain ⟨e, he, h1, h2⟩ := ih z hz
      exact ⟨e, by simp [he], h1, h2⟩

theorem withNames_apart (drivers : List (List Byte × List Byte)) (ds : List (List Byte)) (h : Sized drivers ds)
    (hd : drivers.Pairwise Apart) : (withNames drivers ds).Pairwise Apart := by
  refine withNames_induct (P := fun drivers ds => drivers.Pairwise Apart → (withNames drivers ds).Pairwise Apart)
    ?_ ?_ drivers ds h hd
  · intro _; exact .nil
  · intro name initial drivers d ds hd hs ih hp
    rw [List.pairwise_cons] at hp
    simp only [withNames, List.map_cons, List.zip_cons_cons]
    rw [List.pairwise_cons]
    refine ⟨fun z hz => ?_, ih hp.2⟩
    obtain ⟨e, he, h1, h2⟩ := withNames_mem drivers ds hs z hz
    rcases hp.1 e he with h | h
    · left; rw [h1]; exact h
    · right; rw [h2]; simpa [hd] using h

theorem withNames_space (drivers : List (List Byte × List Byte)) (ds : List (List Byte)) (h : Sized drivers ds) :
    space (withNames drivers ds) = space drivers := by
  refine withNames_induct (P := fun drivers ds => space (withNames drivers ds) = space drivers) ?_ ?_ drivers ds h
  · rfl
  · intro name initial drivers d ds hd hs ih
    simp only [space, withNames, List.map_cons, List.zip_cons_cons, List.sum_cons] at ih ⊢
    rw [ih, hd]

/-- What is loaded when the data are there. -/
theorem loaded (a : AMap) (drivers : List (List Byte × List Byte)) (ds : List (List Byte)) (h : Sized drivers ds)
    (hp : ∀ z ∈ withNames drivers ds, a.get z.1 z.2.length = some z.2) :
    (drivers.map fun d => (a.get d.1 d.2.length).getD d.2) = ds := by
  refine withNames_induct (P := fun drivers ds => (∀ z ∈ withNames drivers ds, a.get z.1 z.2.length = some z.2) →
    (drivers.map fun d => (a.get d.1 d.2.length).getD d.2) = ds) ?_ ?_ drivers ds h hp
  · intro _; rfl
  · intro name initial drivers d ds hd hs ih hp
    simp only [withNames, List.map_cons, List.zip_cons_cons, List.mem_cons, forall_eq_or_imp] at hp
    rw [List.map_cons, ih hp.2, ← hd, hp.1]
    rfl

theorem withNames_present (a : AMap) (drivers : List (List Byte × List Byte)) (ds ds' : List (List Byte))
    (h : Sized drivers ds) (h' : Sized drivers ds') (hp : ∀ z ∈ withNames drivers ds, a.get z.1 z.2.length = some z.2) :
    ∀ z ∈ withNames drivers ds', (a.get z.1 z.2.length).isSome := by
  refine withNames_induct (P := fun drivers ds => (∀ z ∈ withNames drivers ds, a.get z.1 z.2.length = some z.2) →
    ∀ ds', Sized drivers ds' → ∀ z ∈ withNames drivers ds', (a.get z.1 z.2.length).isSome) ?_ ?_ drivers ds h hp ds' h'
  · intro _ ds' _ z hz; cases hz
  · intro name initial drivers d ds hd hs ih hp ds' h' z hz
    cases ds' with
    | nil => cases hz
    | cons d' ds' =>
      simp only [Sized, List.map_cons, List.cons.injEq] at h'
      simp only [withNames, List.map_cons, List.zip_cons_cons, List.mem_cons, forall_eq_or_imp] at hp hz
      rcases hz with rfl | hz
      · simp only
        rw [h'.1, ← hd, hp.1]
        rfl
      · exact ih hp.2 ds' h'.2 z hz

/-! ### Waking up -/

/-- The storage has the data. -/
def Keeps (drivers : List (List Byte × List Byte)) (cap : Nat) (m : List Byte) (ds : List (List Byte)) : Prop :=
  ∃ s a, create m false = .ok s ∧ Implements s a ∧ s.mem.length = cap ∧
    ∀ z ∈ withNames drivers ds, a.get z.1 z.2.length = some z.2

theorem Good.save {drivers : List (List Byte × List Byte)} (hg : Good drivers) {ds : List (List Byte)} (hs : Sized drivers ds) :
    (∀ z ∈ withNames drivers ds, z.1.length ≤ 4) ∧ ∀ z ∈ withNames drivers ds, 6 + z.2.length < 65536 := by
  constructor
  · intro z hz
    obtain ⟨d, hd, h1, -⟩ := withNames_mem drivers ds hs z hz
    rw [h1]; exact hg.names d hd
  · intro z hz
    obtain ⟨d, hd, -, h1⟩ := withNames_mem drivers ds hs z hz
    rw [h1]; exact hg.sizes d hd

/-- Waking up with the data in the storage, or switching on. -/
theorem wake_exact (work : I → List (List Byte) → Res (List (List Byte) × O)) {drivers : List (List Byte × List Byte)}
    (hg : Good drivers) (ht : Typed work drivers) (init : Bool) (m : List Byte) (i : I) (ds : List (List Byte)) (cap : Nat)
    (hds : Sized drivers ds) (s : Store) (a : AMap) (hc : create m init = .ok s) (hi : Implements s a) (hl : s.mem.length = cap)
    (hcase : (a = AMap.empty ∧ ds = drivers.map (·.2) ∧ space drivers ≤ cap) ∨
      ∀ z ∈ withNames drivers ds, a.get z.1 z.2.length = some z.2) :
    (work i ds = .ub ∧ wake work drivers init m i = .ub) ∨ (work i ds = .hang ∧ wake work drivers init m i = .hang) ∨
    ∃ ds' o m', work i ds = .ok (ds', o) ∧ wake work drivers init m i = .ok (m', o) ∧ Sized drivers ds' ∧
      Keeps drivers cap m' ds' := by
  have hload : load s drivers = .ok ds := by
    rw [load_exact hi drivers hg.names hg.sizes]
    rcases hcase with ⟨rfl, rfl, -⟩ | h
    · congr 1
    · rw [loaded a drivers ds hds h]
  have hw : wake work drivers init m i = (do
      let (ds, o) ← work i ds
      let s ← save s (withNames drivers ds)
      .ok (s.mem, o)) := by
    unfold wake
    rw [hc, Res.bind_ok, hload, Res.bind_ok]
    rfl
  cases hr : work i ds with
  | ub => exact .inl ⟨rfl, by rw [hw, hr]; rfl⟩
  | hang => exact .inr (.inl ⟨rfl, by rw [hw, hr]; rfl⟩)
  | ok r =>
    obtain ⟨ds', o⟩ := r
    have hs' := ht i ds ds' o hds hr
    obtain ⟨g1, g2⟩ := hg.save hs'
    obtain ⟨s1, k1, k2, k3⟩ := save_exact hi hl (withNames drivers ds') g1 g2
    refine .inr (.inr ⟨ds', o, s1.mem, rfl, ?_, hs', s1, _, ?_, k2, k3, ?_⟩)
    · rw [hw, hr, Res.bind_ok]
      simp only
      rw [k1, Res.bind_ok]
    · obtain ⟨recs, rest, e1, e2, -, -⟩ := k2
      exact e1.reopen e2.stops
    · have hap := withNames_apart drivers ds' hs' hg.distinct
      rcases hcase with ⟨rfl, -, h⟩ | h
      · refine saved_absent cap AMap.empty _ hap (fun z _ => rfl) ?_
        rw [withNames_space drivers ds' hs']
        simpa [AMap.empty] using h
      · exact saved_present cap a _ hap (withNames_present a drivers ds ds' hds hs' h)

theorem initial_sized (drivers : List (List Byte × List Byte)) : Sized drivers (drivers.map (·.2)) := by
  simp [Sized]

theorem implements_new (m : List Byte) (hcap : CapOk m.length) :
    ∃ s, create m true = .ok s ∧ Implements s AMap.empty ∧ s.mem.length = m.length := by
  obtain ⟨s, h1, h2⟩ := Rep.create_true m hcap
  exact ⟨s, h1, ⟨[], _, h2, clean_zeros _, by rw [h2.head]; rfl, fun name n _ => rfl⟩, by rw [h2.mem]; simp⟩

/-- **C125**: whatever was in the memory when power was switched on, a program which keeps the data of its drivers in a
storage with room for them does the same, whether it sleeps between its steps or not, for every program (which may itself be
undefined or never end), any drivers with different names or sizes, and any number of wake-ups. -/
theorem sleep_transparent (work : I → List (List Byte) → Res (List (List Byte) × O)) (drivers : List (List Byte × List Byte))
    (hg : Good drivers) (ht : Typed work drivers) (m : List Byte) (hcap : CapOk m.length) (hroom : space drivers ≤ m.length)
    (input : Nat → I) (k : Nat) :
    done (life work drivers m input k) = done (awake work (drivers.map (·.2)) input k) := by
  suffices h : (awake work (drivers.map (·.2)) input k = .ub ∧ life work drivers m input k = .ub) ∨
      (awake work (drivers.map (·.2)) input k = .hang ∧ life work drivers m input k = .hang) ∨
      ∃ ds os m', awake work (drivers.map (·.2)) input k = .ok (ds, os) ∧ life work drivers m input k = .ok (m', os) ∧
        Sized drivers ds ∧ Keeps drivers m.length m' ds by
    rcases h with ⟨h1, h2⟩ | ⟨h1, h2⟩ | ⟨ds, os, m', h1, h2, -⟩ <;> rw [h1, h2] <;> rfl
  induction k with
  | zero =>
    obtain ⟨s, h1, h2, h3⟩ := implements_new m hcap
    rcases wake_exact work hg ht true m (input 0) _ m.length (initial_sized drivers) s _ h1 h2 h3 (.inl ⟨rfl, rfl, hroom⟩) with
      ⟨e1, e2⟩ | ⟨e1, e2⟩ | ⟨ds', o, m', e1, e2, e3, e4⟩
    · exact .inl ⟨by rw [awake, e1]; rfl, by rw [life, e2]; rfl⟩
    · exact .inr (.inl ⟨by rw [awake, e1]; rfl, by rw [life, e2]; rfl⟩)
    · exact .inr (.inr ⟨ds', [o], m', by rw [awake, e1]; rfl, by rw [life, e2]; rfl, e3, e4⟩)
  | succ k ih =>
    rcases ih with ⟨h1, h2⟩ | ⟨h1, h2⟩ | ⟨ds, os, m', h1, h2, hs, s, a, k1, k2, k3, k4⟩
    · exact .inl ⟨by rw [awake, h1]; rfl, by rw [life, h2]; rfl⟩
    · exact .inr (.inl ⟨by rw [awake, h1]; rfl, by rw [life, h2]; rfl⟩)
    · rw [awake, h1, Res.bind_ok, life, h2, Res.bind_ok]
      rcases wake_exact work hg ht false m' (input (k + 1)) ds m.length hs s a k1 k2 k3 (.inr k4) with
        ⟨e1, e2⟩ | ⟨e1, e2⟩ | ⟨ds', o, m1, e1, e2, e3, e4⟩
      · exact .inl ⟨by simp only; rw [e1]; rfl, by simp only; rw [e2]; rfl⟩
      · exact .inr (.inl ⟨by simp only; rw [e1]; rfl, by simp only; rw [e2]; rfl⟩)
      · exact .inr (.inr ⟨ds', os ++ [o], m1, by simp only; rw [e1]; rfl, by simp only; rw [e2]; rfl, e3, e4⟩)

/-- **C125**: without room for all data there is always a driver which finds nothing after the first sleep, whatever it had saved,
and begins anew; no call tells the program unless it looks at the result of `set`. -/
theorem sleep_forgets (work : I → List (List Byte) → Res (List (List Byte) × O)) (drivers : List (List Byte × List Byte))
    (hg : Good drivers) (ht : Typed work drivers) (m : List Byte) (hcap : CapOk m.length) (hroom : m.length < space drivers)
    (i : I) (ds : List (List Byte)) (o : O) (hw : work i (drivers.map (·.2)) = .ok (ds, o)) :
    ∃ m' s d, wake work drivers true m i = .ok (m', o) ∧ create m' false = .ok s ∧ d ∈ drivers ∧
      Storage.get s d.1 d.2.length = .ok none := by
  obtain ⟨s, h1, h2, h3⟩ := implements_new m hcap
  have hs' := ht i _ ds o (initial_sized drivers) hw
  obtain ⟨g1, g2⟩ := hg.save hs'
  obtain ⟨s1, k1, k2, k3⟩ := save_exact h2 h3 (withNames drivers ds) g1 g2
  have hload : load s drivers = .ok (drivers.map (·.2)) := by
    rw [load_exact h2 drivers hg.names hg.sizes]
    congr 1
  have hc : create s1.mem false = .ok s1 := by
    obtain ⟨recs, rest, e1, e2, -, -⟩ := k2
    exact e1.reopen e2.stops
  obtain ⟨z, hz, hz2⟩ := saved_lost m.length AMap.empty _ (withNames_apart drivers ds hs' hg.distinct) (fun z _ => rfl)
    (Nat.zero_le _) (by rw [withNames_space drivers ds hs']; simpa [AMap.empty] using hroom)
  obtain ⟨d, hd, e1, e2⟩ := withNames_mem drivers ds hs' z hz
  refine ⟨s1.mem, s1, d, ?_, hc, hd, ?_⟩
  · unfold wake
    rw [h1, Res.bind_ok, hload, Res.bind_ok, hw, Res.bind_ok]
    simp only
    rw [show (drivers.map (·.1)).zip ds = withNames drivers ds from rfl, k1, Res.bind_ok]
  · rw [implements_get k2 (hg.names d hd) (hg.sizes d hd), ← e1, ← e2, hz2]

/-! ## A concrete case -/

/-- Two drivers with one and two bytes; the program adds what it finds around it to the first and tells the sum. -/
def adder (i : Byte) : List (List Byte) → Res (List (List Byte) × Byte)
  | [[x], y] => .ok ([[x + i], y], x + i)
  | _ => .ub

example : Good [([0x61], [0]), ([0x62], [7, 8])] ∧ Typed adder [([0x61], [0]), ([0x62], [7, 8])] ∧
    done (life adder [([0x61], [0]), ([0x62], [7, 8])] (List.replicate 20 0xFF) (fun k => BitVec.ofNat 8 (k + 1)) 3) =
      .ok [1, 3, 6, 10] := by
  refine ⟨⟨by decide, by decide, by decide⟩, ?_, by decide +kernel⟩
  intro i ds ds' o hs h
  match ds, hs, h with
  | [[x], y], hs, h =>
    simp only [adder, Res.ok.injEq, Prod.mk.injEq] at h
    obtain ⟨rfl, -⟩ := h
    simpa [Sized] using hs

/-- Ten bytes are not enough: the first driver finds its data, the second does not. -/
example : ∃ m', wake adder [([0x61], [0]), ([0x62], [7, 8])] true (List.replicate 10 0xFF) 1 = .ok (m', 1) ∧
    load ⟨m', 7⟩ [([0x61], [0]), ([0x62], [7, 9])] = .ok [[1], [7, 9]] :=
  ⟨_, rfl, by decide +kernel⟩

end Verif.App.Sleep
