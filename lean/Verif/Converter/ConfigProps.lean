import Verif.Converter.ConfigModel
import Verif.Out.Lemmas
/-!
# C73: the converter's configuration is what the command line says
-/
namespace Verif.Converter.Config
open Verif Verif.Converter Verif.Out

/-! ### Specification -/

/-- What can be said on the command line. -/
inductive Setting where
  | font (v : List Byte)
  | output (v : List Byte)
  | dpi (n : Int)
  | size (n : Int)
  | encoding (v : List Byte)
  | binary
  | help
  /-- an argument which is no option -/
  | other (v : List Byte)

/-- An option with its argument in the same (`-fX`) or in a separate (`-f X`) argument. -/
def spell (letter : Byte) (value : List Byte) (attached : Bool) : List (List Byte) :=
  if attached then [0x2D :: letter :: value] else [[0x2D, letter], value]

/-- The arguments of a setting. -/
def Setting.args : Setting × Bool → List (List Byte)
  | (.font v, a) => spell 0x66 v a
  | (.output v, a) => spell 0x6F v a
  | (.dpi n, a) => spell 0x64 (intDec n) a
  | (.size n, a) => spell 0x73 (intDec n) a
  | (.encoding v, a) => spell 0x65 v a
  | (.binary, _) => [b!"-b"]
  | (.help, _) => [b!"-h"]
  | (.other v, _) => [v]

/-- The setting can be written down like this and is meaningful: an attached value is not empty, numbers are of type
`int`, encoding names are ASCII. -/
def Setting.Valid : Setting × Bool → Prop
  | (.font v, a) => a = true → v ≠ []
  | (.output v, a) => a = true → v ≠ []
  | (.dpi n, _) => -2147483648 ≤ n ∧ n ≤ 2147483647
  | (.size n, _) => -2147483648 ≤ n ∧ n ≤ 2147483647
  | (.encoding v, a) => (a = true → v ≠ []) ∧ ∀ c ∈ v, c.toNat < 128
  | (.other v, _) => v = [0x2D] ∨ v.head? ≠ some 0x2D
  | _ => True

/-- The last setting of a kind counts. -/
def lastOf {α} (f : Setting → Option α) (ss : List Setting) : Option α := (ss.filterMap f).getLast?

def Setting.font? : Setting → Option (List Byte) | .font v => some v | _ => none
def Setting.output? : Setting → Option (List Byte) | .output v => some v | _ => none
def Setting.dpi? : Setting → Option Int | .dpi n => some n | _ => none
def Setting.size? : Setting → Option Int | .size n => some n | _ => none
def Setting.encoding? : Setting → Option (List Byte) | .encoding v => some v | _ => none
def Setting.isBinary : Setting → Bool | .binary => true | _ => false
def Setting.isHelp : Setting → Bool | .help => true | _ => false

/-- Capital letter. -/
def capital (c : Byte) : Byte := if 0x61 ≤ c.toNat ∧ c.toNat ≤ 0x7A then BitVec.ofNat 8 (c.toNat - 32) else c

/-- The configuration described by settings. -/
def described (ss : List Setting) : Config :=
  let enc := ((lastOf Setting.encoding? ss).getD b!"ASCII").map capital
  { fontFileName := (lastOf Setting.font? ss).getD []
    outputDirectory := (lastOf Setting.output? ss).getD []
    encoding := enc
    dpi := (lastOf Setting.dpi? ss).getD 141
    fontSize := (lastOf Setting.size? ss).getD 12
    firstChar := 0x20
    lastChar := if enc = b!"ASCII" then 0x7E else 0xFF
    format := if ss.any Setting.isBinary then .binary else .header
    printHelp := ss.any Setting.isHelp }

/-! ### Numbers -/

theorem digit_cases (c : Byte) : isDigitC c = decide (48 ≤ c.toNat ∧ c.toNat ≤ 57) := by
  unfold isDigitC
  rw [Bool.eq_iff_iff]
  simp only [Bool.and_eq_true, decide_eq_true_eq, BitVec.le_def]
  exact Iff.rfl

theorem digitsValue_parse (ds : List Byte) (h : ∀ c ∈ ds, isDigitC c = true) (acc : Nat) :
    parseNatAux acc ds = some (ds.foldl (fun v c => v * 10 + (c.toNat - 48)) acc) := by
  induction ds generalizing acc with
  | nil => rfl
  | cons c ds ih =>
    have hc := h c (by simp)
    rw [digit_cases, decide_eq_true_eq] at hc
    rw [parseNatAux, digitVal, if_pos hc]
    exact ih (fun c hc => h c (by simp [hc])) _

theorem takeWhile_stop {p : Byte → Bool} (a b : List Byte) (ha : ∀ c ∈ a, p c = true)
    (hb : ∀ c, b.head? = some c → p c = false) : (a ++ b).takeWhile p = a := by
  induction a with
  | nil =>
    cases b with
    | nil => rfl
    | cons c b => simp [hb c rfl]
  | cons x a ih =>
    rw [List.cons_append, List.takeWhile_cons, ha x (by simp), if_pos rfl, ih (fun c hc => ha c (by simp [hc]))]

theorem dropWhile_stop {p : Byte → Bool} (a b : List Byte) (ha : ∀ c ∈ a, p c = true)
    (hb : ∀ c, b.head? = some c → p c = false) : (a ++ b).dropWhile p = b := by
  induction a with
  | nil =>
    cases b with
    | nil => rfl
    | cons c b => simp [hb c rfl]
  | cons x a ih =>
    rw [List.cons_append, List.dropWhile_cons, ha x (by simp), if_pos rfl, ih (fun c hc => ha c (by simp [hc]))]

theorem digit_facts : ∀ c : Byte, isDigitC c = true → isSpaceC c = false ∧ c ≠ 0x2D ∧ c ≠ 0x2B := by decide +kernel

/-- **C73**: numbers.  White space, a sign and digits are read as the number they denote, anything may follow; values
outside of `int` are rejected. -/
theorem stoi_number (ws sign ds tail : List Byte) (v : Nat) (hws : ∀ c ∈ ws, isSpaceC c = true)
    (hsign : sign = [] ∨ sign = b!"+" ∨ sign = b!"-") (hne : ds ≠ []) (hds : ∀ c ∈ ds, isDigitC c = true)
    (htail : ∀ c, tail.head? = some c → isDigitC c = false) (hv : parseNatAux 0 ds = some v) :
    stoi (ws ++ sign ++ ds ++ tail) =
      (let n : Int := if sign = b!"-" then -v else v
       if -2147483648 ≤ n ∧ n ≤ 2147483647 then some n else none) := by
  have hval : digitsValue ds = v := by
    rw [digitsValue_parse ds hds 0] at hv
    exact Option.some.inj hv
  have ht : (ds ++ tail).takeWhile isDigitC = ds := takeWhile_stop ds tail hds htail
  obtain ⟨d, ds', rfl⟩ : ∃ d ds', ds = d :: ds' := by
    cases ds with
    | nil => exact absurd rfl hne
    | cons d ds' => exact ⟨d, ds', rfl⟩
  obtain ⟨f1, f2, f3⟩ := digit_facts d (hds d (by simp))
  rw [List.append_assoc, List.append_assoc]
  have hd : (ws ++ (sign ++ (d :: ds' ++ tail))).dropWhile isSpaceC = sign ++ (d :: ds' ++ tail) := by
    apply dropWhile_stop _ _ hws
    intro c hc
    rcases hsign with rfl | rfl | rfl
    · simp only [List.nil_append, List.cons_append, List.head?_cons, Option.some.injEq] at hc
      rw [← hc]; exact f1
    · simp only [List.cons_append, List.head?_cons, Option.some.injEq] at hc
      rw [← hc]; rfl
    · simp only [List.cons_append, List.head?_cons, Option.some.injEq] at hc
      rw [← hc]; rfl
  unfold stoi
  simp only [hd]
  rcases hsign with rfl | rfl | rfl
  · have e : splitSign ([] ++ (d :: ds' ++ tail)) = (false, d :: ds' ++ tail) := by
      rw [List.nil_append, List.cons_append, splitSign, if_neg f2, if_neg f3]
    simp only [e, ht, hval]
    simp
  · have e : splitSign (b!"+" ++ (d :: ds' ++ tail)) = (false, d :: ds' ++ tail) := rfl
    simp only [e, ht, hval]
    simp
  · have e : splitSign (b!"-" ++ (d :: ds' ++ tail)) = (true, d :: ds' ++ tail) := rfl
    simp only [e, ht, hval]
    simp

/-- **C73**: anything without a digit after white space and sign is rejected. -/
theorem stoi_no_number (ws sign tail : List Byte) (hws : ∀ c ∈ ws, isSpaceC c = true)
    (hsign : sign = b!"+" ∨ sign = b!"-" ∨ (sign = [] ∧ ∀ c, tail.head? = some c → isSpaceC c = false ∧ c ≠ 0x2D ∧ c ≠ 0x2B))
    (htail : ∀ c, tail.head? = some c → isDigitC c = false) : stoi (ws ++ sign ++ tail) = none := by
  have ht : tail.takeWhile isDigitC = [] := by
    have := takeWhile_stop (p := isDigitC) [] tail (by simp) htail
    simpa using this
  rw [List.append_assoc]
  have hd : (ws ++ (sign ++ tail)).dropWhile isSpaceC = sign ++ tail := by
    apply dropWhile_stop _ _ hws
    intro c hc
    rcases hsign with rfl | rfl | ⟨rfl, h⟩
    · simp only [List.cons_append, List.head?_cons, Option.some.injEq] at hc
      rw [← hc]; rfl
    · simp only [List.cons_append, List.head?_cons, Option.some.injEq] at hc
      rw [← hc]; rfl
    · exact (h c (by simpa using hc)).1
  unfold stoi
  simp only [hd]
  rcases hsign with rfl | rfl | ⟨rfl, h⟩
  · have e : splitSign (b!"+" ++ tail) = (false, tail) := rfl
    simp only [e, ht, if_true]
  · have e : splitSign (b!"-" ++ tail) = (true, tail) := rfl
    simp only [e, ht, if_true]
  · have e : splitSign ([] ++ tail) = (false, tail) := by
      cases tail with
      | nil => rfl
      | cons c r =>
        have := h c rfl
        rw [List.nil_append, splitSign, if_neg this.2.1, if_neg this.2.2]
    simp only [e, ht, if_true]

theorem natDecF_isDigit (fuel n : Nat) : ∀ c ∈ natDecF fuel n, isDigitC c = true := by
  induction fuel generalizing n with
  | zero => simp [natDecF]
  | succ fuel ih =>
    intro c hc
    unfold natDecF at hc
    have hlt : n % 10 < 10 := Nat.mod_lt _ (by omega)
    have hdig : ∀ d, d < 10 → isDigitC (BitVec.ofNat 8 (48 + d)) = true := by decide
    split at hc
    · rw [List.mem_singleton] at hc
      rw [hc]; exact hdig _ (by omega)
    · rcases List.mem_append.1 hc with h | h
      · exact ih _ c h
      · rw [List.mem_singleton] at h
        rw [h]; exact hdig _ hlt

/-- The decimal text of every `int` is read back. -/
theorem stoi_intDec (n : Int) (h : -2147483648 ≤ n ∧ n ≤ 2147483647) : stoi (intDec n) = some n := by
  have hp := intDec_parse n
  unfold intDec at hp ⊢
  split
  · rename_i hneg
    rw [if_pos hneg] at hp
    have hdig : ∀ c ∈ natDec n.natAbs, isDigitC c = true := fun c hc => natDecF_isDigit _ _ c hc
    have hne : natDec n.natAbs ≠ [] := by
      intro he
      rw [he] at hp
      simp [parseInt] at hp
    have hv := digitsValue_parse _ hdig 0
    have := stoi_number [] b!"-" (natDec n.natAbs) [] _ (by simp) (.inr (.inr rfl)) hne hdig (by simp) hv
    simp only [List.nil_append, List.append_nil, List.cons_append, if_pos] at this
    rw [this]
    simp only [parseInt, hne, if_false, if_true, hv, Option.map_some, Option.some.injEq] at hp
    rw [hp, if_pos h]
  · rename_i hneg
    rw [if_neg hneg] at hp
    have hdig : ∀ c ∈ natDec n.natAbs, isDigitC c = true := fun c hc => natDecF_isDigit _ _ c hc
    have hne : natDec n.natAbs ≠ [] := by
      intro he
      rw [he] at hp
      simp [parseInt] at hp
    have hv := digitsValue_parse _ hdig 0
    have := stoi_number [] [] (natDec n.natAbs) [] _ (by simp) (.inl rfl) hne hdig (by simp) hv
    simp only [List.nil_append, List.append_nil] at this
    rw [this]
    have e : parseInt (natDec n.natAbs) = (parseNatAux 0 (natDec n.natAbs)).map (fun v : Nat => (v : Int)) := by
      cases hd : natDec n.natAbs with
      | nil => exact absurd hd hne
      | cons c cs =>
        have : c ≠ 45 := (digit_facts c (hdig c (by rw [hd]; simp))).2.1
        simp only [parseInt]
        rw [if_neg this]
    rw [e, hv] at hp
    simp only [Option.map_some, Option.some.injEq] at hp
    simp only [List.ne_cons_self, if_false, hp, if_pos h]

/-! ### Options -/

/-- What `getopt` returns for a setting. -/
def Setting.opt? : Setting → Option Opt
  | .font v => some (.arg 0x66 v)
  | .output v => some (.arg 0x6F v)
  | .dpi n => some (.arg 0x64 (intDec n))
  | .size n => some (.arg 0x73 (intDec n))
  | .encoding v => some (.arg 0x65 v)
  | .binary => some (.flag 0x62)
  | .help => some (.flag 0x68)
  | .other _ => none

theorem getopt_spell (c : Byte) (v : List Byte) (a : Bool) (rest : List (List Byte)) (hc : takesArg c = true)
    (hd : c ≠ 0x2D) (ha : a = true → v ≠ []) : getopt none (spell c v a ++ rest) = .arg c v :: getopt none rest := by
  have h1 : (0x2D :: c :: v : List Byte) ≠ b!"--" := by
    intro h; exact hd (List.cons.inj (List.cons.inj h).2).1
  have h2 : ([0x2D, c] : List Byte) ≠ b!"--" := by
    intro h; exact hd (List.cons.inj (List.cons.inj h).2).1
  cases a with
  | true =>
    simp only [spell, if_true, List.cons_append, List.nil_append]
    rw [getopt, if_neg h1, if_pos ⟨rfl, by simp⟩]
    simp only [List.tail_cons, cluster, hc, if_true, if_neg (ha rfl)]
    rfl
  | false =>
    simp only [spell, Bool.false_eq_true, if_false, List.cons_append, List.nil_append]
    rw [getopt, if_neg h2, if_pos ⟨rfl, by simp⟩]
    simp only [List.tail_cons, cluster, hc, if_true]
    rfl

theorem getopt_setting (s : Setting) (a : Bool) (h : Setting.Valid (s, a)) (rest : List (List Byte)) :
    getopt none (Setting.args (s, a) ++ rest) = s.opt?.toList ++ getopt none rest := by
  have hne : ∀ n : Int, intDec n ≠ [] := fun n h => by
    have := intDec_length_pos n
    rw [h] at this; exact absurd this (by simp)
  cases s with
  | font v => exact getopt_spell _ v a rest rfl (by decide) h
  | output v => exact getopt_spell _ v a rest rfl (by decide) h
  | dpi n => exact getopt_spell _ _ a rest rfl (by decide) (fun _ => hne n)
  | size n => exact getopt_spell _ _ a rest rfl (by decide) (fun _ => hne n)
  | encoding v => exact getopt_spell _ v a rest rfl (by decide) h.1
  | binary => rfl
  | help => rfl
  | other v =>
    simp only [Setting.args, Setting.opt?, Option.toList, List.cons_append, List.nil_append]
    rcases h with rfl | h
    · rfl
    · rw [getopt, if_neg (by rintro rfl; exact h rfl)]
      rw [if_neg (fun hc => h hc.1)]

theorem getopt_settings (ss : List (Setting × Bool)) (h : ∀ s ∈ ss, Setting.Valid s) :
    getopt none (ss.flatMap Setting.args) = (ss.map Prod.fst).filterMap Setting.opt? := by
  induction ss with
  | nil => rfl
  | cons s ss ih =>
    rw [List.flatMap_cons, getopt_setting s.1 s.2 (h s (by simp)), ih (fun s hs => h s (by simp [hs])), List.map_cons,
      List.filterMap_cons]
    cases s.1.opt? <;> rfl

theorem lastOf_cons {α} (f : Setting → Option α) (s : Setting) (ss : List Setting) (d : α) :
    (lastOf f (s :: ss)).getD d = (lastOf f ss).getD ((f s).getD d) := by
  unfold lastOf
  rw [List.filterMap_cons]
  cases f s with
  | none => rfl
  | some a => simp only [List.getLast?_cons, Option.getD_some]

theorem applyAll_settings (ss : List Setting) (h : ∀ s ∈ ss, ∃ a, Setting.Valid (s, a)) (c : Config) :
    c.applyAll (ss.filterMap Setting.opt?) =
      some { c with
        fontFileName := (lastOf Setting.font? ss).getD c.fontFileName
        outputDirectory := (lastOf Setting.output? ss).getD c.outputDirectory
        encoding := (lastOf Setting.encoding? ss).getD c.encoding
        dpi := (lastOf Setting.dpi? ss).getD c.dpi
        fontSize := (lastOf Setting.size? ss).getD c.fontSize
        format := if ss.any Setting.isBinary then .binary else c.format
        printHelp := ss.any Setting.isHelp || c.printHelp } := by
  induction ss generalizing c with
  | nil => simp [Config.applyAll, lastOf]
  | cons s ss ih =>
    obtain ⟨a, hv⟩ := h s (by simp)
    have ih' := ih (fun s hs => h s (by simp [hs]))
    simp only [lastOf_cons, List.any_cons, List.filterMap_cons]
    cases s with
    | font v =>
      simp only [Setting.opt?, Config.applyAll, Config.apply]
      simp [ih', Setting.font?, Setting.output?, Setting.encoding?, Setting.dpi?, Setting.size?, Setting.isBinary, Setting.isHelp]
    | output v =>
      simp only [Setting.opt?, Config.applyAll, Config.apply]
      simp [ih', Setting.font?, Setting.output?, Setting.encoding?, Setting.dpi?, Setting.size?, Setting.isBinary, Setting.isHelp]
    | dpi n =>
      simp only [Setting.opt?, Config.applyAll, Config.apply, stoi_intDec n hv]
      simp [ih', Setting.font?, Setting.output?, Setting.encoding?, Setting.dpi?, Setting.size?, Setting.isBinary, Setting.isHelp]
    | size n =>
      simp only [Setting.opt?, Config.applyAll, Config.apply, stoi_intDec n hv]
      simp [ih', Setting.font?, Setting.output?, Setting.encoding?, Setting.dpi?, Setting.size?, Setting.isBinary, Setting.isHelp]
    | encoding v =>
      simp only [Setting.opt?, Config.applyAll, Config.apply]
      simp [ih', Setting.font?, Setting.output?, Setting.encoding?, Setting.dpi?, Setting.size?, Setting.isBinary, Setting.isHelp]
    | binary =>
      simp only [Setting.opt?, Config.applyAll, Config.apply]
      simp [ih', Setting.font?, Setting.output?, Setting.encoding?, Setting.dpi?, Setting.size?, Setting.isBinary, Setting.isHelp]
    | help =>
      simp only [Setting.opt?, Config.applyAll, Config.apply]
      simp [ih', Setting.font?, Setting.output?, Setting.encoding?, Setting.dpi?, Setting.size?, Setting.isBinary, Setting.isHelp]
    | other v =>
      simp only [Setting.opt?]
      simp [ih', Setting.font?, Setting.output?, Setting.encoding?, Setting.dpi?, Setting.size?, Setting.isBinary, Setting.isHelp]

theorem toupper_capital : ∀ c : Byte, c.toNat < 128 ∨ c = 0xFF → toupper c = .ok (capital c) := by decide +kernel

theorem upper_capital (v : List Byte) (h : ∀ c ∈ v, c.toNat < 128 ∨ c = 0xFF) : upper v = .ok (v.map capital) := by
  induction v with
  | nil => rfl
  | cons c v ih =>
    rw [upper, toupper_capital c (h c (by simp)), Res.bind_ok, ih (fun c hc => h c (by simp [hc]))]
    rfl

theorem lastOf_mem {α} {f : Setting → Option α} {ss : List Setting} {a : α} (h : lastOf f ss = some a) :
    ∃ s ∈ ss, f s = some a := by
  have := List.mem_of_getLast? h
  exact List.mem_filterMap.1 this

/-- **C73**: whatever settings are given, in any order and spelling, with any other arguments between them, the
configuration is the one they describe. -/
theorem config_as_described_partial (ss : List (Setting × Bool)) (h : ∀ s ∈ ss, Setting.Valid s) :
    Config.parse (ss.flatMap Setting.args) = .ok (some (described (ss.map Prod.fst))) := by
  have hasc : ∀ c ∈ (lastOf Setting.encoding? (ss.map Prod.fst)).getD b!"ASCII", c.toNat < 128 := by
    cases hl : lastOf Setting.encoding? (ss.map Prod.fst) with
    | none => decide
    | some v =>
      obtain ⟨s, hs, hv⟩ := lastOf_mem hl
      obtain ⟨⟨s', a⟩, hm, rfl⟩ := List.mem_map.1 hs
      have := h _ hm
      cases s' <;> simp only [Setting.encoding?, reduceCtorEq, Option.some.injEq] at hv
      subst hv
      exact this.2
  have e : Config.init.encoding = b!"ASCII" := rfl
  have hmap : ∀ s ∈ ss.map Prod.fst, ∃ a, Setting.Valid (s, a) := by
    intro s hs
    obtain ⟨⟨s', a⟩, hm, rfl⟩ := List.mem_map.1 hs
    exact ⟨a, h _ hm⟩
  unfold Config.parse
  rw [getopt_settings ss h, applyAll_settings (ss.map Prod.fst) hmap Config.init]
  simp only [e]
  rw [upper_capital _ (fun c hc => .inl (hasc c hc))]
  simp [described, Config.init]

/-- The encoding is recognised as ASCII whatever the case of its letters. -/
theorem ascii_any_case (v : List Byte) :
    v.map capital = b!"ASCII" ↔
      ∃ a s c i j, v = [a, s, c, i, j] ∧ (a = 0x41 ∨ a = 0x61) ∧ (s = 0x53 ∨ s = 0x73) ∧ (c = 0x43 ∨ c = 0x63) ∧
        (i = 0x49 ∨ i = 0x69) ∧ (j = 0x49 ∨ j = 0x69) := by
  have k : ∀ c : Byte, (capital c = 0x41 ↔ c = 0x41 ∨ c = 0x61) ∧ (capital c = 0x53 ↔ c = 0x53 ∨ c = 0x73) ∧
      (capital c = 0x43 ↔ c = 0x43 ∨ c = 0x63) ∧ (capital c = 0x49 ↔ c = 0x49 ∨ c = 0x69) := by decide +kernel
  constructor
  · intro h
    have hl : v.length = 5 := by have := congrArg List.length h; simpa using this
    rcases v with _ | ⟨a, _ | ⟨s, _ | ⟨c, _ | ⟨i, _ | ⟨j, _ | ⟨x, v⟩⟩⟩⟩⟩⟩ <;> simp only [List.length_cons, List.length_nil] at hl <;>
      first | omega | skip
    · simp only [List.map_cons, List.map_nil, List.cons.injEq, and_true] at h
      obtain ⟨h1, h2, h3, h4, h5⟩ := h
      exact ⟨a, s, c, i, j, rfl, (k a).1.1 h1, (k s).2.1.1 h2, (k c).2.2.1.1 h3, (k i).2.2.2.1 h4, (k j).2.2.2.1 h5⟩
  · rintro ⟨a, s, c, i, j, rfl, h1, h2, h3, h4, h5⟩
    simp only [List.map_cons, List.map_nil, (k a).1.2 h1, (k s).2.1.2 h2, (k c).2.2.1.2 h3, (k i).2.2.2.2 h4,
      (k j).2.2.2.2 h5]

/-! ### Arbitrary arguments -/

theorem applyAll_none (c : Config) (os : List Opt) :
    c.applyAll os = none ↔ ∃ v, (.arg 0x64 v ∈ os ∨ .arg 0x73 v ∈ os) ∧ stoi v = none := by
  induction os generalizing c with
  | nil => simp [Config.applyAll]
  | cons o os ih =>
    have key : c.apply o = none ↔ ∃ v, (o = .arg 0x64 v ∨ o = .arg 0x73 v) ∧ stoi v = none := by
      cases o with
      | flag f => simp only [Config.apply]; split <;> simp
      | arg x v =>
        simp only [Config.apply, Opt.arg.injEq]
        constructor
        · intro h
          split at h
          · cases h
          split at h
          · cases h
          split at h
          · rename_i hx; exact ⟨v, .inl ⟨hx, rfl⟩, by simpa using h⟩
          split at h
          · rename_i hx; exact ⟨v, .inr ⟨hx, rfl⟩, by simpa using h⟩
          split at h <;> cases h
        · rintro ⟨w, ⟨rfl, rfl⟩ | ⟨rfl, rfl⟩, hw⟩
          · simp [hw]
          · simp [hw]
    rw [Config.applyAll]
    cases ha : c.apply o with
    | none =>
      obtain ⟨v, hv, hn⟩ := key.1 ha
      simp only [true_iff]
      exact ⟨v, hv.imp (fun h => by simp [h]) (fun h => by simp [h]), hn⟩
    | some c' =>
      simp only [ih, List.mem_cons]
      constructor
      · rintro ⟨v, hv, hn⟩
        exact ⟨v, hv.imp .inr .inr, hn⟩
      · rintro ⟨v, hv, hn⟩
        refine ⟨v, ?_, hn⟩
        have hno : ¬ ∃ v, (o = .arg 0x64 v ∨ o = .arg 0x73 v) ∧ stoi v = none := by
          rw [← key, ha]; simp
        rcases hv with (h | h) | (h | h)
        · exact absurd ⟨v, .inl h.symm, hn⟩ hno
        · exact .inl h
        · exact absurd ⟨v, .inr h.symm, hn⟩ hno
        · exact .inr h

/-- Finding for **C73**: for any arguments, the constructor throws exactly if a resolution or size is not a number;
`main` constructs the configuration outside of its `try` block (main.cpp:257), so the program is terminated. -/
theorem exception_iff (args : List (List Byte)) :
    Config.parse args = .ok none ↔
      ∃ v, (.arg 0x64 v ∈ getopt none args ∨ .arg 0x73 v ∈ getopt none args) ∧ stoi v = none := by
  rw [← applyAll_none Config.init]
  unfold Config.parse
  cases Config.init.applyAll (getopt none args) with
  | none => simp
  | some c =>
    simp only [reduceCtorEq, iff_false]
    intro h
    rw [Res.bind_eq_ok] at h
    obtain ⟨_, _, h⟩ := h
    cases h

theorem upper_ub (v : List Byte) : upper v = .ub ↔ ∃ c ∈ v, 0x80 ≤ c.toNat ∧ c.toNat ≤ 0xFE := by
  have k1 : ∀ c : Byte, (0x80 ≤ c.toNat ∧ c.toNat ≤ 0xFE) → toupper c = .ub := by decide +kernel
  have k2 : ∀ c : Byte, ¬ (0x80 ≤ c.toNat ∧ c.toNat ≤ 0xFE) → toupper c = .ok (capital c) := by decide +kernel
  induction v with
  | nil => simp [upper]
  | cons c v ih =>
    rw [upper]
    by_cases hc : 0x80 ≤ c.toNat ∧ c.toNat ≤ 0xFE
    · rw [k1 c hc]
      simp only [Res.bind_ub, true_iff]
      exact ⟨c, by simp, hc⟩
    · rw [k2 c hc, Res.bind_ok]
      have : (∃ d ∈ c :: v, 0x80 ≤ d.toNat ∧ d.toNat ≤ 0xFE) ↔ ∃ d ∈ v, 0x80 ≤ d.toNat ∧ d.toNat ≤ 0xFE := by
        simp only [List.mem_cons]
        constructor
        · rintro ⟨d, rfl | hd, h⟩
          · exact absurd h hc
          · exact ⟨d, hd, h⟩
        · rintro ⟨d, hd, h⟩; exact ⟨d, .inr hd, h⟩
      refine Iff.trans ?_ (ih.trans this.symm)
      cases upper v with
      | ok w => simp
      | ub => simp
      | hang => simp

/-- Finding for **C73**: an encoding name with a character from 0x80 to 0xFE is undefined behaviour. -/
theorem encoding_ub (v : List Byte) (c : Byte) (hc : c ∈ v) (h : 0x80 ≤ c.toNat ∧ c.toNat ≤ 0xFE) :
    Config.parse [b!"-e", v] = .ub := by
  have e : Config.init.applyAll (getopt none [b!"-e", v]) = some { Config.init with encoding := v } := rfl
  unfold Config.parse
  rw [e]
  simp only
  rw [(upper_ub v).2 ⟨c, hc, h⟩]
  rfl

/-- **C73**: a bad option or a missing argument leads to the help text (unless a number is bad). -/
theorem bad_option_help (args : List (List Byte)) (h : .flag 0x3F ∈ getopt none args) (c : Config)
    (hc : Config.parse args = .ok (some c)) : c.printHelp = true := by
  have keep : ∀ (os : List Opt) (c c' : Config), c.printHelp = true → c.applyAll os = some c' → c'.printHelp = true := by
    intro os
    induction os with
    | nil => intro c c' h1 h2; cases h2; exact h1
    | cons o os ih =>
      intro c c' h1 h2
      rw [Config.applyAll] at h2
      cases ha : c.apply o with
      | none => rw [ha] at h2; cases h2
      | some d =>
        rw [ha] at h2
        refine ih d c' ?_ h2
        cases o with
        | flag f =>
          simp only [Config.apply] at ha
          split at ha <;> cases ha <;> simp [h1]
        | arg x v =>
          simp only [Config.apply] at ha
          split at ha
          · cases ha; exact h1
          split at ha
          · cases ha; exact h1
          split at ha
          · rw [Option.map_eq_some_iff] at ha; obtain ⟨_, _, rfl⟩ := ha; exact h1
          split at ha
          · rw [Option.map_eq_some_iff] at ha; obtain ⟨_, _, rfl⟩ := ha; exact h1
          split at ha
          · cases ha; exact h1
          · cases ha; rfl
  have main : ∀ (os : List Opt) (c c' : Config), .flag 0x3F ∈ os → c.applyAll os = some c' → c'.printHelp = true := by
    intro os
    induction os with
    | nil => intro c c' h1; simp at h1
    | cons o os ih =>
      intro c c' h1 h2
      rw [Config.applyAll] at h2
      cases ha : c.apply o with
      | none => rw [ha] at h2; cases h2
      | some d =>
        rw [ha] at h2
        rcases List.mem_cons.1 h1 with rfl | h1
        · refine keep os d c' ?_ h2
          simp [Config.apply] at ha
          rw [← ha]
        · exact ih d c' h1 h2
  unfold Config.parse at hc
  cases ha : Config.init.applyAll (getopt none args) with
  | none => rw [ha] at hc; cases hc
  | some d =>
    rw [ha] at hc
    simp only at hc
    rw [Res.bind_eq_ok] at hc
    obtain ⟨e, _, hc⟩ := hc
    cases hc
    exact main _ _ d h ha

/-- **C73**: converter and header writer agree on the last character (main.cpp:119 and FontConverterConfig.cpp:45-52). -/
theorem last_char_agrees (args : List (List Byte)) (c : Config) (hc : Config.parse args = .ok (some c))
    (file name : List Byte) : (GlyphStream.new file name c.encoding).lastChar = c.lastChar := by
  unfold Config.parse at hc
  cases ha : Config.init.applyAll (getopt none args) with
  | none => rw [ha] at hc; cases hc
  | some d =>
    rw [ha] at hc
    simp only at hc
    rw [Res.bind_eq_ok] at hc
    obtain ⟨e, _, hc⟩ := hc
    cases hc
    rfl

-- non-trivial cases
example : Config.parse [b!"-f", b!"a.ttf", b!"x", b!"-s18", b!"-bd", b!"96", b!"-e", b!"Koi8-r", b!"-s", b!" +20pt"] =
    .ok (some ⟨b!"a.ttf", [], b!"KOI8-R", 96, 20, 0x20, 0xFF, .binary, false⟩) := by decide +kernel
example : Config.parse [b!"-eascii", b!"-q", b!"-f"] =
    .ok (some ⟨[], [], b!"ASCII", 141, 12, 0x20, 0x7E, .header, true⟩) := by decide +kernel
example : Config.parse [b!"-dx"] = .ok none ∧ Config.parse [b!"-s2147483648"] = .ok none := by decide +kernel
example : ∀ s ∈ [(Setting.font b!"a", true), (.size (-3), false), (.encoding b!"iso-8859-5", false), (.other b!"-", true)],
    Setting.Valid s := by
  intro s hs
  simp only [List.mem_cons, List.not_mem_nil, or_false] at hs
  rcases hs with rfl | rfl | rfl | rfl
  · intro _; decide
  · exact ⟨by decide, by decide⟩
  · exact ⟨by decide, by decide⟩
  · exact .inl rfl

end Verif.Converter.Config
