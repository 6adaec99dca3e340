import Verif.Converter.MainProps
/-!
# C113: the command line options of the README

`README.md` documents every option with a value in two spellings, `-f` and `--font` and so on.  The program uses `getopt`
(FontConverterConfig.cpp:11), which knows the short ones only.
-/
namespace Verif.Converter.Config
open Verif Verif.Converter Verif.Out

/-! ### Specification -/

/-- README.md, "GFX Font Converter": the long names of the options, and the values they are followed by. -/
def Setting.long? : Setting → Option (List Byte × List Byte)
  | .font v => some (b!"--font", v)
  | .size n => some (b!"--size", intDec n)
  | .dpi n => some (b!"--dpi", intDec n)
  | .encoding v => some (b!"--encoding", v)
  | .output v => some (b!"--output", v)
  | _ => none

/-- A setting is spelled in one of three ways: short with the value attached, short with the value as the next argument, or,
if it has a long name, long with the value as the next argument. -/
inductive Spelling where
  | short (attached : Bool)
  | long
deriving DecidableEq

/-- The arguments for a setting. -/
def Setting.spelled : Setting × Spelling → List (List Byte)
  | (s, .short a) => Setting.args (s, a)
  | (s, .long) => match s.long? with
    | some (name, value) => [name, value]
    | none => Setting.args (s, false)

/-- A long name is used. -/
def Setting.usesLong (s : Setting × Spelling) : Bool := s.2 == .long && s.1.long?.isSome

/-- The values can be written like this. -/
def Setting.Spellable : Setting × Spelling → Prop
  | (s, .short a) => Setting.Valid (s, a)
  | (s, .long) => Setting.Valid (s, false)

/-! ### What happens -/

/-- An argument with two hyphens and more is an unknown option `-`, followed by what its letters say. -/
theorem getopt_double_hyphen (x : Byte) (xs : List Byte) (rest : List (List Byte)) :
    getopt none ((0x2D :: 0x2D :: x :: xs) :: rest) =
      .flag 0x3F :: ((cluster (x :: xs)).1 ++ getopt (cluster (x :: xs)).2 rest) := by
  rw [getopt, if_neg (by intro h; simp at h), if_pos ⟨rfl, by simp⟩]
  rw [show (0x2D :: 0x2D :: x :: xs : List Byte).tail = 0x2D :: x :: xs from rfl, cluster]
  rfl

theorem getopt_before (ss : List (Setting × Bool)) (h : ∀ s ∈ ss, Setting.Valid s) (rest : List (List Byte)) :
    getopt none (ss.flatMap Setting.args ++ rest) = (ss.map Prod.fst).filterMap Setting.opt? ++ getopt none rest := by
  induction ss with
  | nil => rfl
  | cons s ss ih =>
    rw [List.flatMap_cons, List.append_assoc, getopt_setting s.1 s.2 (h s (by simp)),
      ih (fun s hs => h s (by simp [hs])), List.map_cons, List.filterMap_cons]
    cases s.1.opt? <;> rfl

theorem short_split (ss : List (Setting × Spelling)) (h : ∀ s ∈ ss, Setting.Spellable s) :
    (∃ ts : List (Setting × Bool), (∀ t ∈ ts, Setting.Valid t) ∧ ss.flatMap Setting.spelled = ts.flatMap Setting.args ∧
      ts.map Prod.fst = ss.map Prod.fst ∧ ss.any Setting.usesLong = false) ∨
    ∃ (ts : List (Setting × Bool)) (x : Byte) (xs : List Byte) (rest : List (List Byte)),
      (∀ t ∈ ts, Setting.Valid t) ∧ ss.any Setting.usesLong = true ∧
      ss.flatMap Setting.spelled = ts.flatMap Setting.args ++ (0x2D :: 0x2D :: x :: xs) :: rest := by
  induction ss with
  | nil => exact .inl ⟨[], by simp, rfl, rfl, rfl⟩
  | cons s ss ih =>
    obtain ⟨s, sp⟩ := s
    have hs := h _ (List.mem_cons_self ..)
    have cont : ∀ a, Setting.Valid (s, a) → Setting.spelled (s, sp) = Setting.args (s, a) → Setting.usesLong (s, sp) = false →
        (∃ ts : List (Setting × Bool), (∀ t ∈ ts, Setting.Valid t) ∧
          ((s, sp) :: ss).flatMap Setting.spelled = ts.flatMap Setting.args ∧
          ts.map Prod.fst = ((s, sp) :: ss).map Prod.fst ∧ ((s, sp) :: ss).any Setting.usesLong = false) ∨
        ∃ (ts : List (Setting × Bool)) (x : Byte) (xs : List Byte) (rest : List (List Byte)),
          (∀ t ∈ ts, Setting.Valid t) ∧ ((s, sp) :: ss).any Setting.usesLong = true ∧
          ((s, sp) :: ss).flatMap Setting.spelled = ts.flatMap Setting.args ++ (0x2D :: 0x2D :: x :: xs) :: rest := by
      intro a hv he hu
      rcases ih (fun t ht => h t (List.mem_cons_of_mem _ ht)) with ⟨ts, t1, t2, t3, t4⟩ | ⟨ts, x, xs, rest, t1, t2, t3⟩
      · refine .inl ⟨(s, a) :: ts, ?_, ?_, ?_, ?_⟩
        · intro t ht
          rcases List.mem_cons.1 ht with rfl | ht
          · exact hv
          · exact t1 t ht
        · rw [List.flatMap_cons, List.flatMap_cons, he, t2]
        · rw [List.map_cons, List.map_cons, t3]
        · rw [List.any_cons, hu, t4]; rfl
      · refine .inr ⟨(s, a) :: ts, x, xs, rest, ?_, ?_, ?_⟩
        · intro t ht
          rcases List.mem_cons.1 ht with rfl | ht
          · exact hv
          · exact t1 t ht
        · rw [List.any_cons, t2, Bool.or_true]
        · rw [List.flatMap_cons, List.flatMap_cons, he, t3, List.append_assoc]
    cases sp with
    | short a => exact cont a hs rfl rfl
    | long =>
      cases s with
      | font v => exact .inr ⟨[], 0x66, b!"ont", _, by simp, rfl, rfl⟩
      | size n => exact .inr ⟨[], 0x73, b!"ize", _, by simp, rfl, rfl⟩
      | dpi n => exact .inr ⟨[], 0x64, b!"pi", _, by simp, rfl, rfl⟩
      | encoding v => exact .inr ⟨[], 0x65, b!"ncoding", _, by simp, rfl, rfl⟩
      | output v => exact .inr ⟨[], 0x6F, b!"utput", _, by simp, rfl, rfl⟩
      | binary => exact cont false hs rfl rfl
      | help => exact cont false hs rfl rfl
      | other v => exact cont false hs rfl rfl

/-- **C113**, what holds: in the short spelling every option means what the README says, and the defaults are those of the
README. -/
theorem documented_options_partial (ss : List (Setting × Spelling)) (h : ∀ s ∈ ss, Setting.Spellable s)
    (hshort : ss.any Setting.usesLong = false) :
    Config.parse (ss.flatMap Setting.spelled) = .ok (some (described (ss.map Prod.fst))) := by
  rcases short_split ss h with ⟨ts, t1, t2, t3, _⟩ | ⟨_, _, _, _, _, t2, _⟩
  · rw [t2, config_as_described_partial ts t1, t3]
  · rw [t2] at hshort; cases hshort

/-- **C113 (finding)**: with any long option, wherever it stands, the program does not do what is asked for: it prints its
usage, or is terminated by an exception (or the behaviour is undefined because of the encoding, C73). -/
theorem long_option_help (ss : List (Setting × Spelling)) (h : ∀ s ∈ ss, Setting.Spellable s)
    (hlong : ss.any Setting.usesLong = true) (r : Option Config) (hr : Config.parse (ss.flatMap Setting.spelled) = .ok r) :
    ∀ c, r = some c → c.printHelp = true := by
  rintro c rfl
  rcases short_split ss h with ⟨_, _, _, _, t4⟩ | ⟨ts, x, xs, rest, t1, _, t3⟩
  · rw [t4] at hlong; cases hlong
  · refine bad_option_help _ ?_ c hr
    rw [t3, getopt_before ts t1, getopt_double_hyphen]
    simp

/-- **C113**, exactly: a command line which does not ask for help gets the configuration the README promises if and only
if it uses no long option. -/
theorem documented_iff (ss : List (Setting × Spelling)) (h : ∀ s ∈ ss, Setting.Spellable s)
    (hh : (ss.map Prod.fst).any Setting.isHelp = false) :
    Config.parse (ss.flatMap Setting.spelled) = .ok (some (described (ss.map Prod.fst))) ↔
      ss.any Setting.usesLong = false := by
  constructor
  · intro hp
    cases hl : ss.any Setting.usesLong with
    | false => rfl
    | true =>
      have := long_option_help ss h hl _ hp _ rfl
      simp only [described] at this
      rw [hh] at this
      cases this
  · exact documented_options_partial ss h

/-- **C113**: a size or resolution given in the long spelling ends the program with an exception, whatever follows. -/
theorem long_number_terminates (ss : List (Setting × Bool)) (h : ∀ s ∈ ss, Setting.Valid s) (rest : List (List Byte))
    (o : List Byte) (ho : o = b!"--size" ∨ o = b!"--dpi") :
    Config.parse (ss.flatMap Setting.args ++ o :: rest) = .ok none := by
  rw [exception_iff]
  rcases ho with rfl | rfl
  · refine ⟨b!"ize", .inr ?_, by decide⟩
    rw [getopt_before ss h, getopt_double_hyphen]
    simp [cluster, takesArg]
  · refine ⟨b!"pi", .inl ?_, by decide⟩
    rw [getopt_before ss h, getopt_double_hyphen]
    simp [cluster, takesArg]

/-- The letters of the options which are followed by a value, and of the others. -/
def valueLetters : List Byte := b!"fodse"
def flagLetters : List Byte := b!"bh"

theorem cluster_unknown (bs : List Byte) (hb : ∀ b ∈ bs, b ∈ flagLetters) (x : Byte) (xs : List Byte)
    (hx : x ∉ valueLetters ∧ x ∉ flagLetters) : .flag 0x3F ∈ (cluster (bs ++ x :: xs)).1 := by
  have f1 : ∀ b : Byte, b ∈ flagLetters → takesArg b = false := by decide +kernel
  have f2 : ∀ b : Byte, b ∉ valueLetters → takesArg b = false := by decide +kernel
  have f3 : ∀ b : Byte, b ∉ flagLetters → isFlag b = false := by decide +kernel
  induction bs with
  | nil =>
    rw [List.nil_append, cluster, f2 x hx.1, f3 x hx.2]
    simp
  | cons b bs ih =>
    rw [List.cons_append, cluster, f1 b (hb b (by simp))]
    simp only [Bool.false_eq_true, if_false]
    exact List.mem_cons_of_mem _ (ih (fun b h => hb b (by simp [h])))

theorem cluster_waiting (bs : List Byte) (hb : ∀ b ∈ bs, b ∈ flagLetters) (c : Byte) (hc : c ∈ valueLetters) :
    (cluster (bs ++ [c])).2 = some c := by
  have f1 : ∀ b : Byte, b ∈ flagLetters → takesArg b = false := by decide +kernel
  have f2 : ∀ b : Byte, b ∈ valueLetters → takesArg b = true := by decide +kernel
  induction bs with
  | nil =>
    rw [List.nil_append, cluster, f2 c hc]
    simp
  | cons b bs ih =>
    rw [List.cons_append, cluster, f1 b (hb b (by simp))]
    simp only [Bool.false_eq_true, if_false]
    exact ih (fun b h => hb b (by simp [h]))

/-- **C73**: an unknown letter anywhere in an option argument – after settings, and whatever follows – leads to the help
text, unless a number is bad. -/
theorem unknown_letter_help (ss : List (Setting × Bool)) (h : ∀ s ∈ ss, Setting.Valid s) (bs : List Byte)
    (hb : ∀ b ∈ bs, b ∈ flagLetters) (x : Byte) (xs : List Byte) (hx : x ∉ valueLetters ∧ x ∉ flagLetters)
    (hend : bs ++ x :: xs ≠ b!"-") (rest : List (List Byte)) (c : Config)
    (hp : Config.parse (ss.flatMap Setting.args ++ (0x2D :: (bs ++ x :: xs)) :: rest) = .ok (some c)) :
    c.printHelp = true := by
  refine bad_option_help _ ?_ c hp
  rw [getopt_before ss h, getopt, if_neg (by intro e; exact hend (List.cons.inj e).2), if_pos ⟨rfl, by simp⟩]
  exact List.mem_append_right _ (List.mem_append_left _ (cluster_unknown bs hb x xs hx))

/-- **C73**: so does an option whose value is missing at the end of the command line. -/
theorem missing_value_help (ss : List (Setting × Bool)) (h : ∀ s ∈ ss, Setting.Valid s) (bs : List Byte)
    (hb : ∀ b ∈ bs, b ∈ flagLetters) (x : Byte) (hx : x ∈ valueLetters) (c : Config)
    (hp : Config.parse (ss.flatMap Setting.args ++ [0x2D :: (bs ++ [x])]) = .ok (some c)) : c.printHelp = true := by
  refine bad_option_help _ ?_ c hp
  have hne : bs ++ [x] ≠ b!"-" := by
    intro e
    have hx' : x ≠ 0x2D := by rintro rfl; exact absurd hx (by decide)
    cases bs with
    | nil => exact hx' (List.cons.inj e).1
    | cons b bs =>
      have := congrArg List.length e
      simp at this
  rw [getopt_before ss h, getopt, if_neg (by intro e; exact hne (List.cons.inj e).2), if_pos ⟨rfl, by simp⟩]
  refine List.mem_append_right _ (List.mem_append_right _ ?_)
  rw [show (0x2D :: (bs ++ [x])).tail = bs ++ [x] from rfl, cluster_waiting bs hb x hx]
  simp [getopt]

example : ∃ c, Config.parse [b!"-fa.ttf", b!"-bq", b!"x"] = .ok (some c) ∧ c.printHelp = true := ⟨_, rfl, rfl⟩
example : ∃ c, Config.parse [b!"-fa.ttf", b!"-be"] = .ok (some c) ∧ c.printHelp = true := ⟨_, rfl, rfl⟩

end Verif.Converter.Config

namespace Verif.Converter.Main
open Verif Verif.Converter Verif.Converter.Config

/-- **C113**: with a long option no file is written and the exit status is not 0, whatever the world is like. -/
theorem long_option_writes_nothing {σ : Type} (w : World σ) (ss : List (Setting × Spelling))
    (h : ∀ s ∈ ss, Setting.Spellable s) (hlong : ss.any Setting.usesLong = true) (e : Exit) (fs : Files)
    (hr : main w (ss.flatMap Setting.spelled) = .ok (e, fs)) : e ≠ .code 0 ∧ fs = [] := by
  unfold main at hr
  rw [Res.bind_eq_ok] at hr
  obtain ⟨r, h1, h2⟩ := hr
  cases r with
  | none => cases h2; exact ⟨by simp, rfl⟩
  | some c =>
    have := long_option_help ss h hlong _ h1 c rfl
    simp only [this, Bool.true_or, if_true] at h2
    cases h2
    exact ⟨by simp, rfl⟩

/-- **C113**: without `-o` the files are written to the directory of the program, since the empty path is no directory. -/
theorem default_directory {σ : Type} (w : World σ) (ss : List (Setting × Bool)) (h : ∀ s ∈ ss, Setting.Valid s)
    (hno : ∀ s ∈ ss, ∀ v, s.1 ≠ .output v) (hempty : w.isDirectory [] = false) (c : Config)
    (hp : Config.parse (ss.flatMap Setting.args) = .ok (some c)) : outputDir w c = w.programDir := by
  rw [config_as_described_partial ss h] at hp
  cases hp
  have : lastOf Setting.output? (ss.map Prod.fst) = none := by
    cases hl : lastOf Setting.output? (ss.map Prod.fst) with
    | none => rfl
    | some v =>
      obtain ⟨s, hs, hv⟩ := lastOf_mem hl
      obtain ⟨p, hm, rfl⟩ := List.mem_map.1 hs
      cases hq : p.1 <;> rw [hq] at hv <;> simp only [Setting.output?, reduceCtorEq, Option.some.injEq] at hv
      exact absurd hq (hno p hm _)
  unfold outputDir
  simp only [described, this, Option.getD_none, hempty]
  rfl

-- the command line of the README
example : Config.parse ([(Setting.font b!"a.ttf", Spelling.long), (.size 18, .short false)].flatMap Setting.spelled) =
    .ok (some ⟨b!"ont", [], b!"ASCII", 141, 18, 0x20, 0x7E, .header, true⟩) := by decide +kernel
example : Config.parse ([(Setting.font b!"a.ttf", Spelling.short true), (.size 18, .long)].flatMap Setting.spelled) =
    .ok none := by decide +kernel
example : ∀ s ∈ [(Setting.font b!"a.ttf", Spelling.long), (.size 18, .short false), (.output b!"out", .long)],
    Setting.Spellable s := by
  intro s hs
  simp only [List.mem_cons, List.not_mem_nil, or_false] at hs
  rcases hs with rfl | rfl | rfl
  · intro h; cases h
  · exact ⟨by decide, by decide⟩
  · intro h; cases h

end Verif.Converter.Main
