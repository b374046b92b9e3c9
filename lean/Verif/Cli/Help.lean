import Mathlib.Data.List.Forall2
import Mathlib.Tactic.Linarith

/-!
# The help of a command (C170)

Models the list of options `CompactOutput::usage` prints (`apps/huira_cli/compact_output.hpp` 27-46) with `format_flag`
(compact_output.hpp 58-78), for every list of arguments a command may have; `run_fetch` and `run_process`
(`apps/huira_cli/commands/fetch_tycho2.cpp` 198-216, `process_tycho2.cpp` 117-128) make two of them. The line above the list, whose
parts TCLAP makes, is left out.
-/
set_option linter.unusedSimpArgs false
namespace Huira.Cli.Help

/-- Text. -/
abbrev Text := List Char

/-- An argument of TCLAP: its one-letter flag or nothing, its name, its description, and whether it is given by position
(`UnlabeledValueArg`). -/
structure Arg where
  flag : Text
  name : Text
  description : Text
  positional : Bool
deriving DecidableEq

/-- `format_flag` (compact_output.hpp 58-78). The test at 64-66 has an empty body. -/
def formatFlag (a : Arg) : Text :=
  if a.flag ≠ [] then '-' :: a.flag ++ ", --".toList ++ a.name
  else if a.name = "help".toList ∨ a.name = "version".toList ∨ a.name = "ignore_rest".toList then "--".toList ++ a.name
  else '<' :: a.name ++ ['>']

/-- The arguments in the order printed: from the last, without `ignore_rest` (compact_output.hpp 29-32, 37-40). -/
def shown (args : List Arg) : List Arg := args.reverse.filter fun a => a.name ≠ "ignore_rest".toList

/-- `max_width` (compact_output.hpp 28-34) -/
def maxWidth (args : List Arg) : Nat := (shown args).foldl (fun w a => max w (formatFlag a).length) 0

/-- One line (compact_output.hpp 41-43). `max_width - flag.size()` is unsigned: below zero it would wrap round to a length no string
can have, and `std::string` would throw (`none`). -/
def line (w : Nat) (a : Arg) : Option Text :=
  if (formatFlag a).length ≤ w then
    some ("  ".toList ++ formatFlag a ++ List.replicate (w - (formatFlag a).length + 4) ' ' ++ a.description ++ ['\n'])
  else none

/-- The list of options (compact_output.hpp 36-45): every line in turn. -/
def options (args : List Arg) : Option (List Text) := (shown args).mapM (line (maxWidth args))

/-! ## Specification -/

/-- How an argument is typed. -/
def typed (a : Arg) : Text :=
  if a.positional then '<' :: a.name ++ ['>']
  else if a.flag ≠ [] then '-' :: a.flag ++ ", --".toList ++ a.name
  else "--".toList ++ a.name

/-- The line shows the argument as it is typed, its description from column `col` on, at least four blanks between. -/
def Shows (col : Nat) (a : Arg) (l : Text) : Prop :=
  ∃ blanks, 4 ≤ blanks ∧ 2 + (typed a).length + blanks = col ∧
    l = "  ".toList ++ typed a ++ List.replicate blanks ' ' ++ a.description ++ ['\n']

/-- **C170 in full**: the help of every command has a line for each of its arguments but `ignore_rest`, the last first, that shows it
as it is typed, with all descriptions in one column. -/
def C170_full : Prop := ∀ args : List Arg, ∃ lines col, options args = some lines ∧ List.Forall₂ (Shows col) (shown args) lines

/-- `format_flag` can tell how the argument is typed. -/
def Plain (a : Arg) : Prop := formatFlag a = typed a

/-! ## Proof -/

theorem foldl_max (l : List Arg) : ∀ w, w ≤ l.foldl (fun w a => max w (formatFlag a).length) w ∧
    ∀ a ∈ l, (formatFlag a).length ≤ l.foldl (fun w a => max w (formatFlag a).length) w := by
  induction l with
  | nil => intro w; simp
  | cons b l ih =>
    intro w
    have h := ih (max w (formatFlag b).length)
    refine ⟨le_trans (le_max_left _ _) h.1, fun a ha => ?_⟩
    rcases List.mem_cons.1 ha with rfl | ha
    · exact le_trans (le_max_right _ _) h.1
    · exact h.2 a ha

theorem mapM_line (w : Nat) (l : List Arg) (h : ∀ a ∈ l, (formatFlag a).length ≤ w) :
    ∃ lines, l.mapM (line w) = some lines ∧ List.Forall₂ (fun a t =>
      t = "  ".toList ++ formatFlag a ++ List.replicate (w - (formatFlag a).length + 4) ' ' ++ a.description ++ ['\n']) l lines := by
  induction l with
  | nil => exact ⟨[], rfl, .nil⟩
  | cons a l ih =>
    obtain ⟨ls, h1, h2⟩ := ih fun b hb => h b (List.mem_cons_of_mem _ hb)
    refine ⟨_ :: ls, ?_, .cons rfl h2⟩
    rw [List.mapM_cons, h1]
    simp only [line, if_pos (h a List.mem_cons_self)]
    rfl

theorem forall₂_mem {R : Arg → Text → Prop} {P : Arg → Prop} {l : List Arg} {m : List Text} (h : List.Forall₂ R l m)
    (hp : ∀ a ∈ l, P a) : List.Forall₂ (fun a t => P a ∧ R a t) l m := by
  induction h with
  | nil => exact .nil
  | cons hr _ ih => exact .cons ⟨hp _ List.mem_cons_self, hr⟩ (ih fun a ha => hp a (List.mem_cons_of_mem _ ha))

/-- **C170 (partial).** The help of every command is printed: no padding is ever negative, every argument but `ignore_rest` has its
line, and all descriptions start in one column, four blanks or more behind what stands before them. -/
theorem C170_partial (args : List Arg) : ∃ lines, options args = some lines ∧
    List.Forall₂ (fun a t => ∃ blanks, 4 ≤ blanks ∧ 2 + (formatFlag a).length + blanks = maxWidth args + 6 ∧
      t = "  ".toList ++ formatFlag a ++ List.replicate blanks ' ' ++ a.description ++ ['\n']) (shown args) lines := by
  have hm : ∀ a ∈ shown args, (formatFlag a).length ≤ maxWidth args := (foldl_max (shown args) 0).2
  obtain ⟨lines, h1, h2⟩ := mapM_line (maxWidth args) (shown args) hm
  refine ⟨lines, h1, ?_⟩
  refine (forall₂_mem h2 hm).imp fun a t ⟨h3, h4⟩ => ⟨maxWidth args - (formatFlag a).length + 4, by omega, ?_, h4⟩
  omega

/-- **C170 (partial)**, whole for the commands whose arguments are plain. -/
theorem C170_plain_partial (args : List Arg) (hp : ∀ a ∈ shown args, Plain a) :
    ∃ lines col, options args = some lines ∧ List.Forall₂ (Shows col) (shown args) lines := by
  obtain ⟨lines, h1, h2⟩ := C170_partial args
  refine ⟨lines, maxWidth args + 6, h1, ?_⟩
  refine (forall₂_mem h2 hp).imp fun a t ⟨hq, b, b1, b2, b3⟩ => ?_
  unfold Plain at hq
  exact ⟨b, b1, by rw [← hq]; exact b2, by rw [← hq]; exact b3⟩

/-- Which arguments are not plain: those given by position that have a flag or one of the three names, and those with only a long name,
except the three. -/
theorem C170_which (a : Arg) : Plain a ↔
    if a.positional then a.flag = [] ∧ a.name ≠ "help".toList ∧ a.name ≠ "version".toList ∧ a.name ≠ "ignore_rest".toList
    else a.flag ≠ [] ∨ a.name = "help".toList ∨ a.name = "version".toList ∨ a.name = "ignore_rest".toList := by
  have h1 : ∀ x : Text, "--".toList ++ a.name ≠ '<' :: x := by intro x; simp
  have h2 : ∀ x y : Text, '-' :: x ≠ '<' :: y := by intro x y; simp
  unfold Plain formatFlag typed
  by_cases hpos : a.positional = true
  · simp only [hpos, if_true]
    by_cases hf : a.flag = []
    · simp only [hf, ne_eq, not_true_eq_false, if_false, true_and]
      by_cases hn : a.name = "help".toList ∨ a.name = "version".toList ∨ a.name = "ignore_rest".toList
      · rw [if_pos hn]
        constructor
        · intro h; exact absurd h (h1 _)
        · intro h; tauto
      · rw [if_neg hn]; tauto
    · simp only [ne_eq, hf, not_false_eq_true, if_true, false_and, iff_false]
      exact h2 _ _
  · simp only [hpos, Bool.false_eq_true, if_false]
    by_cases hf : a.flag = []
    · simp only [hf, ne_eq, not_true_eq_false, if_false, false_or]
      by_cases hn : a.name = "help".toList ∨ a.name = "version".toList ∨ a.name = "ignore_rest".toList
      · rw [if_pos hn]; tauto
      · rw [if_neg hn]
        exact ⟨fun h => absurd h.symm (h1 _), fun h => absurd h hn⟩
    · simp [hf]

/-- **C170 is violated** by every option that has only a long name: it is shown between angle brackets, as if given by position. -/
theorem C170_violated (name description : Text) (hn : name ≠ "help".toList ∧ name ≠ "version".toList ∧ name ≠ "ignore_rest".toList) :
    formatFlag ⟨[], name, description, false⟩ = typed ⟨[], name, description, true⟩ ∧
    formatFlag ⟨[], name, description, false⟩ ≠ typed ⟨[], name, description, false⟩ := by
  have := mt (C170_which ⟨[], name, description, false⟩).1 (by simp only [Bool.false_eq_true, if_false, ne_eq, not_true_eq_false, false_or]; tauto)
  refine ⟨?_, this⟩
  simp only [formatFlag, typed, ne_eq, not_true_eq_false, if_false, if_true]
  rw [if_neg (by tauto)]

theorem C170_violated_full : ¬ C170_full := by
  intro h
  obtain ⟨lines, col, h1, h2⟩ := h [⟨[], ['q'], [], false⟩]
  have e : options [⟨[], ['q'], [], false⟩] = some ["  <q>    \n".toList] := by decide
  rw [e] at h1
  cases h1
  have hs : shown [⟨[], ['q'], [], false⟩] = [⟨[], ['q'], [], false⟩] := by decide
  rw [hs] at h2
  cases h2 with
  | cons hq _ =>
    obtain ⟨b, _, _, hb⟩ := hq
    have h3 : some '<' = some '-' := congrArg (fun l : Text => l[2]?) hb
    exact absurd h3 (by decide)

/-- The arguments of `fetch-tycho2` (fetch_tycho2.cpp 203-213; TCLAP adds the last three; their order is not important here). -/
def fetchArgs : List Arg :=
  [⟨[], "output".toList, "Output directory for downloaded files".toList, true⟩,
   ⟨['c'], "clean".toList, "Remove downloaded .dat files after processing".toList, false⟩,
   ⟨['p'], "process".toList, "Automatically process the files once downloaded".toList, false⟩,
   ⟨['f'], "force".toList, "Overwrite existing files instead of skipping".toList, false⟩,
   ⟨['h'], "help".toList, "Displays usage information and exits.".toList, false⟩,
   ⟨[], "version".toList, "Displays version information and exits.".toList, false⟩,
   ⟨['-'], "ignore_rest".toList, "Ignores the rest of the labeled arguments following this flag.".toList, false⟩]

/-- The arguments of `process-tycho2` (process_tycho2.cpp 120-124). -/
def processArgs : List Arg :=
  [⟨['o'], "output".toList, "Output directory for tycho2.hrsc".toList, false⟩,
   ⟨[], "input".toList, "Input directory with tyc2.dat files".toList, true⟩] ++ fetchArgs.drop 4

/-- Both commands have plain arguments, so C170 holds of them. -/
theorem C170_commands_partial : (∀ a ∈ shown fetchArgs, Plain a) ∧ ∀ a ∈ shown processArgs, Plain a := by
  constructor <;> intro a ha <;> rw [C170_which] <;> revert a <;> decide +kernel

/-- The first two lines of the help of `fetch-tycho2`. -/
example : (options fetchArgs).map (fun l => l.take 2) = some ["  --version        Displays version information and exits.\n".toList,
    "  -h, --help       Displays usage information and exits.\n".toList] := by decide +kernel

end Huira.Cli.Help
