import Mathlib.Tactic.Common
/-!
# C114: the command line, C115: `make_path`

Models `apps/huira_cli/cli.cpp` 7-63 (`Registry::add`, `Registry::dispatch`) with `apps/huira_cli/cli.hpp` 11-38, and
`include/huira_impl/util/paths.ipp` 63-79 (`make_path`).

Simplifications: the help text is not modelled (only that it is shown, and on which stream); a command is its name and an
identifier of its function.  Paths are lists of components (an empty last component is a trailing slash); symbolic
links, permissions and the root are left out.
-/
namespace Huira.CliDispatch
set_option linter.unusedSimpArgs false

/-! ## Model of the registry -/

/-- `Command` (cli.hpp 17-21) without its description. -/
structure Command where
  name : String
  fn : Nat
deriving DecidableEq

/-- `commands_.find(name)` on the map built so far; entries newest first. -/
def find (reg : List Command) (name : String) : Option Command := reg.find? (fun c => decide (c.name = name))

/-- `Registry::add` (cli.cpp 13-16): `emplace` does nothing when the key is taken. -/
def add (reg : List Command) (c : Command) : List Command :=
  match find reg c.name with
  | some _ => reg
  | none => c :: reg

/-- What `dispatch` does. -/
inductive Action where
  /-- help on standard output, exit code -/
  | help (code : Nat)
  | version
  /-- `Unknown command: …` and help on standard error, exit code 1 -/
  | unknown (name : String)
  /-- run the command with `ctx.verbose` and the arguments from the command's name on; its result is the exit code -/
  | run (c : Command) (verbose : Bool) (args : List String)
deriving DecidableEq

/-- What the scan of the global flags ends with (cli.cpp 27-44). -/
inductive Scan where
  | version
  | help
  | rest (verbose : Bool) (args : List String)

/-- cli.cpp 27-44: the loop over `argv[1..]`; `sub_start` is kept as the remaining arguments. -/
def scan : Bool → List String → Scan
  | v, [] => .rest v []
  | v, a :: as =>
    if a = "-v" ∨ a = "--verbose" then scan true as
    else if a = "--version" then .version
    else if a = "-h" ∨ a = "--help" then .help
    else .rest v (a :: as)

/-- cli.cpp 46-62 -/
def afterScan (reg : List Command) : Scan → Action
  | .version => .version
  | .help => .help 0
  | .rest _ [] => .help 1
  | .rest v (a :: as) =>
    match find reg a with
    | none => .unknown a
    | some c => .run c v (a :: as)

/-- `Registry::dispatch` (cli.cpp 18-63); `args` is `argv[1..]`. -/
def dispatch (reg : List Command) (args : List String) : Action :=
  match args with
  | [] => .help 1
  | _ => afterScan reg (scan false args)

/-! ## C114 -/

def verboseFlags : List String := ["-v", "--verbose"]
def globalFlags : List String := ["-v", "--verbose", "--version", "-h", "--help"]

theorem scan_verbose : ∀ (vs rest : List String) (v : Bool), (∀ a ∈ vs, a ∈ verboseFlags) →
    scan v (vs ++ rest) = scan (v || decide (vs ≠ [])) rest
  | [], rest, v, _ => by simp
  | a :: vs, rest, v, h => by
    have ha := h a List.mem_cons_self
    simp only [verboseFlags, List.mem_cons, List.not_mem_nil, or_false] at ha
    simp only [List.cons_append, scan, ha, if_true]
    rw [scan_verbose vs rest true (fun b hb => h b (List.mem_cons_of_mem _ hb))]
    simp

theorem split_verbose : ∀ args : List String, ∃ vs rest, args = vs ++ rest ∧ (∀ a ∈ vs, a ∈ verboseFlags) ∧
    ∀ a as, rest = a :: as → a ∉ verboseFlags
  | [] => ⟨[], [], rfl, by simp, by simp⟩
  | a :: as => by
    by_cases h : a ∈ verboseFlags
    · obtain ⟨vs, rest, h1, h2, h3⟩ := split_verbose as
      refine ⟨a :: vs, rest, by rw [h1]; rfl, ?_, h3⟩
      intro b hb
      simp only [List.mem_cons] at hb
      rcases hb with rfl | hb
      exacts [h, h2 b hb]
    · exact ⟨[], a :: as, rfl, by simp, by rintro b bs hb; cases hb; exact h⟩

/-- The result, for arguments split at the first one that is not a verbose flag. -/
theorem dispatch_split (reg : List Command) (vs rest : List String) (h : ∀ a ∈ vs, a ∈ verboseFlags)
    (hr : ∀ a as, rest = a :: as → a ∉ verboseFlags) :
    dispatch reg (vs ++ rest) = match rest with
      | [] => .help 1
      | a :: as =>
        if a = "--version" then .version
        else if a = "-h" ∨ a = "--help" then .help 0
        else (match find reg a with
          | none => .unknown a
          | some c => .run c (decide (vs ≠ [])) (a :: as)) := by
  have key : dispatch reg (vs ++ rest) = afterScan reg (scan (decide (vs ≠ [])) rest) := by
    cases hv : vs ++ rest with
    | nil =>
      obtain ⟨rfl, rfl⟩ := List.append_eq_nil_iff.1 hv
      rfl
    | cons x xs =>
      have : dispatch reg (x :: xs) = afterScan reg (scan false (vs ++ rest)) := by rw [hv]; rfl
      rw [this, scan_verbose vs rest false h]; simp
  rw [key]
  cases rest with
  | nil => rfl
  | cons a as =>
    have ha := hr a as rfl
    simp only [verboseFlags, List.mem_cons, List.not_mem_nil, or_false] at ha
    simp only [scan, ha, if_false]
    split
    · rfl
    · split
      · rfl
      · simp only [afterScan]

/-- **C114 (which command runs).** A command runs exactly when the arguments are some number of verbose flags followed
by its name, which is no global flag; it gets the arguments from its name on, unchanged, and is verbose exactly when a
verbose flag came before. -/
theorem C114_run (reg : List Command) (args sub : List String) (c : Command) (v : Bool) :
    dispatch reg args = .run c v sub ↔
      ∃ vs as, args = vs ++ sub ∧ (∀ a ∈ vs, a ∈ verboseFlags) ∧ (v = true ↔ vs ≠ []) ∧
        sub = c.name :: as ∧ c.name ∉ globalFlags ∧ find reg c.name = some c := by
  have hfind : ∀ a c', find reg a = some c' → c'.name = a := by
    intro a c' h
    have := List.find?_some h
    simpa using this
  constructor
  · intro h
    obtain ⟨vs, rest, rfl, h2, h3⟩ := split_verbose args
    rw [dispatch_split reg vs rest h2 h3] at h
    cases rest with
    | nil => simp at h
    | cons a as =>
      simp only at h
      split at h
      · simp at h
      split at h
      · simp at h
      · rename_i hv1 hv2
        cases hf : find reg a with
        | none => simp [hf] at h
        | some c' =>
          simp only [hf, Action.run.injEq] at h
          obtain ⟨rfl, rfl, rfl⟩ := h
          have hn := hfind a c' hf
          refine ⟨vs, as, rfl, h2, by simp, by rw [hn], ?_, by rw [hn]; exact hf⟩
          have ha := h3 a as rfl
          rw [hn]
          simp only [verboseFlags, globalFlags, List.mem_cons, List.not_mem_nil, or_false, not_or] at ha hv2 ⊢
          exact ⟨ha.1, ha.2, hv1, hv2.1, hv2.2⟩
  · rintro ⟨vs, as, rfl, h2, hv, rfl, hg, hf⟩
    simp only [globalFlags, List.mem_cons, List.not_mem_nil, or_false, not_or] at hg
    rw [dispatch_split reg vs (c.name :: as) h2 (by
      rintro a bs hb
      cases hb
      simp only [verboseFlags, List.mem_cons, List.not_mem_nil, or_false, not_or]
      exact ⟨hg.1, hg.2.1⟩)]
    simp only [hg.2.2.1, hg.2.2.2.1, hg.2.2.2.2, or_self, if_false, hf, Action.run.injEq, true_and, and_true]
    cases v with
    | true => simpa using hv.1 rfl
    | false => simpa using hv

/-- C114, nothing to run: no argument, or only verbose flags, shows the help and exits with 1; `--version`, `-h` or
`--help` straight after verbose flags win over everything behind them; a name that was not registered is reported by
name and exits with 1. -/
theorem C114_other (reg : List Command) (vs as : List String) (h : ∀ a ∈ vs, a ∈ verboseFlags) :
    dispatch reg vs = .help 1 ∧ dispatch reg (vs ++ "--version" :: as) = .version ∧
    dispatch reg (vs ++ "-h" :: as) = .help 0 ∧ dispatch reg (vs ++ "--help" :: as) = .help 0 ∧
    ∀ a, a ∉ globalFlags → find reg a = none → dispatch reg (vs ++ a :: as) = .unknown a := by
  refine ⟨?_, ?_, ?_, ?_, ?_⟩
  · have := dispatch_split reg vs [] h (by simp)
    simpa using this
  · rw [dispatch_split reg vs _ h (by rintro a bs hb; cases hb; decide)]; simp
  · rw [dispatch_split reg vs _ h (by rintro a bs hb; cases hb; decide)]; simp
  · rw [dispatch_split reg vs _ h (by rintro a bs hb; cases hb; decide)]; simp
  · intro a hg hf
    simp only [globalFlags, List.mem_cons, List.not_mem_nil, or_false, not_or] at hg
    rw [dispatch_split reg vs _ h (by
      rintro b bs hb
      cases hb
      simp only [verboseFlags, List.mem_cons, List.not_mem_nil, or_false, not_or]
      exact ⟨hg.1, hg.2.1⟩)]
    simp [hg, hf]

/-- **C114 (registration order).** Whatever the order in which the translation units register their commands, a name
finds a command exactly when one was registered under it, and then the first one. -/
theorem C114_registry (cmds : List Command) (name : String) :
    find (cmds.foldl add []) name = cmds.find? (fun c => decide (c.name = name)) := by
  have key : ∀ (cmds reg : List Command),
      find (cmds.foldl add reg) name = (find reg name).or (cmds.find? (fun c => decide (c.name = name))) := by
    intro cmds
    induction cmds with
    | nil => intro reg; simp
    | cons c cmds ih =>
      intro reg
      rw [List.foldl_cons, ih]
      have hadd : find (add reg c) name = (find reg name).or (if c.name = name then some c else none) := by
        unfold add
        by_cases hc : c.name = name
        · subst hc
          cases hf : find reg c.name with
          | some x => simp [hf]
          | none => simp [find]
        · cases hf : find reg c.name with
          | some x => simp [hc]
          | none => simp [find, hc]
      rw [hadd, List.find?_cons]
      by_cases hc : c.name = name
      · cases find reg name <;> simp [hc]
      · cases find reg name <;> simp [hc]
  rw [key]; simp [find]

/-- Non-vacuity: the two commands of the tool. -/
example : dispatch (["fetch-tycho2", "process-tycho2"].zipIdx.map (fun p => ⟨p.1, p.2⟩))
    ["-v", "fetch-tycho2", "--version", "out"] = .run ⟨"fetch-tycho2", 0⟩ true ["fetch-tycho2", "--version", "out"] := by
  decide

/-! ## Model of `make_path` -/

/-- Components of a path; `[]` is the empty path, an empty last component a trailing slash. -/
abbrev Path := List (List Char)

inductive Kind where
  | dir
  | file
deriving DecidableEq

/-- The file system, by path (paths relative to an existing directory, which is `[]`). -/
abbrev Tree := Path → Option Kind

/-- `path::has_extension()`: of the last component, which must have a dot that is not its first character; `.` and
`..` have none. -/
def hasExtension (p : Path) : Bool :=
  match p.getLast? with
  | none => false
  | some n => n != ['.', '.'] && n.tail.contains '.'

/-- `fs::create_directories`: makes every missing prefix a directory, in order; throws (`none`) at a prefix that is a
file. A trailing slash adds no component. -/
def createDirs (t : Tree) : Path → Path → Option Tree
  | _, [] => some t
  | done, n :: rest =>
    if n = [] then createDirs t done rest
    else
      match t (done ++ [n]) with
      | some .file => none
      | some .dir => createDirs t (done ++ [n]) rest
      | none => (createDirs t (done ++ [n]) rest).map fun t' => fun q => if q = done ++ [n] then some .dir else t' q

/-- `make_path` (paths.ipp 63-79). -/
def makePath (t : Tree) (p : Path) : Option Tree :=
  if p = [] then some t
  else if hasExtension p then
    if p.dropLast ≠ [] then createDirs t [] p.dropLast else some t
  else createDirs t [] p

/-- Opening a path for writing (the first thing an image writer or `download_file` does next): its directory must exist
and it must not be a directory. -/
def opensForWriting (t : Tree) (p : Path) : Bool :=
  (p.dropLast = [] || decide (t p.dropLast = some .dir)) && decide (t p ≠ some .dir)

/-! ## C115 -/

/-- A path of ordinary components. -/
def Plain (p : Path) : Prop := ∀ n ∈ p, n ≠ []

open Classical in
/-- `createDirs` succeeds exactly when no prefix is a file, and then adds exactly the missing prefixes. -/
theorem createDirs_spec (t : Tree) : ∀ (rest done : Path), Plain rest →
    ((createDirs t done rest).isSome ↔ ∀ q, q <+: rest → q ≠ [] → t (done ++ q) ≠ some .file) ∧
    ∀ t', createDirs t done rest = some t' → ∀ x, t' x =
      if (∃ q, q <+: rest ∧ q ≠ [] ∧ x = done ++ q) ∧ t x = none then some .dir else t x
  | [], done, _ => by
    constructor
    · simp [createDirs]
    · intro t' h x
      simp only [createDirs, Option.some.injEq] at h
      subst h
      rw [if_neg]
      rintro ⟨⟨q, hq, hne, _⟩, _⟩
      exact hne (List.prefix_nil.1 hq)
  | n :: rest, done, hp => by
    have hn : n ≠ [] := hp n List.mem_cons_self
    obtain ⟨ih1, ih2⟩ := createDirs_spec t rest (done ++ [n]) (fun m hm => hp m (List.mem_cons_of_mem _ hm))
    have hpre : ∀ q : Path, q <+: n :: rest ∧ q ≠ [] ↔ ∃ q', q = n :: q' ∧ q' <+: rest := by
      intro q
      cases q with
      | nil => simp
      | cons m q' =>
        rw [List.cons_prefix_cons]
        constructor
        · rintro ⟨⟨rfl, h⟩, _⟩; exact ⟨q', rfl, h⟩
        · rintro ⟨q'', h, h'⟩; cases h; exact ⟨⟨rfl, h'⟩, by simp⟩
    have hall : (∀ q, q <+: n :: rest → q ≠ [] → t (done ++ q) ≠ some .file) ↔
        t (done ++ [n]) ≠ some .file ∧ ∀ q, q <+: rest → q ≠ [] → t (done ++ [n] ++ q) ≠ some .file := by
      constructor
      · intro h
        refine ⟨h [n] (by simp) (by simp), fun q hq _ => ?_⟩
        have := h (n :: q) (by rw [List.cons_prefix_cons]; exact ⟨rfl, hq⟩) (by simp)
        simpa using this
      · rintro ⟨h1, h2⟩ q hq hne
        obtain ⟨q', rfl, hq'⟩ := (hpre q).1 ⟨hq, hne⟩
        by_cases h : q' = []
        · subst h; exact h1
        · have := h2 q' hq' h; simpa using this
    have hex : ∀ x, (∃ q, q <+: n :: rest ∧ q ≠ [] ∧ x = done ++ q) ↔
        x = done ++ [n] ∨ ∃ q, q <+: rest ∧ q ≠ [] ∧ x = done ++ [n] ++ q := by
      intro x
      constructor
      · rintro ⟨q, hq, hne, rfl⟩
        obtain ⟨q', rfl, hq'⟩ := (hpre q).1 ⟨hq, hne⟩
        by_cases h : q' = []
        · subst h; exact Or.inl rfl
        · exact Or.inr ⟨q', hq', h, by simp⟩
      · rintro (rfl | ⟨q, hq, _, rfl⟩)
        · exact ⟨[n], by simp, by simp, rfl⟩
        · exact ⟨n :: q, by rw [List.cons_prefix_cons]; exact ⟨rfl, hq⟩, by simp, by simp⟩
    rw [hall]
    simp only [createDirs, hn, if_false, hex]
    cases hk : t (done ++ [n]) with
    | none =>
      simp only [Option.isSome_map, ih1]
      refine ⟨by simp, fun t' ht' x => ?_⟩
      cases hc : createDirs t (done ++ [n]) rest with
      | none => simp [hc] at ht'
      | some t'' =>
        simp only [hc, Option.map_some, Option.some.injEq] at ht'
        subst ht'
        by_cases hx : x = done ++ [n]
        · subst hx; simp [hk]
        · simp only [hx, if_false, false_or]
          exact ih2 t'' hc x
    | some k =>
      cases k with
      | file => simp
      | dir =>
        refine ⟨by simp [ih1], fun t' ht' x => ?_⟩
        rw [ih2 t' ht' x]
        by_cases hx : x = done ++ [n]
        · subst hx; simp [hk]
        · simp [hx]

/-- The directories `make_path` is to provide: the parents of a name with an extension, else the path itself too. -/
def wanted (p : Path) : Path := if hasExtension p then p.dropLast else p

theorem makePath_eq (t : Tree) (p : Path) : makePath t p = createDirs t [] (wanted p) := by
  unfold makePath wanted
  by_cases h : p = []
  · subst h; simp [hasExtension, createDirs]
  · simp only [h, if_false]
    split
    · split
      · rfl
      · rename_i h2
        simp only [ne_eq, Decidable.not_not] at h2
        rw [h2]; rfl
    · rfl

/-- **C115 (effect).** `make_path` throws exactly when a directory it needs is a file; otherwise the missing ones become
directories and nothing else changes. -/
theorem C115_effect (t : Tree) (p : Path) (hp : Plain p) :
    (makePath t p = none ↔ ∃ q, q <+: wanted p ∧ q ≠ [] ∧ t q = some .file) ∧
    ∀ t', makePath t p = some t' →
      (∀ q, q <+: wanted p → q ≠ [] → t' q = some .dir) ∧
      (∀ x, t x ≠ none → t' x = t x) ∧
      (∀ x, ¬ (x <+: wanted p ∧ x ≠ []) → t' x = t x) := by
  have hw : Plain (wanted p) := by
    unfold wanted
    split
    · exact fun n hn => hp n ((List.dropLast_subset p) hn)
    · exact hp
  obtain ⟨h1, h2⟩ := createDirs_spec t (wanted p) [] hw
  rw [makePath_eq]
  constructor
  · rw [← Option.not_isSome_iff_eq_none, h1]
    push Not
    simp
  · intro t' ht'
    have hx := h2 t' ht'
    have hall := h1.1 (by rw [ht']; rfl)
    refine ⟨fun q hq hne => ?_, fun x hne => ?_, fun x hno => ?_⟩
    · rw [hx q]
      have := hall q hq hne
      simp only [List.nil_append] at this
      cases hk : t q with
      | none => rw [if_pos ⟨⟨q, hq, hne, by simp⟩, by rfl⟩]
      | some k =>
        rw [if_neg (by simp)]
        cases k with
        | file => exact absurd hk this
        | dir => rfl
    · rw [hx x, if_neg (fun h => hne h.2)]
    · rw [hx x, if_neg]
      rintro ⟨⟨q, hq, hne, he⟩, _⟩
      simp only [List.nil_append] at he
      exact hno ⟨he ▸ hq, he ▸ hne⟩

/-- **C115 (writers).** After `make_path` on a file name with an extension, where no directory of that name is in the
way, the file opens for writing. -/
theorem C115_file_partial (t t' : Tree) (p : Path) (hp : Plain p) (hext : hasExtension p = true)
    (hfree : t p ≠ some .dir) (h : makePath t p = some t') : opensForWriting t' p = true := by
  obtain ⟨h1, _, h3⟩ := (C115_effect t p hp).2 t' h
  have hw : wanted p = p.dropLast := by simp [wanted, hext]
  have hne : p ≠ [] := by rintro rfl; simp [hasExtension] at hext
  have hpp : t' p = t p := by
    refine h3 p (fun hc => ?_)
    rw [hw] at hc
    have := hc.1.length_le
    have hl : 0 < p.length := List.length_pos_iff.2 hne
    simp at this; omega
  unfold opensForWriting
  rw [hpp]
  by_cases hd : p.dropLast = []
  · simp [hd, hfree]
  · have := h1 p.dropLast (by rw [hw]; exact List.prefix_refl _) hd
    simp [this, hfree]

/-- C115, directories: after `make_path` on a path without an extension, that directory exists. -/
theorem C115_dir_partial (t t' : Tree) (p : Path) (hp : Plain p) (hne : p ≠ []) (hext : hasExtension p = false)
    (h : makePath t p = some t') : t' p = some .dir :=
  ((C115_effect t p hp).2 t' h).1 p (by simp [wanted, hext]) hne

/-- C115, repetition: a second `make_path` changes nothing. -/
theorem C115_idempotent (t t' : Tree) (p : Path) (hp : Plain p) (h : makePath t p = some t') :
    makePath t' p = some t' := by
  obtain ⟨h1, _, _⟩ := (C115_effect t p hp).2 t' h
  cases h2 : makePath t' p with
  | none =>
    obtain ⟨q, hq, hne, hf⟩ := (C115_effect t' p hp).1.1 h2
    rw [h1 q hq hne] at hf
    cases hf
  | some t'' =>
    congr 1
    funext x
    by_cases hx : x <+: wanted p ∧ x ≠ []
    · rw [((C115_effect t' p hp).2 t'' h2).2.1 x (by rw [h1 x hx.1 hx.2]; simp)]
    · rw [((C115_effect t' p hp).2 t'' h2).2.2 x hx]

/-- Full statement for writers: after `make_path`, any file name that was free opens for writing. -/
def C115_file_full : Prop :=
  ∀ (t t' : Tree) (p : Path), Plain p → p ≠ [] → t p = none → makePath t p = some t' → opensForWriting t' p = true

/-- Full statement for directories: after `make_path` on a directory name, the directory exists. -/
def C115_dir_full : Prop :=
  ∀ (t t' : Tree) (p : Path), Plain p → p ≠ [] → t p = none → makePath t p = some t' → t' p = some .dir

/-- **C115 is violated for every file name without an extension**: `make_path` makes it a directory, so it does not
open. -/
theorem C115_file_violated (t t' : Tree) (p : Path) (hp : Plain p) (hne : p ≠ []) (hext : hasExtension p = false)
    (h : makePath t p = some t') : opensForWriting t' p = false ∧ ¬ C115_file_full := by
  have key : ∀ (t t' : Tree) (p : Path), Plain p → p ≠ [] → hasExtension p = false → makePath t p = some t' →
      opensForWriting t' p = false := by
    intro t t' p hp hne hext h
    simp [opensForWriting, C115_dir_partial t t' p hp hne hext h]
  refine ⟨key t t' p hp hne hext h, fun hfull => ?_⟩
  have hn := key (fun _ => none) _ [['o']] (by simp [Plain]) (by simp) (by decide) rfl
  have hy := hfull (fun _ => none) _ [['o']] (by simp [Plain]) (by simp) rfl rfl
  rw [hy] at hn
  cases hn

/-- **C115 is violated for every directory name with a dot** (`results.v2`): it is not created. -/
theorem C115_dir_violated (t t' : Tree) (p : Path) (hp : Plain p) (hext : hasExtension p = true) (hfree : t p = none)
    (h : makePath t p = some t') : t' p = none ∧ ¬ C115_dir_full := by
  have key : ∀ (t t' : Tree) (p : Path), Plain p → hasExtension p = true → t p = none → makePath t p = some t' →
      t' p = none := by
    intro t t' p hp hext hfree h
    have hne : p ≠ [] := by rintro rfl; simp [hasExtension] at hext
    rw [((C115_effect t p hp).2 t' h).2.2 p (fun hc => ?_), hfree]
    have := hc.1.length_le
    have hl : 0 < p.length := List.length_pos_iff.2 hne
    simp [wanted, hext] at this
    omega
  refine ⟨key t t' p hp hext hfree h, fun hfull => ?_⟩
  have hy := hfull (fun _ => none) (fun _ => none) [['r', '.', '2']] (by simp [Plain]) (by simp) rfl rfl
  cases hy

example : (makePath (fun _ => none) [['a'], ['b', '.', 'c'], ['i', '.', 'p']]).map
    (fun t => (t [['a']], t [['a'], ['b', '.', 'c']], t [['a'], ['b', '.', 'c'], ['i', '.', 'p']])) =
    some (some .dir, some .dir, none) := by decide

example : hasExtension [['.', 'p', 'n', 'g']] = false ∧ hasExtension [['.', '.']] = false ∧
    hasExtension [['a', '.']] = true ∧ hasExtension [['a', '.', 'b'], []] = false := by decide

end Huira.CliDispatch
