import Mathlib.Data.List.Basic
import Mathlib.Tactic.SplitIfs
/-!
# Model of the SPICE session

Models the error handling, kernel loading and leap-second handling of `include/huira_impl/core/spice.ipp` 17-235
(`check_spice_error`, `call_spice`, `furnsh`, `furnsh_relative_to_file`, `ensure_lsk_loaded`, `load_default_pck`, `str2et`,
`deltet`, `unitim`, `timout`).

Environment (CSPICE and the C++ library, contracts)
* CSPICE has one error action, `ABORT` at first: with `ABORT` a failing routine ends the process, with `RETURN` it sets the
  error status; with `RETURN` and the status set, routines return at once without doing anything.
* `furnsh_c` loads a text or binary kernel, or, for a meta-kernel, the kernels it lists one after the other, relative names
  resolved against the current directory; it fails at a file that is missing or unreadable. Of several leap-second kernels
  the one loaded last is in force; time conversions fail without one.
* `std::call_once` runs its function again after it threw; a function-local `static` is initialised once, here once per
  instantiation of the template `call_spice`.
* Paths are lists of names; the file system does not change. Ending the process is the field `aborted`.
-/
namespace Huira.SpiceSess

/-- An absolute path, or a path relative to the current directory. -/
abbrev Path := List String

/-- What a file contains: a leap-second kernel (numbered), another kernel, a meta-kernel, or nothing SPICE can read. -/
inductive File
  | lsk (id : ℕ)
  | kernel
  | listing (entries : List Path)
  | bad
deriving DecidableEq, Repr

/-- The world: contents of the files, whether a directory exists, and the path of the default leap-second kernel. -/
structure World where
  file : Path → File
  dir : Path → Bool
  defaultLsk : Path

/-- State of the process. `lsk`: the leap-second kernel in force. -/
structure St where
  abortAction : Bool := true
  failed : Bool := false
  lsk : Option ℕ := none
  /-- kernels loaded so far, last one first -/
  loaded : List Path := []
  lskLoaded : Bool := false
  inited : List ℕ := []
  cwd : Path
  aborted : Bool := false

/-- A path as seen from a directory; paths that begin with the root are absolute. -/
def resolve (cwd p : Path) : Path := if p.head? = some "/" then p else cwd ++ p

/-- A CSPICE routine detects an error. -/
def St.signal (s : St) : St := if s.abortAction then { s with aborted := true } else { s with failed := true }

/-- `furnsh_c` of one kernel that is not a meta-kernel. -/
def St.load1 (w : World) (s : St) (p : Path) : St :=
  match w.file p with
  | .lsk id => { s with lsk := some id, loaded := p :: s.loaded }
  | .kernel => { s with loaded := p :: s.loaded }
  | _ => s.signal

/-- The kernels of a meta-kernel, in order; the routine stops at the first error. -/
def St.loadAll (w : World) (s : St) : List Path → St
  | [] => s
  | e :: es => if (s.load1 w (resolve s.cwd e)).failed ∨ (s.load1 w (resolve s.cwd e)).aborted then s.load1 w (resolve s.cwd e)
    else St.loadAll w (s.load1 w (resolve s.cwd e)) es

/-- `furnsh_c(path)`; the path is absolute. -/
def St.furnshC (w : World) (s : St) (p : Path) : St :=
  if s.failed then s
  else match w.file p with
    | .listing es => s.loadAll w es
    | _ => s.load1 w p

/-- A time conversion of CSPICE (`str2et_c`, `deltet_c`, `unitim_c`, `timout_c`); `ok`: the arguments are acceptable. -/
def St.timeC (s : St) (ok : Bool) : St :=
  if s.failed then s else if s.lsk.isSome && ok then s else s.signal

/-- The outcome of a call of the library, seen by its user. -/
inductive Out
  | value
  | throws
deriving DecidableEq, Repr

/-- `call_spice` (spice.ipp 37-66) of instantiation `inst` with the routine `f`, and `check_spice_error` (18-35). -/
def callSpice (inst : ℕ) (f : St → St) (s : St) : St × Out :=
  let s := if inst ∈ s.inited then s else { s with abortAction := false, inited := inst :: s.inited }
  let s := if s.failed then { s with failed := false } else s
  let s := f s
  if s.failed then ({ s with failed := false }, .throws) else (s, .value)

/-- `ensure_lsk_loaded` (spice.ipp 123-163). -/
def ensureLsk (w : World) (s : St) : St × Out :=
  if s.lskLoaded then (s, .value)
  else
    let old := s.abortAction
    let s := { s with abortAction := false }
    let s := s.timeC true
    let s := if s.failed then
        St.furnshC w { s with failed := false } w.defaultLsk
      else s
    if s.failed then ({ s with failed := false, abortAction := old }, .throws)
    else ({ s with abortAction := old, lskLoaded := true }, .value)

/-- What a program can call. -/
inductive Op
  /-- `furnsh(path)` (spice.ipp 74-78), `load_default_pck` (178-182) -/
  | furnsh (p : Path)
  /-- `furnsh_relative_to_file(dir / name)` (spice.ipp 84-103) -/
  | furnshRel (dir : Path) (name : String)
  /-- `str2et`, `deltet`, `unitim`, `timout` (spice.ipp 193-248): instantiation, acceptable arguments -/
  | time (inst : ℕ) (ok : Bool)
  /-- `spkezr`, `pxform`, `sxform`, `conics` (255-404): instantiation, enough kernel data -/
  | state (inst : ℕ) (ok : Bool)
deriving Repr

/-- A routine of CSPICE that needs kernel data. -/
def St.stateC (s : St) (ok : Bool) : St := if s.failed then s else if ok then s else s.signal

/-- One call. Instantiation 0 is that of `furnsh`, 1 that of the lambda of `furnsh_relative_to_file`. -/
def step (w : World) (s : St) : Op → St × Out
  | .furnsh p => callSpice 0 (fun s => s.furnshC w (resolve s.cwd p)) s
  | .furnshRel dir name =>
    if dir = [] then callSpice 0 (fun s => s.furnshC w (s.cwd ++ [name])) s
    else
      let original := s.cwd
      if w.dir (resolve s.cwd dir) then
        let r := callSpice 1 (fun s => s.furnshC w (s.cwd ++ [name])) { s with cwd := resolve s.cwd dir }
        ({ r.1 with cwd := original }, r.2)
      else (s, .throws)
  | .time inst ok =>
    match ensureLsk w s with
    | (s, .throws) => (s, .throws)
    | (s, .value) => callSpice inst (fun s => s.timeC ok) s
  | .state inst ok => callSpice inst (fun s => s.stateC ok) s

/-- A program. -/
def run (w : World) (s : St) : List Op → St
  | [] => s
  | op :: ops => run w (step w s op).1 ops

/-! ## Specification -/

/-- The kernels a loading call brings in when nothing is wrong with them: the file itself, or what its list names, taken
relative to `base`. -/
def brought (w : World) (base : Path) (p : Path) : List Path :=
  match w.file p with
  | .listing es => es.map (resolve base)
  | _ => [p]

/-- A file is a kernel SPICE can load. -/
def Readable (w : World) (p : Path) : Prop := (∃ id, w.file p = .lsk id) ∨ w.file p = .kernel

/-- The leap-second kernel in force after loading these kernels in this order, if `acc` was in force before. -/
def inForce (w : World) (acc : Option ℕ) : List Path → Option ℕ
  | [] => acc
  | p :: ps => match w.file p with
    | .lsk id => inForce w (some id) ps
    | _ => inForce w acc ps

end Huira.SpiceSess
