import Verif.Stars.Catalog
/-!
# The Tycho-2 commands of the command-line tool (model)

Models `apps/huira_cli/commands/fetch_tycho2.cpp` 20-180 (`write_callback`, `download_file`, `fetch_tycho2`),
`apps/huira_cli/commands/process_tycho2.cpp` 19-110 (`process_tycho2`), `apps/huira_cli/commands/tycho2.hpp` 13-20 and
the stream handling of `include/huira_impl/stars/io/star_catalog.ipp` 23-59 (`write_star_data`).

Conventions and simplifications
* The directory is a map from file names to contents; a command produces the list of the operations it makes on the
  disk, so a crash is a prefix of that list (the last write possibly cut short).  A crash is the death of the process:
  what was handed to the operating system is on the disk.
* An `ofstream` holds bytes back in a buffer of unspecified behaviour: `policy k` is the number of held bytes it hands
  on at the `k`-th write.  The device takes `room` bytes of a file and then fails (disk full, quota, I/O error).
* libcurl delivers the pieces `chunks f` to the callback and reports `netOk f` at the end of the transfer; it stops
  with an error as soon as a callback returns a short count.
* Input and output directory of `process_tycho2` are one name space (the catalogue's name is none of the sources').
  Deleting a file succeeds.  The two parsers are functions from file contents to stars (C15 models the `.dat` one).
  Progress bars and messages are left out.
-/
namespace Huira.Cli

abbrev Byte := UInt8

/-- A directory: file name to contents. -/
abbrev Fs := String → Option (List Byte)

/-- What a command does to the disk. -/
inductive Op where
  /-- open for writing: the file exists and is empty -/
  | create (f : String)
  /-- bytes reach the file -/
  | append (f : String) (bs : List Byte)
  | remove (f : String)
deriving DecidableEq

def Op.name : Op → String
  | .create f => f
  | .append f _ => f
  | .remove f => f

/-- Effect of one operation. -/
def Op.apply (fs : Fs) : Op → Fs
  | .create f => fun g => if g = f then some [] else fs g
  | .append f bs => fun g => if g = f then (fs f).map (· ++ bs) else fs g
  | .remove f => fun g => if g = f then none else fs g

/-- The disk after a list of operations. -/
def run (ops : List Op) (fs : Fs) : Fs := ops.foldl Op.apply fs

/-- The device and buffer behaviour behind one `ofstream`. -/
structure Device where
  room : Nat
  policy : Nat → Nat

/-- An `ofstream`: bytes on the disk, bytes held back, `!good()`. -/
structure Out where
  disk : List Byte
  buf : List Byte
  bad : Bool

/-- `out.write(bs)`, the `k`-th of this stream: does nothing on a bad stream; a device that takes less than what is
handed on makes the stream bad. -/
def Out.write (d : Device) (k : Nat) (s : Out) (bs : List Byte) : Out :=
  if s.bad then s else
    let held := s.buf ++ bs
    let n := min (d.policy k) held.length
    let taken := min n (d.room - s.disk.length)
    { disk := s.disk ++ held.take taken, buf := held.drop taken, bad := decide (taken < n) }

/-- `out.close()` (or the destructor): the held bytes go out as far as the device takes them. -/
def Out.close (d : Device) (s : Out) : Out :=
  let taken := min s.buf.length (d.room - s.disk.length)
  { disk := s.disk ++ s.buf.take taken, buf := [], bad := s.bad || decide (taken < s.buf.length) }

/-- Successive writes to a stream: the loop of `curl_easy_perform` around `write_callback`
(fetch_tycho2.cpp 20-32: the callback returns 0 when the stream is not good, and the transfer stops), also the two
writes of `write_star_data` (star_catalog.ipp 52-56: a write to a bad stream does nothing). -/
def pump (d : Device) (f : String) : Nat → Out → List (List Byte) → List Op × Out
  | _, s, [] => ([], s)
  | k, s, c :: cs =>
    let s' := s.write d k c
    let op := Op.append f (s'.disk.drop s.disk.length)
    if s'.bad then ([op], s')
    else
      let r := pump d f (k + 1) s' cs
      (op :: r.1, r.2)

/-- The bytes that leave the buffer when the stream is closed. -/
def closeOp (d : Device) (f : String) (s : Out) : Op := .append f ((s.close d).disk.drop s.disk.length)

/-- The outside world of one `fetch_tycho2` run. -/
structure Net where
  /-- `curl_global_init` (fetch_tycho2.cpp 111-118) -/
  globalInit : Bool
  /-- `curl_easy_init() != nullptr` -/
  easyInit : String → Bool
  /-- the `ofstream` opens -/
  opens : String → Bool
  chunks : String → List (List Byte)
  netOk : String → Bool
  device : String → Device

/-- `download_file` (fetch_tycho2.cpp 36-98). -/
def download (e : Net) (f : String) : List Op × Bool :=
  if !e.easyInit f then ([], false)
  else if !e.opens f then ([], false)
  else
    let r := pump (e.device f) f 0 ⟨[], [], false⟩ (e.chunks f)
    let ok := e.netOk f && !r.2.bad
    (.create f :: r.1 ++ closeOp (e.device f) f r.2 :: (if ok then [] else [.remove f]), ok)

/-- One of the two loops of `fetch_tycho2` (fetch_tycho2.cpp 129-151, 153-173): existing files are skipped unless
`force`. Result: the operations and the number of failures. -/
def fetchLoop (e : Net) (force : Bool) : List String → Fs → List Op × Nat
  | [], _ => ([], 0)
  | f :: fl, fs =>
    if (fs f).isSome && !force then fetchLoop e force fl fs
    else
      let d := download e f
      let r := fetchLoop e force fl (run d.1 fs)
      (d.1 ++ r.1, r.2 + (if d.2 then 0 else 1))

/-- tycho2.hpp 13-18 -/
def datFiles : List String :=
  ["tyc2.dat.00", "tyc2.dat.01", "tyc2.dat.02", "tyc2.dat.03", "tyc2.dat.04", "tyc2.dat.05", "tyc2.dat.06",
   "tyc2.dat.07", "tyc2.dat.08", "tyc2.dat.09", "tyc2.dat.10", "tyc2.dat.11", "tyc2.dat.12", "tyc2.dat.13",
   "tyc2.dat.14", "tyc2.dat.15", "tyc2.dat.16", "tyc2.dat.17", "tyc2.dat.18", "tyc2.dat.19"]

/-- tycho2.hpp 19 -/
def supplFiles : List String := ["suppl_1.dat", "suppl_2.dat"]

/-- process_tycho2.cpp 33 -/
def hrsc : String := "tycho2.hrsc"

/-- How a command ends: an exit code, or an exception nobody catches (`run_process`/`run_fetch` catch only
`TCLAP::ArgException`). -/
inductive Exit where
  | code (n : Nat)
  | terminated
deriving DecidableEq

/-- The outside world of one `process_tycho2` run. -/
structure Local (Star : Type) where
  inputDirExists : Bool
  readable : String → Bool
  parseDat : List Byte → List Star
  parseSuppl : List Byte → List Star
  /-- the catalogue file opens for writing -/
  opens : Bool
  device : Device

/-- A reading loop of `process_tycho2` (process_tycho2.cpp 43-59, 61-77); `read_tycho2_dat`/`read_tycho2_suppl` throw
when the file does not open (load_tycho2.ipp 60-66, 140-146). -/
def readLoop {Star : Type} (readable : String → Bool) (parse : List Byte → List Star) :
    List String → Fs → List Star → Except Exit (List Star)
  | [], _, acc => .ok acc
  | f :: fl, fs, acc =>
    match fs f with
    | none => .error (.code 1)
    | some bs => if readable f then readLoop readable parse fl fs (acc ++ parse bs) else .error .terminated

/-- Both reading loops. -/
def readAll {Star : Type} (l : Local Star) (fs : Fs) : Except Exit (List Star) :=
  (readLoop l.readable l.parseDat datFiles fs []).bind (readLoop l.readable l.parseSuppl supplFiles fs)

/-- The bytes `write_star_data` passes to its stream, in two writes (star_catalog.ipp 42-56). -/
structure Format (Star : Type) where
  header : List Star → List Byte
  body : List Star → List Byte

/-- `write_star_data` on the disk (star_catalog.ipp 36-59): the state of the stream is never looked at again after the
opening test. -/
def writeCatalog {Star : Type} (l : Local Star) (w : Format Star) (stars : List Star) : Option (List Op) :=
  if !l.opens then none
  else
    let r := pump l.device hrsc 0 ⟨[], [], false⟩ [w.header stars, w.body stars]
    some (.create hrsc :: r.1 ++ [closeOp l.device hrsc r.2])

/-- `process_tycho2` (process_tycho2.cpp 19-110). -/
def process {Star : Type} (l : Local Star) (w : Format Star) (clean : Bool) (fs : Fs) : List Op × Exit :=
  if !l.inputDirExists then ([], .code 1)
  else
    match readAll l fs with
    | .error x => ([], x)
    | .ok stars =>
      match writeCatalog l w stars with
      | none => ([], .terminated)
      | some ops => (ops ++ (if clean then (datFiles ++ supplFiles).map .remove else []), .code 0)

/-- The downloads of `fetch_tycho2`: first the `.dat` files, then the supplements (fetch_tycho2.cpp 128-173). -/
def fetchAll (e : Net) (force : Bool) (fs : Fs) : List Op × Nat :=
  let a := fetchLoop e force datFiles fs
  let b := fetchLoop e force supplFiles (run a.1 fs)
  (a.1 ++ b.1, a.2 + b.2)

/-- `fetch_tycho2` (fetch_tycho2.cpp 100-197). -/
def fetch {Star : Type} (e : Net) (l : Local Star) (w : Format Star) (force proc clean : Bool) (fs : Fs) :
    List Op × Exit :=
  if !e.globalInit then ([], .code 1)
  else
    let a := fetchAll e force fs
    if 0 < a.2 then (a.1, .code 1)
    else if proc then
      let p := process l w clean (run a.1 fs)
      (a.1 ++ p.1, p.2)
    else (a.1, .code 0)

/-- The two writes of `write_star_data` in terms of the catalogue model of C11 (star_catalog.ipp 25-56). -/
def hrscFormat {Star K : Type} [LinearOrder K] (c : Stars.Codec Star) (mag : Star → Option K)
    (sort : List Star → List Star) (t : Byte) : Format Star where
  header := fun s => Stars.headerBytes t (sort (s.filter (fun s => (mag s).isSome))).length
  body := fun s => ((sort (s.filter (fun s => (mag s).isSome))).map c.enc).flatten

end Huira.Cli
