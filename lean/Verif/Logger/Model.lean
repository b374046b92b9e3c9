import Mathlib.Data.List.Basic
/-!
# Logger (model)

`include/huira_impl/util/logger.ipp`. One logger (it is a singleton). A log entry is its level and message; the time
stamp and thread id are carried along by the code unchanged and are part of `tag`.
-/
namespace Huira.Logger

/-- `LogLevel` (logger.hpp 24): compared as numbers. -/
inductive Level where
  | debug | info | warning | error
deriving DecidableEq, Repr

def Level.toNat : Level → Nat
  | .debug => 0 | .info => 1 | .warning => 2 | .error => 3

/-- `LogEntry` (logger.hpp 32-51); `tag` stands for time stamp and thread id. A default-constructed entry has an empty
message. -/
structure Entry where
  level : Level
  message : String
  tag : Nat
deriving DecidableEq, Repr

def Entry.default : Entry := ⟨.debug, "", 0⟩

/-- `size_t` is 64 bits wide. -/
def wrap : Nat := 2 ^ 64

/-- The fields used by log/resize/dump (logger.hpp 117-123). -/
structure State where
  buffer : List Entry
  writeIndex : Nat
  minLevel : Level
  consoleDebug : Bool
  consoleInfo : Bool
  consoleWarning : Bool

/-- `Logger::Logger` (logger.ipp 87-97) -/
def State.init : State := ⟨List.replicate 1000 Entry.default, 0, .info, false, false, true⟩

/-- `set_level` (logger.ipp 111-114) -/
def setLevel (s : State) (l : Level) : State := { s with minLevel := l }

/-- `set_buffer_size` (logger.ipp 134-153). The copy loop fills positions `0 .. entries_to_copy-1` of the new buffer. -/
def setBufferSize (s : State) (size0 : Nat) : State :=
  let size := if size0 = 0 then 1 else size0
  let oldSize := s.buffer.length
  let n := min s.writeIndex (min oldSize size)
  { s with
    buffer := (List.range size).map fun i =>
      if i < n then s.buffer.getD ((s.writeIndex - n + i) % oldSize) Entry.default else Entry.default
    writeIndex := n }

/-- `log` (logger.ipp 195-216); the custom sink does not touch the buffer. `fetch_add` wraps. -/
def log (s : State) (e : Entry) : State :=
  if e.level.toNat < s.minLevel.toNat then s
  else { s with buffer := s.buffer.set (s.writeIndex % s.buffer.length) e, writeIndex := (s.writeIndex + 1) % wrap }

/-- The entries `dump_to_file` writes, in file order (logger.ipp 256-267). -/
def dump (s : State) : List Entry :=
  let size := s.buffer.length
  let total := min s.writeIndex size
  let start := if size < s.writeIndex then s.writeIndex % size else 0
  ((List.range total).map fun i => s.buffer.getD ((start + i) % size) Entry.default).filter (fun e => e.message ≠ "")

/-- `enable_console_debug/info/warning` (logger.ipp 296-341) -/
def enableDebug (s : State) (b : Bool) : State :=
  let s := { s with consoleDebug := b }
  if b then { s with consoleInfo := true, consoleWarning := true } else s
def enableInfo (s : State) (b : Bool) : State :=
  let s := { s with consoleInfo := b }
  if b then { s with consoleWarning := true } else { s with consoleDebug := false }
def enableWarning (s : State) (b : Bool) : State :=
  let s := { s with consoleWarning := b }
  if !b then { s with consoleInfo := false, consoleDebug := false } else s

/-- Public calls. -/
inductive Op where
  | log (e : Entry)
  | setLevel (l : Level)
  | setBufferSize (n : Nat)
  | enableDebug (b : Bool)
  | enableInfo (b : Bool)
  | enableWarning (b : Bool)

def step (s : State) : Op → State
  | .log e => log s e
  | .setLevel l => setLevel s l
  | .setBufferSize n => setBufferSize s n
  | .enableDebug b => enableDebug s b
  | .enableInfo b => enableInfo s b
  | .enableWarning b => enableWarning s b

def run (s : State) (h : List Op) : State := h.foldl step s

/-! ## Crash handlers, with any number of threads

`handle_crash` (logger.ipp 408-440) and `handle_terminate` (479-510): one atomic step per shared-memory access. A thread
that falls through raises the signal with the default action (or aborts, whose SIGABRT handler finds the flag set and
does the same), which ends the process. Which files can be written is an input (`dumpOk`): `output_crash_report` prints
only when the dump returned a path (logger.ipp 383). -/

inductive Pc where
  | idle
  | entered          -- about to test crash_handler_enabled_
  | testing          -- about to compare_exchange crash_reported_
  | reporting        -- won: will log, dump and print
  | dying            -- about to raise the signal with the default handler / abort
  | returned         -- left the handler because it is disabled
deriving DecidableEq

structure CState where
  enabled : Bool
  reported : Bool
  printed : Nat
  alive : Bool
  pc : Nat → Pc

def CState.init : CState := ⟨true, false, 0, true, fun _ => .idle⟩

def setPc (s : CState) (t : Nat) (p : Pc) : CState := { s with pc := Function.update s.pc t p }

/-- Steps of thread `t` (and `enable_crash_handler` calls by anyone, logger.ipp 281-287). `isTerminate` selects
`handle_terminate`, which aborts when the handler is disabled. -/
inductive CStep : CState → CState → Prop
  | enable (s : CState) (b : Bool) (ha : s.alive) : CStep s { s with enabled := b }
  | fault (s : CState) (t : Nat) (ha : s.alive) (h : s.pc t = .idle ∨ s.pc t = .returned) : CStep s (setPc s t .entered)
  | enabledTest (s : CState) (t : Nat) (isTerminate : Bool) (ha : s.alive) (h : s.pc t = .entered) :
      CStep s (setPc s t (if s.enabled then .testing else if isTerminate then .dying else .returned))
  | casWin (s : CState) (t : Nat) (ha : s.alive) (h : s.pc t = .testing) (hr : s.reported = false) :
      CStep s (setPc { s with reported := true } t .reporting)
  | casLose (s : CState) (t : Nat) (ha : s.alive) (h : s.pc t = .testing) (hr : s.reported = true) :
      CStep s (setPc s t .dying)
  | report (s : CState) (t : Nat) (dumpOk : Bool) (ha : s.alive) (h : s.pc t = .reporting) :
      CStep s (setPc { s with printed := s.printed + if dumpOk then 1 else 0 } t .dying)
  | die (s : CState) (t : Nat) (ha : s.alive) (h : s.pc t = .dying) : CStep s { s with alive := false }

inductive CReach : CState → Prop
  | init : CReach CState.init
  | step {s s' : CState} : CReach s → CStep s s' → CReach s'

/-! ## Concurrent `log` calls

`log` (logger.ipp 203-206) is two shared-memory steps: the atomic fetch-and-increment with the size read, and the write
of the entry into the slot. A step of another thread may come in between. -/

/-- A call that has fetched its slot but not written it. `ticket` is the value `fetch_add` returned. -/
structure Pending where
  ticket : Nat
  slot : Nat
  entry : Entry
deriving DecidableEq

structure MState where
  buffer : List Entry
  writeIndex : Nat
  pending : List Pending
  /-- a slot outside the buffer was written -/
  ub : Bool
deriving DecidableEq

inductive Act where
  /-- some thread calls `log(e)` (level not filtered) and executes lines 204-205 -/
  | fetch (e : Entry)
  /-- the `i`-th unfinished call executes line 206 -/
  | write (i : Nat)
  /-- some thread calls `set_buffer_size` -/
  | resize (n : Nat)

def minit (size : Nat) : MState := ⟨List.replicate size Entry.default, 0, [], false⟩

def mstep (s : MState) : Act → MState
  | .fetch e => { s with writeIndex := (s.writeIndex + 1) % wrap
                         pending := s.pending ++ [⟨s.writeIndex, s.writeIndex % s.buffer.length, e⟩] }
  | .write i =>
    match s.pending[i]? with
    | none => s
    | some p => { s with buffer := s.buffer.set p.slot p.entry, pending := s.pending.eraseIdx i
                         ub := s.ub || decide (s.buffer.length ≤ p.slot) }
  | .resize n =>
    let t := setBufferSize ⟨s.buffer, s.writeIndex, .info, false, false, true⟩ n
    { s with buffer := t.buffer, writeIndex := t.writeIndex }

def mrun (s : MState) (h : List Act) : MState := h.foldl mstep s

/-- What a dump taken in that state writes. -/
def mdump (s : MState) : List Entry := dump ⟨s.buffer, s.writeIndex, .info, false, false, true⟩

end Huira.Logger
