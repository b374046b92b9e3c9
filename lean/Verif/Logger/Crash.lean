import Verif.Logger.Props

/-!
# What a crash leaves behind (C153)

Models the open-scope stack (`HUIRA_TRACE_SCOPE`, `logger.hpp` 308-335), the messages a crash adds to the log
(`handle_crash` `logger.ipp` 408-440, `handle_terminate` 479-512), the report written (`dump_to_file` 228-272) and what
becomes of the process (`handle_crash` 411-413, 437-439 and the meaning of a handler that returns). The log itself is
`Logger/Model`. One crashing thread; several crashing at once are C32, several logging at once C75. A program is what
its scopes, logger calls, exceptions and crash points are; everything else it computes is left out.
-/
set_option linter.unusedSimpArgs false
namespace Huira.Logger.Crash

/-- What a thread does, as far as scopes, the logger, exceptions and crashes go. -/
inductive Prog where
  | skip
  | call (o : Op)
  | crash (signal : Nat)
  | throw (what : String)
  | scope (name : String) (body : Prog)
  | seq (p q : Prog)
  | attempt (p handler : Prog)

inductive End where
  | done
  | thrown (what : String)
  | crashed (signal : Nat)
deriving DecidableEq

/-- The thread-local stack of open scopes and the logger calls made so far. -/
structure Th where
  scopes : List String
  calls : List Op

/-- Running a program. `ScopeLogger` pushes its name on construction (logger.hpp 320-323) and pops in its destructor,
which runs on normal exit and when an exception unwinds, and not when the process crashes (logger.hpp 325-330). -/
def exec : Prog → Th → End × Th
  | .skip, t => (.done, t)
  | .call o, t => (.done, { t with calls := t.calls ++ [o] })
  | .crash n, t => (.crashed n, t)
  | .throw w, t => (.thrown w, t)
  | .scope n p, t =>
    match exec p { t with scopes := t.scopes ++ [n] } with
    | (.crashed k, t') => (.crashed k, t')
    | (e, t') => (e, { t' with scopes := t'.scopes.dropLast })
  | .seq p q, t =>
    match exec p t with
    | (.done, t') => exec q t'
    | r => r
  | .attempt p h, t =>
    match exec p t with
    | (.thrown _, t') => exec h t'
    | r => r

/-- The messages of `handle_crash` (logger.ipp 423-433). -/
def crashMessages (signal : Nat) (scopes : List String) : List String :=
  ("Crash detected with signal: " ++ toString signal) ::
    if scopes = [] then []
    else ("Crash inside scope: " ++ scopes.getLastD "") :: "Scope trace:" :: scopes.map (" -> " ++ ·)

/-- The message of `handle_terminate` for an exception derived from `std::exception` (logger.ipp 497-499). -/
def terminateMessages (what : String) : List String := ["Uncaught exception: " ++ what]

/-- All are logged as errors; `tag` stands for time stamp and thread. -/
def asCalls (tag : Nat) (ms : List String) : List Op := ms.map fun m => .log ⟨.error, m, tag⟩

/-- The entries written when a thread that was started with an empty stack ends by `e` (logger.ipp 435, 509). -/
def report (tag : Nat) : End × Th → List Entry
  | (.crashed n, t) => dump (run State.init (t.calls ++ asCalls tag (crashMessages n t.scopes)))
  | (.thrown w, t) => dump (run State.init (t.calls ++ asCalls tag (terminateMessages w)))
  | (.done, t) => dump (run State.init t.calls)

/-! ### The file -/

/-- Which files can be opened for writing, and where the disk has room. -/
structure Disk where
  canOpen : String → Bool
  room : String → Bool

/-- `dump_to_file` (logger.ipp 228-272): the path given (or the platform's), else the same file name in the current
directory, else the empty string. The stream's state is not looked at again after the file was opened. -/
def dumpToFile (d : Disk) (path fallback : String) (lines : List Entry) : String × (String → Option (List Entry)) :=
  let write (p : String) : String → Option (List Entry) :=
    fun q => if q = p then some (if d.room p then lines else []) else none
  if d.canOpen path then (path, write path)
  else if d.canOpen fallback then (fallback, write fallback)
  else ("", fun _ => none)

/-! ### The process -/

/-- Where a signal comes from: an instruction that cannot be executed, `raise` / `kill`, or `abort`. -/
inductive Cause where
  | instruction
  | sent
  | abort
deriving DecidableEq

/-- A process about to run into its signal for the `n+1`st time, ended by it, or past it. -/
inductive Proc where
  | at (n : Nat)
  | ended
  | past
deriving DecidableEq

/-- One entry of `handle_crash` (logger.ipp 408-440). Enabled: the signal is raised again with the default action,
which ends the process. Disabled: the handler returns; then an instruction that faulted is executed again (the handler
stays installed: `signal` has BSD semantics), a signal that was sent is over, and `abort` ends the process itself. -/
def tick (enabled : Bool) (c : Cause) : Proc → Proc
  | .at n =>
    if enabled then .ended
    else match c with
      | .instruction => .at (n + 1)
      | .sent => .past
      | .abort => .ended
  | p => p

def ticks (enabled : Bool) (c : Cause) : Nat → Proc → Proc
  | 0, p => p
  | k + 1, p => ticks enabled c k (tick enabled c p)

/-! ## Specification -/

/-- Where a program ends: the scopes around that point, read off the text of the program. -/
inductive Fate where
  | done
  | thrown (what : String)
  | crashed (signal : Nat) (around : List String)
deriving DecidableEq

def fate : Prog → List String → Fate
  | .skip, _ => .done
  | .call _, _ => .done
  | .crash n, around => .crashed n around
  | .throw w, _ => .thrown w
  | .scope n p, around => fate p (around ++ [n])
  | .seq p q, around =>
    match fate p around with
    | .done => fate q around
    | f => f
  | .attempt p h, around =>
    match fate p around with
    | .thrown _ => fate h around
    | f => f

/-- The logger calls a program makes, in the order of its text, up to where it ends. -/
def made : Prog → List Op
  | .skip => []
  | .call o => [o]
  | .crash _ => []
  | .throw _ => []
  | .scope _ p => made p
  | .seq p q => made p ++ if fate p [] = .done then made q else []
  | .attempt p h => made p ++ match fate p [] with
    | .thrown _ => made h
    | _ => []

/-- The texts of a report. -/
def texts (r : List Entry) : List String := r.map (·.message)

/-- **C153 in full**: a report of a crash says so, where it happened, and in which scopes, whatever the program did
before; a path returned by a dump is that of a file with the whole report; a fatal signal ends the process. -/
def C153_full : Prop :=
  (∀ p tag n around, fate p [] = .crashed n around →
    crashMessages n around <:+ texts (report tag (exec p ⟨[], []⟩))) ∧
  (∀ d path fallback lines, path ≠ "" → fallback ≠ "" → (dumpToFile d path fallback lines).1 ≠ "" →
    (dumpToFile d path fallback lines).2 (dumpToFile d path fallback lines).1 = some lines) ∧
  (∀ enabled c, c ≠ .sent → ∃ k, ticks enabled c k (.at 0) = .ended)

/-! ## Proofs -/

theorem exec_fate : ∀ (p : Prog) (t : Th),
    match fate p t.scopes with
    | .done => (exec p t).1 = .done ∧ (exec p t).2.scopes = t.scopes
    | .thrown w => (exec p t).1 = .thrown w ∧ (exec p t).2.scopes = t.scopes
    | .crashed n around => (exec p t).1 = .crashed n ∧ (exec p t).2.scopes = around := by
  intro p
  induction p with
  | skip => intro t; simp [fate, exec]
  | call o => intro t; simp [fate, exec]
  | crash n => intro t; simp [fate, exec]
  | throw w => intro t; simp [fate, exec]
  | scope n p ih =>
    intro t
    have h := ih { t with scopes := t.scopes ++ [n] }
    simp only [fate, exec]
    rcases hf : fate p (t.scopes ++ [n]) with _ | w | ⟨k, ar⟩ <;> rw [hf] at h <;>
      rcases hx : exec p { t with scopes := t.scopes ++ [n] } with ⟨e, t'⟩ <;> simp only [hx] at h ⊢ <;>
      obtain ⟨rfl, h2⟩ := h <;> simp [h2]
  | seq p q ihp ihq =>
    intro t
    have h := ihp t
    simp only [fate, exec]
    rcases hf : fate p t.scopes with _ | w | ⟨k, ar⟩ <;> rw [hf] at h <;>
      rcases hx : exec p t with ⟨e, t'⟩ <;> simp only [hx] at h ⊢ <;> obtain ⟨rfl, h2⟩ := h
    · have h3 := ihq t'
      rw [h2] at h3
      exact h3
    · simp [h2]
    · simp [h2]
  | attempt p q ihp ihq =>
    intro t
    have h := ihp t
    simp only [fate, exec]
    rcases hf : fate p t.scopes with _ | w | ⟨k, ar⟩ <;> rw [hf] at h <;>
      rcases hx : exec p t with ⟨e, t'⟩ <;> simp only [hx] at h ⊢ <;> obtain ⟨rfl, h2⟩ := h
    · simp [h2]
    · have h3 := ihq t'
      rw [h2] at h3
      exact h3
    · simp [h2]

/-- **C153: scopes.** Whatever a program does, exceptions caught or not included: when it crashes, the open scopes are
exactly those around the crash point, outermost first; when it ends otherwise, none of its scopes is left open. -/
theorem C153_scopes (p : Prog) (calls : List Op) (outer : List String) :
    match fate p outer with
    | .crashed n around => (exec p ⟨outer, calls⟩).1 = .crashed n ∧ (exec p ⟨outer, calls⟩).2.scopes = around
    | .done => (exec p ⟨outer, calls⟩).1 = .done ∧ (exec p ⟨outer, calls⟩).2.scopes = outer
    | .thrown w => (exec p ⟨outer, calls⟩).1 = .thrown w ∧ (exec p ⟨outer, calls⟩).2.scopes = outer := by
  have := exec_fate p ⟨outer, calls⟩
  rcases hf : fate p outer with _ | w | ⟨k, ar⟩ <;> simp only [hf] at this ⊢ <;> exact this

/-- How a program ends does not depend on the scopes around it. -/
theorem fate_kind : ∀ (p : Prog) (a b : List String),
    match fate p a with
    | .done => fate p b = .done
    | .thrown w => fate p b = .thrown w
    | .crashed n _ => ∃ c, fate p b = .crashed n c := by
  intro p
  induction p with
  | skip => intro a b; simp [fate]
  | call o => intro a b; simp [fate]
  | crash n => intro a b; simp [fate]
  | throw w => intro a b; simp [fate]
  | scope n p ih => intro a b; exact ih (a ++ [n]) (b ++ [n])
  | seq p q ihp ihq =>
    intro a b
    have h := ihp a b
    simp only [fate]
    rcases hf : fate p a with _ | w | ⟨k, ar⟩ <;> rw [hf] at h
    · rw [h]; exact ihq a b
    · rw [h]
    · obtain ⟨c, hc⟩ := h
      rw [hc]; exact ⟨c, rfl⟩
  | attempt p q ihp ihq =>
    intro a b
    have h := ihp a b
    simp only [fate]
    rcases hf : fate p a with _ | w | ⟨k, ar⟩ <;> rw [hf] at h
    · rw [h]
    · rw [h]; exact ihq a b
    · obtain ⟨c, hc⟩ := h
      rw [hc]; exact ⟨c, rfl⟩

/-- **C153: what is in the log.** The calls a program makes reach the logger in program order, none lost, none twice. -/
theorem C153_calls : ∀ (p : Prog) (t : Th), (exec p t).2.calls = t.calls ++ made p := by
  intro p
  induction p with
  | skip => intro t; simp [exec, made]
  | call o => intro t; simp [exec, made]
  | crash n => intro t; simp [exec, made]
  | throw w => intro t; simp [exec, made]
  | scope n p ih =>
    intro t
    have h := ih { t with scopes := t.scopes ++ [n] }
    simp only [exec, made]
    rcases hx : exec p { t with scopes := t.scopes ++ [n] } with ⟨e, t'⟩
    rw [hx] at h
    cases e <;> exact h
  | seq p q ihp ihq =>
    intro t
    have h := ihp t
    have hf := exec_fate p t
    have hk := fate_kind p t.scopes []
    simp only [exec, made]
    rcases hx : exec p t with ⟨e, t'⟩
    rw [hx] at h hf
    replace h : t'.calls = t.calls ++ made p := h
    rcases hfp : fate p t.scopes with _ | w | ⟨k, ar⟩ <;> simp only [hfp] at hf hk <;> obtain ⟨rfl, h2⟩ := hf
    · simp only [hk, if_true]
      rw [ihq, h, List.append_assoc]
    · simp [hk, h]
    · obtain ⟨c, hc⟩ := hk
      simp [hc, h]
  | attempt p q ihp ihq =>
    intro t
    have h := ihp t
    have hf := exec_fate p t
    have hk := fate_kind p t.scopes []
    simp only [exec, made]
    rcases hx : exec p t with ⟨e, t'⟩
    rw [hx] at h hf
    replace h : t'.calls = t.calls ++ made p := h
    rcases hfp : fate p t.scopes with _ | w | ⟨k, ar⟩ <;> simp only [hfp] at hf hk <;> obtain ⟨rfl, h2⟩ := hf
    · simp [hk, h]
    · simp only [hk]
      rw [ihq, h, List.append_assoc]
    · obtain ⟨c, hc⟩ := hk
      simp [hc, h]

/-- Logging errors appends them to what is retained, whatever the level. -/
theorem retained_errors (tag : Nat) (ms : List String) (s : Spec) (hc : 0 < s.cap) :
    (Spec.run s (asCalls tag ms)).cap = s.cap ∧
    (s.retained.length ≤ s.cap →
      (Spec.run s (asCalls tag ms)).retained = lastN s.cap (s.retained ++ ms.map (fun m => ⟨.error, m, tag⟩))) := by
  induction ms generalizing s with
  | nil =>
    refine ⟨rfl, fun h => ?_⟩
    simp [asCalls, Spec.run, lastN, Nat.sub_eq_zero_of_le h]
  | cons m ms ih =>
    have hno : lessSevere .error s.level = false := by cases s.level <;> rfl
    have hstep : Spec.step s (.log ⟨.error, m, tag⟩) = { s with retained := lastN s.cap (s.retained ++ [⟨.error, m, tag⟩]) } := by
      simp [Spec.step, hno]
    have hrun : Spec.run s (asCalls tag (m :: ms)) =
        Spec.run { s with retained := lastN s.cap (s.retained ++ [⟨.error, m, tag⟩]) } (asCalls tag ms) := by
      simp [asCalls, Spec.run, hstep]
    rw [hrun]
    obtain ⟨h1, h2⟩ := ih { s with retained := lastN s.cap (s.retained ++ [⟨.error, m, tag⟩]) } hc
    refine ⟨h1, fun _ => ?_⟩
    rw [h2 (by simp only; rw [lastN_length]; omega)]
    simp only [List.map_cons]
    -- keeping the last `cap` early or late is the same
    generalize ms.map (fun m => (⟨.error, m, tag⟩ : Entry)) = tail
    unfold lastN
    simp only [List.length_append, List.length_drop, List.length_cons, List.length_nil]
    rw [show s.retained ++ (⟨.error, m, tag⟩ : Entry) :: tail = (s.retained ++ [⟨.error, m, tag⟩]) ++ tail by simp]
    generalize hX : s.retained ++ [(⟨.error, m, tag⟩ : Entry)] = X
    have hXl : X.length = s.retained.length + 1 := by simp [← hX]
    rw [← hXl]
    have e : List.drop (X.length - s.cap) X ++ tail = List.drop (X.length - s.cap) (X ++ tail) := by
      rw [List.drop_append_of_le_length (by omega)]
    rw [e, List.drop_drop]
    congr 1
    omega

theorem cap_pos (h : List Op) : 0 < (Spec.run Spec.init h).cap ∧
    (Spec.run Spec.init h).retained.length ≤ (Spec.run Spec.init h).cap := by
  induction h using List.reverseRecOn with
  | nil => simp [Spec.run, Spec.init]
  | append_singleton h op ih =>
    have e : Spec.run Spec.init (h ++ [op]) = Spec.step (Spec.run Spec.init h) op := by simp [Spec.run]
    rw [e]
    cases op with
    | log x =>
      simp only [Spec.step]
      split
      · exact ih
      · exact ⟨ih.1, by dsimp only; rw [lastN_length]; exact Nat.min_le_left _ _⟩
    | setBufferSize n => exact ⟨by simp [Spec.step], by simp only [Spec.step]; rw [lastN_length]; omega⟩
    | setLevel l => exact ih
    | enableDebug b => exact ih
    | enableInfo b => exact ih
    | enableWarning b => exact ih

/-- The report after a history and a few errors: everything kept before that still fits, then the errors. -/
theorem dump_errors (calls : List Op) (tag : Nat) (ms : List String) (hb : calls.length + ms.length < 2 ^ 64)
    (hne : ∀ m ∈ ms, m ≠ "") :
    dump (run State.init (calls ++ asCalls tag ms)) =
      (lastN (Spec.run Spec.init calls).cap ((Spec.run Spec.init calls).retained ++
        ms.map (fun m => (⟨.error, m, tag⟩ : Entry)))).filter (fun e => e.message ≠ "") := by
  rw [C30_dump_partial _ (by simp [asCalls]; omega)]
  have e : Spec.run Spec.init (calls ++ asCalls tag ms) = Spec.run (Spec.run Spec.init calls) (asCalls tag ms) := by
    simp [Spec.run]
  rw [e, (retained_errors tag ms _ (cap_pos calls).1).2 (cap_pos calls).2]

theorem lastN_suffix {α : Type} (n : Nat) (a b : List α) : lastN (min n b.length) b <:+ lastN n (a ++ b) := by
  unfold lastN
  rcases Nat.le_total n b.length with h | h
  · rw [Nat.min_eq_left h, List.length_append, List.drop_append]
    rw [show a.length + b.length - n - a.length = b.length - n by omega]
    exact List.suffix_append _ _
  · rw [Nat.min_eq_right h, Nat.sub_self, List.drop_zero, List.length_append,
      List.drop_append_of_le_length (by omega)]
    exact List.suffix_append _ _

/-- The last `cap` of the errors are the end of the report. -/
theorem report_end (calls : List Op) (tag : Nat) (ms : List String) (hb : calls.length + ms.length < 2 ^ 64)
    (hne : ∀ m ∈ ms, m ≠ "") :
    lastN (min (Spec.run Spec.init calls).cap ms.length) ms <:+ texts (dump (run State.init (calls ++ asCalls tag ms))) := by
  rw [dump_errors calls tag ms hb hne]
  have h := lastN_suffix (Spec.run Spec.init calls).cap (Spec.run Spec.init calls).retained
    (ms.map (fun m => (⟨.error, m, tag⟩ : Entry)))
  have h2 := (h.filter (fun e => decide (e.message ≠ ""))).map (fun e : Entry => e.message)
  rw [List.filter_eq_self.2] at h2
  · have e : (lastN (min (Spec.run Spec.init calls).cap (ms.map (fun m => (⟨.error, m, tag⟩ : Entry))).length)
        (ms.map (fun m => (⟨.error, m, tag⟩ : Entry)))).map (fun e : Entry => e.message) =
        lastN (min (Spec.run Spec.init calls).cap ms.length) ms := by
      simp only [lastN, List.length_map, List.map_drop, List.map_map]
      congr 1
      rw [show ((fun e : Entry => e.message) ∘ fun m => (⟨.error, m, tag⟩ : Entry)) = id from rfl, List.map_id]
    rw [e] at h2
    exact h2
  · intro a ha
    have := List.mem_of_mem_drop ha
    obtain ⟨m, hm, rfl⟩ := List.mem_map.1 this
    simpa using hne m hm

theorem append_ne_empty (a b : String) (h : a ≠ "") : a ++ b ≠ "" := by
  intro hc
  exact h (String.append_eq_empty_iff.1 hc).1

theorem crashMessages_ne (n : Nat) (scopes : List String) : ∀ m ∈ crashMessages n scopes, m ≠ "" := by
  intro m hm
  unfold crashMessages at hm
  rcases List.mem_cons.1 hm with rfl | hm
  · exact append_ne_empty _ _ (by decide)
  · split at hm
    · simp at hm
    · rcases List.mem_cons.1 hm with rfl | hm
      · exact append_ne_empty _ _ (by decide)
      · rcases List.mem_cons.1 hm with rfl | hm
        · decide
        · obtain ⟨x, _, rfl⟩ := List.mem_map.1 hm
          exact append_ne_empty _ _ (by decide)

/-- **C153: the report (partial).** When a program crashes inside the scopes `around`, the report ends with the last lines
of the crash message — all of them as soon as the buffer size set last is at least the number of lines; before them come
the messages logged last, as many as the buffer still holds. -/
theorem C153_report_partial (p : Prog) (tag n : Nat) (around : List String) (h : fate p [] = .crashed n around)
    (hb : (made p).length + (crashMessages n around).length < 2 ^ 64) :
    lastN (min (Spec.run Spec.init (made p)).cap (crashMessages n around).length) (crashMessages n around)
      <:+ texts (report tag (exec p ⟨[], []⟩)) ∧
    ((crashMessages n around).length ≤ (Spec.run Spec.init (made p)).cap →
      crashMessages n around <:+ texts (report tag (exec p ⟨[], []⟩))) ∧
    report tag (exec p ⟨[], []⟩) = (lastN (Spec.run Spec.init (made p)).cap ((Spec.run Spec.init (made p)).retained ++
      (crashMessages n around).map (fun m => (⟨.error, m, tag⟩ : Entry)))).filter (fun e => e.message ≠ "") := by
  have hs := C153_scopes p [] []
  rw [h] at hs
  have hm := C153_calls p ⟨[], []⟩
  rcases hx : exec p ⟨[], []⟩ with ⟨e, t⟩
  rw [hx] at hs hm
  obtain ⟨rfl, rfl⟩ := hs
  simp only [List.nil_append] at hm
  rw [← hm] at hb ⊢
  have := report_end t.calls tag (crashMessages n t.scopes) hb (crashMessages_ne n t.scopes)
  refine ⟨this, fun hc => ?_, ?_⟩
  · rw [Nat.min_eq_right hc] at this
    simpa [lastN, report] using this
  · exact dump_errors t.calls tag _ hb (crashMessages_ne n t.scopes)

/-- **C153: the number of lines.** One for a crash outside any scope, three and one per scope otherwise. -/
theorem C153_lines (n : Nat) (around : List String) :
    (crashMessages n around).length = if around = [] then 1 else around.length + 3 := by
  unfold crashMessages
  split <;> simp

/-- **C153: exceptions.** The last line of the report of an uncaught exception is its message, for every buffer size and
every log level. -/
theorem C153_exception_partial (p : Prog) (tag : Nat) (what : String) (h : fate p [] = .thrown what)
    (hb : (made p).length + 1 < 2 ^ 64) :
    (texts (report tag (exec p ⟨[], []⟩))).getLast? = some ("Uncaught exception: " ++ what) := by
  have hs := C153_scopes p [] []
  rw [h] at hs
  have hm := C153_calls p ⟨[], []⟩
  rcases hx : exec p ⟨[], []⟩ with ⟨e, t⟩
  rw [hx] at hs hm
  obtain ⟨rfl, _⟩ := hs
  simp only [List.nil_append] at hm
  rw [← hm] at hb
  have := report_end t.calls tag (terminateMessages what) (by simpa [terminateMessages] using hb)
    (by intro m hm; simp only [terminateMessages, List.mem_singleton] at hm; subst hm; exact append_ne_empty _ _ (by decide))
  have hc := (cap_pos t.calls).1
  have e1 : min (Spec.run Spec.init t.calls).cap (terminateMessages what).length = 1 := by
    simp [terminateMessages]; omega
  rw [e1] at this
  obtain ⟨pre, hp⟩ := this
  simp only [report]
  rw [← hp]
  simp [lastN, terminateMessages]

/-- **C153: the file (partial).** The empty string is returned exactly when neither place can be opened, and then nothing
is written; otherwise exactly one file is written, the one returned, and it holds the whole report if the disk has room. -/
theorem C153_file_partial (d : Disk) (path fallback : String) (lines : List Entry) (hp : path ≠ "") (hf : fallback ≠ "") :
    ((dumpToFile d path fallback lines).1 = "" ↔ d.canOpen path = false ∧ d.canOpen fallback = false) ∧
    ((dumpToFile d path fallback lines).1 = "" → ∀ q, (dumpToFile d path fallback lines).2 q = none) ∧
    ((dumpToFile d path fallback lines).1 ≠ "" →
      d.canOpen (dumpToFile d path fallback lines).1 = true ∧
      (d.canOpen path = true → (dumpToFile d path fallback lines).1 = path) ∧
      (∀ q, q ≠ (dumpToFile d path fallback lines).1 → (dumpToFile d path fallback lines).2 q = none) ∧
      (d.room (dumpToFile d path fallback lines).1 = true →
        (dumpToFile d path fallback lines).2 (dumpToFile d path fallback lines).1 = some lines)) := by
  unfold dumpToFile
  cases h1 : d.canOpen path <;> cases h2 : d.canOpen fallback <;> simp_all

/-- **C153: the end.** A signal ends the process exactly when the crash handler is enabled or the signal came from
`abort`; with the handler disabled, an instruction that faults is executed again and again for ever. -/
theorem C153_end (enabled : Bool) (c : Cause) :
    ((∃ k, ticks enabled c k (.at 0) = .ended) ↔ enabled = true ∨ c = .abort) ∧
    (enabled = false → c = .instruction → ∀ k, ticks enabled c k (.at 0) = .at k) := by
  have loop : ∀ (k n : Nat), ticks false .instruction k (.at n) = .at (n + k) := by
    intro k
    induction k with
    | zero => intro n; rfl
    | succ k ih => intro n; simp only [ticks, tick]; simp only [Bool.false_eq_true, if_false]; rw [ih]; congr 1; omega
  have past : ∀ k, ticks false .sent k .past = .past := by
    intro k
    induction k with
    | zero => rfl
    | succ k ih => simp only [ticks, tick]; exact ih
  constructor
  · constructor
    · rintro ⟨k, hk⟩
      cases enabled with
      | true => exact Or.inl rfl
      | false =>
        cases c with
        | abort => exact Or.inr rfl
        | instruction => rw [loop] at hk; cases hk
        | sent =>
          cases k with
          | zero => cases hk
          | succ k =>
            simp only [ticks, tick, Bool.false_eq_true, if_false] at hk
            rw [past] at hk
            cases hk
    · rintro (rfl | rfl)
      · exact ⟨1, rfl⟩
      · exact ⟨1, by cases enabled <;> rfl⟩
  · rintro rfl rfl k
    rw [loop, Nat.zero_add]

/-- A buffer of two lines, one scope, a crash in it. -/
def small : Prog := .seq (.call (.setBufferSize 2)) (.scope "render" (.crash 11))

/-- **C153, violated.** With a small buffer the report does not say that there was a crash. -/
theorem C153_violated_small (tag : Nat) :
    fate small [] = .crashed 11 ["render"] ∧ texts (report tag (exec small ⟨[], []⟩)) = ["Scope trace:", " -> render"] := by
  refine ⟨rfl, ?_⟩
  have hx : exec small ⟨[], []⟩ = (.crashed 11, ⟨["render"], [.setBufferSize 2]⟩) := rfl
  rw [hx]
  simp only [report]
  rw [dump_errors _ _ _ (by simp [crashMessages]) (crashMessages_ne _ _)]
  have hs : Spec.run Spec.init [Op.setBufferSize 2] = ⟨2, .info, []⟩ := by
    simp [Spec.run, Spec.step, Spec.init, lastN]
  rw [hs]
  simp [crashMessages, lastN, texts]

/-- **C153, violated.** A full disk: the path is returned, the report is not there. -/
theorem C153_violated_disk (lines : List Entry) (h : lines ≠ []) :
    let d : Disk := ⟨fun _ => true, fun _ => false⟩
    (dumpToFile d "a.log" "b.log" lines).1 = "a.log" ∧ (dumpToFile d "a.log" "b.log" lines).2 "a.log" ≠ some lines := by
  refine ⟨rfl, ?_⟩
  simp only [dumpToFile, if_true, ne_eq]
  intro hc
  simp only [Bool.false_eq_true, if_false, Option.some.injEq] at hc
  exact h hc.symm

theorem C153_violated : ¬ C153_full := by
  rintro ⟨_, _, h⟩
  obtain ⟨k, hk⟩ := h false .instruction (by decide)
  rw [(C153_end false .instruction).2 rfl rfl k] at hk
  cases hk

/-- Two nested scopes, an exception caught in between, and a crash after it. -/
def nested : Prog :=
  .scope "a" (.seq (.attempt (.scope "b" (.throw "x")) (.call (.log ⟨.info, "caught", 0⟩))) (.scope "c" (.crash 8)))

example : fate nested [] = .crashed 8 ["a", "c"] := rfl
example : (exec nested ⟨[], []⟩).2.scopes = ["a", "c"] := rfl
example : ["Crash detected with signal: 8", "Crash inside scope: c", "Scope trace:", " -> a", " -> c"] <:+
    texts (report 0 (exec nested ⟨[], []⟩)) := by
  have h := (C153_report_partial nested 0 8 ["a", "c"] rfl (by decide)).2.1 (by
    have : made nested = [.log ⟨.info, "caught", 0⟩] := rfl
    rw [this]
    simp [Spec.run, Spec.step, Spec.init, lessSevere, crashMessages])
  exact h

end Huira.Logger.Crash
