import Mathlib.Data.List.Infix
import Mathlib.Tactic.SplitIfs
import Mathlib.Tactic.Tauto
/-!
# C124: calls of SPICE from several threads

`include/huira/core/spice.hpp` 24-27 says that the functions of `huira::spice` are thread-safe and handle SPICE errors by
converting them to exceptions. Models `call_spice` (`include/huira_impl/core/spice.ipp` 37-66) and `check_spice_error`
(17-36) when calls run at the same time: CSPICE has one error status for the whole process, and nothing in `spice.ipp`
locks it.

Simplifications. A call takes three atomic steps (clear the status, run the routine, look at the status); real calls
interleave more finely, and CSPICE itself is not safe to enter from two threads, so the schedules here are the harmless
ones. Each call has its own number; calls of one thread are calls whose steps do not overlap. The call of a routine either
fails on its arguments and the loaded kernels (`fails`) or works.
-/
namespace Huira.SpiceThr

set_option linter.unusedSimpArgs false

/-- What the caller gets. `stale`: a value is returned although the routine computed none. `throws u`: an exception with
the message of the error detected in call `u`. -/
inductive Outcome
  | value
  | stale
  | throws (whose : ℕ)
deriving DecidableEq, Repr

/-- How far a call has come. -/
inductive Phase
  | idle
  | entered
  | ran (computed : Bool)
  | done (o : Outcome)
deriving DecidableEq, Repr

/-- The process: the error status of CSPICE with the call that set it, and the calls. -/
structure St where
  failed : Option ℕ := none
  phase : ℕ → Phase := fun _ => .idle

/-- Set the phase of one call. -/
def St.at (s : St) (t : ℕ) (p : Phase) : St := { s with phase := fun u => if u = t then p else s.phase u }

/-- The next atomic step of call `t` (spice.ipp 52-54; 58-63; 17-36). With the status set a CSPICE routine returns at once
(error action RETURN). -/
def step (fails : ℕ → Bool) (s : St) (t : ℕ) : St :=
  match s.phase t with
  | .idle => { s.at t .entered with failed := none }
  | .entered =>
    if s.failed.isSome then s.at t (.ran false)
    else if fails t then { s.at t (.ran false) with failed := some t }
    else s.at t (.ran true)
  | .ran c =>
    match s.failed with
    | some u => { s.at t (.done (.throws u)) with failed := none }
    | none => s.at t (.done (if c then .value else .stale))
  | .done _ => s

/-- A schedule: whose step is next. -/
def run (fails : ℕ → Bool) (s : St) (sched : List ℕ) : St := sched.foldl (step fails) s

/-! ## Specification -/

/-- What call `t` would get were it the only one. -/
def alone (fails : ℕ → Bool) (t : ℕ) : Outcome := if fails t then .throws t else .value

/-- Call `t` has begun and has not ended. -/
def Active (s : St) (t : ℕ) : Prop := s.phase t = .entered ∨ ∃ c, s.phase t = .ran c

/-- No two calls are in progress at any moment of the schedule. -/
def OneAtATime (fails : ℕ → Bool) (sched : List ℕ) : Prop :=
  ∀ pre, pre <+: sched → ∀ t u, Active (run fails {} pre) t → Active (run fails {} pre) u → t = u

/-- The property the documentation states: under every schedule every call gets what it would get alone. -/
def C124_full : Prop :=
  ∀ (fails : ℕ → Bool) (sched : List ℕ) (t : ℕ) (o : Outcome),
    (run fails {} sched).phase t = .done o → o = alone fails t

/-! ## Theorems -/

/-- C124 fails: of two calls at the same time one fails, and its caller gets a value nothing computed; or the caller of the
other one gets the exception. -/
theorem C124_violated : ¬ C124_full := by
  intro h
  have := h (fun t => t = 0) [0, 0, 1, 0] 0 .stale (by decide)
  revert this; decide

/-- C124: the other ways it goes wrong. Call 1 is correct but throws the error of call 0, whose caller is told all is well;
call 1 is skipped and its caller gets a value nothing computed, with call 0 throwing as it should. -/
theorem C124_violated_others :
    ((run (fun t => t = 0) {} [0, 1, 0, 1, 1, 0]).phase 1 = .done (.throws 0) ∧
      (run (fun t => t = 0) {} [0, 1, 0, 1, 1, 0]).phase 0 = .done .stale) ∧
    ((run (fun t => t = 0) {} [0, 1, 0, 1, 0, 1]).phase 1 = .done .stale ∧
      (run (fun t => t = 0) {} [0, 1, 0, 1, 0, 1]).phase 0 = .done (.throws 0)) := by
  decide

theorem at_phase_self (s : St) (t : ℕ) (p : Phase) : (s.at t p).phase t = p := by simp [St.at]
theorem at_phase_ne (s : St) {t u : ℕ} (p : Phase) (h : u ≠ t) : (s.at t p).phase u = s.phase u := by simp [St.at, h]

/-- A step of `t` leaves the other calls where they are. -/
theorem step_other (fails : ℕ → Bool) (s : St) {t u : ℕ} (h : u ≠ t) : (step fails s t).phase u = s.phase u := by
  unfold step
  split
  · exact at_phase_ne s _ h
  · split_ifs
    · exact at_phase_ne s _ h
    · exact at_phase_ne s _ h
    · exact at_phase_ne s _ h
  · split
    · exact at_phase_ne s _ h
    · exact at_phase_ne s _ h
  · rfl

/-- C124 (partial): when no routine fails, every schedule of any number of calls gives every call its value. -/
theorem C124_no_failure_partial (fails : ℕ → Bool) (hf : ∀ t, fails t = false) (sched : List ℕ) (t : ℕ) (o : Outcome)
    (h : (run fails {} sched).phase t = .done o) : o = .value := by
  have key : ∀ (sched : List ℕ) (s : St), s.failed = none → (∀ t, s.phase t ≠ .ran false) →
      (∀ t o, s.phase t = .done o → o = .value) →
      ∀ t o, (run fails s sched).phase t = .done o → o = .value := by
    intro sched
    induction sched with
    | nil => intro s _ _ h; exact h
    | cons u us ih =>
      intro s h1 h2 h3
      have hstep : (step fails s u).failed = none ∧ (step fails s u).phase u ≠ .ran false ∧
          ∀ o, (step fails s u).phase u = .done o → o = .value := by
        unfold step
        split
        · refine ⟨rfl, ?_, ?_⟩
          · rw [at_phase_self]; simp
          · intro o ho; rw [at_phase_self] at ho; cases ho
        · rw [if_neg (by rw [h1]; simp), if_neg (by rw [hf]; simp)]
          refine ⟨h1, ?_, ?_⟩
          · rw [at_phase_self]; simp
          · intro o ho; rw [at_phase_self] at ho; cases ho
        · rename_i c hc
          have hct : c = true := by
            cases c
            · exact absurd hc (h2 u)
            · rfl
          subst hct
          rw [h1]
          refine ⟨h1, ?_, ?_⟩
          · rw [at_phase_self]; simp
          · intro o ho; rw [at_phase_self] at ho; cases ho; rfl
        · rename_i o ho
          exact ⟨h1, h2 u, h3 u⟩
      refine ih _ hstep.1 ?_ ?_
      · intro t
        by_cases ht : t = u
        · subst ht; exact hstep.2.1
        · rw [step_other fails s ht]; exact h2 t
      · intro t o
        by_cases ht : t = u
        · subst ht; exact hstep.2.2 o
        · rw [step_other fails s ht]; exact h3 t o
  exact key sched {} rfl (by simp) (by simp) t o h

/-- C124 (partial): when calls do not overlap, as under a lock of the program's own, every call gets what it would get
alone: its value, or an exception with its own error. -/
theorem C124_serial_partial (fails : ℕ → Bool) (sched : List ℕ) (hs : OneAtATime fails sched) (t : ℕ) (o : Outcome)
    (h : (run fails {} sched).phase t = .done o) : o = alone fails t := by
  have key : ∀ (sched : List ℕ) (s : St),
      (∀ pre, pre <+: sched → ∀ t u, Active (run fails s pre) t → Active (run fails s pre) u → t = u) →
      (∀ t, s.phase t = .entered → s.failed = none) →
      (∀ t c, s.phase t = .ran c → s.failed = (if fails t then some t else none) ∧ c = !fails t) →
      (∀ t o, s.phase t = .done o → o = alone fails t) →
      ∀ t o, (run fails s sched).phase t = .done o → o = alone fails t := by
    intro sched
    induction sched with
    | nil => intro s _ _ _ h; exact h
    | cons u us ih =>
      intro s h0 h1 h2 h3
      have h0' : ∀ pre, pre <+: us → ∀ t v, Active (run fails (step fails s u) pre) t →
          Active (run fails (step fails s u) pre) v → t = v := by
        intro pre hp
        exact h0 (u :: pre) (List.cons_prefix_cons.2 ⟨rfl, hp⟩)
      have hnow := h0 [u] (List.cons_prefix_cons.2 ⟨rfl, List.nil_prefix⟩)
      have hbefore := h0 [] List.nil_prefix
      -- what the step does to `u`, and that nobody else is active when the status may change
      have hu : (step fails s u).phase u = .entered → (step fails s u).failed = none := by
        unfold step
        split
        · intro _; rfl
        · rename_i he
          split_ifs <;> (intro hx; simp [St.at] at hx)
        · split <;> (intro hx; simp [St.at] at hx)
        · rename_i hd; intro hx; rw [hd] at hx; cases hx
      have hr : ∀ c, (step fails s u).phase u = .ran c →
          (step fails s u).failed = (if fails u then some u else none) ∧ c = !fails u := by
        intro c
        unfold step
        split
        · intro hx; simp [St.at] at hx
        · rename_i he
          rw [if_neg (by rw [h1 u he]; simp)]
          split_ifs with hf
          · intro hx; simp [St.at] at hx; subst hx; simp [hf]
          · intro hx; simp [St.at] at hx; subst hx
            refine ⟨h1 u he, ?_⟩
            simpa using hf
        · split <;> (intro hx; simp [St.at] at hx)
        · rename_i hd; intro hx; rw [hd] at hx; cases hx
      have hd : ∀ o, (step fails s u).phase u = .done o → o = alone fails u := by
        intro o
        unfold step
        split
        · intro hx; simp [St.at] at hx
        · split_ifs <;> (intro hx; simp [St.at] at hx)
        · rename_i c hc
          obtain ⟨e1, e2⟩ := h2 u c hc
          rw [e1]
          by_cases hf : fails u = true
          · simp only [hf, if_true]
            intro hx; rw [St.at] at hx; simp at hx; subst hx; simp [alone, hf]
          · have hf' : fails u = false := by simpa using hf
            simp only [hf', Bool.false_eq_true, if_false]
            intro hx; rw [at_phase_self] at hx; simp [e2, hf'] at hx; subst hx; simp [alone, hf']
        · exact h3 u o
      have hactive : ∀ t, t ≠ u → Active s t → (step fails s u) = s := by
        intro t ht ha
        have ha' : Active (step fails s u) t := by
          unfold Active; rw [step_other fails s ht]; exact ha
        have hnu' : ¬ Active (step fails s u) u := fun hx => ht (hnow t u ha' hx)
        have hnu : ¬ Active s u := fun hx => ht (hbefore t u ha hx)
        cases hp : s.phase u with
        | idle =>
          exfalso; apply hnu'; left
          unfold step; rw [hp]; exact at_phase_self s u _
        | entered => exact absurd (Or.inl hp) hnu
        | ran c => exact absurd (Or.inr ⟨c, hp⟩) hnu
        | done o => unfold step; rw [hp]
      refine ih _ h0' ?_ ?_ ?_
      · intro t ht
        by_cases e : t = u
        · subst e; exact hu ht
        · rw [step_other fails s e] at ht
          rw [hactive t e (Or.inl ht)]; exact h1 t ht
      · intro t c ht
        by_cases e : t = u
        · subst e; exact hr c ht
        · rw [step_other fails s e] at ht
          rw [hactive t e (Or.inr ⟨c, ht⟩)]; exact h2 t c ht
      · intro t o ht
        by_cases e : t = u
        · subst e; exact hd o ht
        · rw [step_other fails s e] at ht; exact h3 t o ht
  exact key sched {} hs (by simp) (by simp) (by simp) t o h

/-- Two calls one after the other, the first failing, are one at a time, and each gets its own outcome. -/
example : (run (fun t => t = 0) {} [0, 0, 0, 1, 1, 1]).phase 0 = .done (.throws 0) ∧
    (run (fun t => t = 0) {} [0, 0, 0, 1, 1, 1]).phase 1 = .done .value := by decide

/-- Schedules of calls one after the other exist. -/
example : OneAtATime (fun t => t = 0) [0, 0, 0, 1, 1, 1] := by
  intro pre hp t u ht hu
  have hphase : ∀ v, v ≠ 0 → v ≠ 1 → ∀ l : List ℕ, (∀ x ∈ l, x = 0 ∨ x = 1) →
      ∀ s : St, s.phase v = .idle → (run (fun t => t = 0) s l).phase v = .idle := by
    intro v h0 h1 l
    induction l with
    | nil => intro _ s h; exact h
    | cons x xs ih =>
      intro hx s h
      refine ih (fun y hy => hx y (List.mem_cons_of_mem _ hy)) _ ?_
      rw [step_other _ s (by rcases hx x List.mem_cons_self with rfl | rfl <;> assumption)]
      exact h
  have hsub : ∀ x ∈ pre, x = 0 ∨ x = 1 := fun x hx => by simpa using hp.subset hx
  have hsmall : ∀ v, Active (run (fun t => t = 0) {} pre) v → v = 0 ∨ v = 1 := by
    intro v hv
    by_contra hne
    have := hphase v (fun e => hne (Or.inl e)) (fun e => hne (Or.inr e)) pre hsub {} rfl
    rcases hv with hv | ⟨c, hv⟩ <;> rw [this] at hv <;> cases hv
  have h01 : ¬ (Active (run (fun t => t = 0) {} pre) 0 ∧ Active (run (fun t => t = 0) {} pre) 1) := by
    have hpre : pre ∈ [[], [0], [0, 0], [0, 0, 0], [0, 0, 0, 1], [0, 0, 0, 1, 1], [0, 0, 0, 1, 1, 1]] :=
      (List.mem_inits pre [0, 0, 0, 1, 1, 1]).2 hp
    simp only [List.mem_cons, List.not_mem_nil, or_false] at hpre
    rcases hpre with rfl | rfl | rfl | rfl | rfl | rfl | rfl <;>
      simp [Active, run, step, St.at]
  rcases hsmall t ht with rfl | rfl <;> rcases hsmall u hu with rfl | rfl
  · rfl
  · exact absurd ⟨ht, hu⟩ h01
  · exact absurd ⟨hu, ht⟩ h01
  · rfl

/-- No failure, interleaved: both calls get values. -/
example : (run (fun _ => false) {} [0, 1, 1, 0, 1, 0]).phase 0 = .done .value ∧
    (run (fun _ => false) {} [0, 1, 1, 0, 1, 0]).phase 1 = .done .value := by decide

end Huira.SpiceThr
