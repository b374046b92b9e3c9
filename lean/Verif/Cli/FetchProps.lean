import Verif.Cli.Lemmas
/-!
# C112: fetching the Tycho-2 files

Full statement: after any sequence of `fetch-tycho2` runs, interrupted or not, a run that exits with 0 leaves every one of
the 22 files complete.  It is false in three ways (a crash, a device that fills up, and the loss of good files by a failed
`--force` run); it holds when no run was interrupted and the device had room.
-/
namespace Huira.Cli
set_option linter.unusedSimpArgs false

/-! ## Specification -/

/-- The 22 files of the catalogue. -/
def sources : List String := datFiles ++ supplFiles

/-- When libcurl reports success, what it delivered is the file on the server. -/
def Honest (served : String → List Byte) (e : Net) : Prop := ∀ f, e.netOk f = true → (e.chunks f).flatten = served f

/-- The device has room for what is sent. -/
def Roomy (e : Net) : Prop := ∀ f, (e.chunks f).flatten.length ≤ (e.device f).room

/-- Every part of the outside world works. -/
def Works (e : Net) : Prop :=
  e.globalInit = true ∧ ∀ f, e.easyInit f = true ∧ e.opens f = true ∧ e.netOk f = true

/-- Every source is absent or complete. -/
def AbsentOrComplete (served : String → List Byte) (fs : Fs) : Prop :=
  ∀ f ∈ sources, fs f = none ∨ fs f = some (served f)

def Complete (served : String → List Byte) (fs : Fs) : Prop := ∀ f ∈ sources, fs f = some (served f)

/-- The process dies somewhere during `ops`, perhaps in the middle of a write. -/
def Crash (ops : List Op) (fs fs' : Fs) : Prop :=
  (∃ pre post, ops = pre ++ post ∧ fs' = run pre fs) ∨
  (∃ pre post f a b, ops = pre ++ .append f (a ++ b) :: post ∧ fs' = run (pre ++ [.append f a]) fs)

/-! ## Lemmas -/

theorem run_local : ∀ (ops : List Op) (fs fs' : Fs) (f : String), fs f = fs' f → run ops fs f = run ops fs' f
  | [], _, _, _, h => h
  | o :: ops, fs, fs', f, h => by
    rw [run_cons, run_cons]
    refine run_local ops _ _ f ?_
    have key : ∀ g : String, o.name = g → o.apply fs f = o.apply fs' f := by
      intro g hg
      by_cases hf : f = g
      · subst hf
        cases o <;> simp only [Op.name] at hg <;> subst hg <;> simp [Op.apply, h]
      · rw [apply_other _ _ _ (by rw [hg]; exact Ne.symm hf), apply_other _ _ _ (by rw [hg]; exact Ne.symm hf), h]
    exact key _ rfl

theorem fetchLoop_append (e : Net) (force : Bool) : ∀ (a b : List String) (fs : Fs),
    fetchLoop e force (a ++ b) fs =
      ((fetchLoop e force a fs).1 ++ (fetchLoop e force b (run (fetchLoop e force a fs).1 fs)).1,
       (fetchLoop e force a fs).2 + (fetchLoop e force b (run (fetchLoop e force a fs).1 fs)).2)
  | [], b, fs => by simp [fetchLoop, run_nil]
  | f :: a, b, fs => by
    simp only [List.cons_append, fetchLoop]
    split
    · rw [fetchLoop_append e force a b fs]
    · simp only [fetchLoop_append e force a b, run_append, List.append_assoc, Prod.mk.injEq, true_and]
      omega

theorem fetchAll_eq (e : Net) (force : Bool) (fs : Fs) : fetchAll e force fs = fetchLoop e force sources fs := by
  simp only [sources, fetchLoop_append, fetchAll]

theorem sources_nodup : sources.Nodup := by decide

/-- Content of one file after the loop. -/
theorem loop_file (e : Net) (force : Bool) : ∀ (fl : List String) (fs : Fs), fl.Nodup → ∀ f ∈ fl,
    run (fetchLoop e force fl fs).1 fs f = if (fs f).isSome && !force then fs f else run (download e f).1 fs f
  | [], _, _, f, hf => by simp at hf
  | g :: fl, fs, hn, f, hf => by
    rw [List.nodup_cons] at hn
    simp only [List.mem_cons] at hf
    by_cases hfg : f = g
    · subst hfg
      have hother : ∀ fs', run (fetchLoop e force fl fs').1 fs' f = fs' f := fun fs' =>
        run_other _ _ _ (fun o ho h => hn.1 (h ▸ fetchLoop_names e force fl _ o ho))
      by_cases hs : ((fs f).isSome && !force) = true
      · simp only [fetchLoop, hs, if_true]; exact hother fs
      · simp only [fetchLoop, hs, Bool.false_eq_true, if_false, run_append]
        rw [hother]
    · have hf' : f ∈ fl := by rcases hf with h | h; exacts [absurd h hfg, h]
      have hd : run (download e g).1 fs f = fs f :=
        run_other _ _ _ (fun o ho h => hfg (by rw [← h]; exact download_names e g o ho))
      by_cases hs : ((fs g).isSome && !force) = true
      · simp only [fetchLoop, hs, if_true]; exact loop_file e force fl fs hn.2 f hf'
      · simp only [fetchLoop, hs, run_append]
        have := loop_file e force fl (run (download e g).1 fs) hn.2 f hf'
        simp only [Bool.false_eq_true, if_false, run_append]
        rw [this, hd]
        split
        · rfl
        · exact run_local _ _ _ _ hd

/-- No failure is counted exactly when every file was skipped or downloaded. -/
theorem loop_ok (e : Net) (force : Bool) : ∀ (fl : List String) (fs : Fs), fl.Nodup →
    ((fetchLoop e force fl fs).2 = 0 ↔ ∀ f ∈ fl, ((fs f).isSome && !force) = true ∨ (download e f).2 = true)
  | [], _, _ => by simp [fetchLoop]
  | g :: fl, fs, hn => by
    rw [List.nodup_cons] at hn
    simp only [fetchLoop, List.forall_mem_cons]
    by_cases hs : ((fs g).isSome && !force) = true
    · simp only [hs, if_true, true_or, true_and]
      exact loop_ok e force fl fs hn.2
    · simp only [hs, Bool.false_eq_true, if_false, false_or, Nat.add_eq_zero_iff]
      rw [loop_ok e force fl _ hn.2]
      have hd : ∀ f ∈ fl, run (download e g).1 fs f = fs f := fun f hf =>
        run_other _ _ _ (fun o ho h => hn.1 (by rw [← download_names e g o ho, h]; exact hf))
      constructor
      · rintro ⟨h1, h2⟩
        refine ⟨by by_contra hc; simp [hc] at h2, fun f hf => ?_⟩
        have := h1 f hf
        rwa [hd f hf] at this
      · rintro ⟨h1, h2⟩
        refine ⟨fun f hf => ?_, by simp [h1]⟩
        rw [hd f hf]; exact h2 f hf

theorem crash_append (a b : List Op) (fs fs' : Fs) (h : Crash (a ++ b) fs fs') :
    Crash a fs fs' ∨ Crash b (run a fs) fs' := by
  rcases h with ⟨pre, post, h, rfl⟩ | ⟨pre, post, f, x, y, h, rfl⟩
  · rcases List.append_eq_append_iff.1 h with ⟨c, rfl, rfl⟩ | ⟨c, rfl, rfl⟩
    · exact Or.inr (Or.inl ⟨c, post, rfl, run_append _ _ _⟩)
    · exact Or.inl (Or.inl ⟨pre, c, rfl, rfl⟩)
  · rcases List.append_eq_append_iff.1 h with ⟨c, rfl, rfl⟩ | ⟨c, rfl, hc⟩
    · exact Or.inr (Or.inr ⟨c, post, f, x, y, rfl, by simp [run_append]⟩)
    · cases c with
      | nil =>
        simp at hc
        exact Or.inr (Or.inr ⟨[], post, f, x, y, by simp [← hc], by simp [run_append]⟩)
      | cons o c =>
        simp only [List.cons_append, List.cons.injEq] at hc
        obtain ⟨rfl, rfl⟩ := hc
        exact Or.inl (Or.inr ⟨pre, c, f, x, y, rfl, rfl⟩)

theorem crash_other (ops : List Op) (fs fs' : Fs) (g : String) (h : Crash ops fs fs')
    (hn : ∀ o ∈ ops, o.name ≠ g) : fs' g = fs g := by
  rcases h with ⟨pre, post, rfl, rfl⟩ | ⟨pre, post, f, x, y, rfl, rfl⟩
  · exact run_other _ _ _ (fun o ho => hn o (by simp [ho]))
  · refine run_other _ _ _ (fun o ho => ?_)
    simp only [List.mem_append, List.mem_singleton] at ho
    rcases ho with ho | rfl
    · exact hn o (by simp [ho])
    · exact hn (.append f (x ++ y)) (by simp)

theorem crash_refl (ops : List Op) (fs : Fs) : Crash ops fs (run ops fs) := Or.inl ⟨ops, [], by simp, rfl⟩

/-- One file after an uninterrupted loop. -/
theorem loop_outcome (e : Net) (force : Bool) (fl : List String) (fs : Fs) (hn : fl.Nodup) (f : String) (hf : f ∈ fl)
    (hr : (e.chunks f).flatten.length ≤ (e.device f).room) :
    run (fetchLoop e force fl fs).1 fs f = fs f ∨ run (fetchLoop e force fl fs).1 fs f = none ∨
      (e.netOk f = true ∧ run (fetchLoop e force fl fs).1 fs f = some (e.chunks f).flatten) := by
  rw [loop_file e force fl fs hn f hf]
  split
  · exact Or.inl rfl
  · have := download_result e f fs
    cases hd : (download e f).2 with
    | true => exact Or.inr (Or.inr (this.1 hd hr))
    | false =>
      rcases this.2 hd with h | h
      · exact Or.inr (Or.inl h)
      · left; rw [h]; rfl

theorem crash_loop (e : Net) (force : Bool) (hr : Roomy e) : ∀ (fl : List String) (fs fs' : Fs), fl.Nodup →
    Crash (fetchLoop e force fl fs).1 fs fs' →
    ∃ g, ∀ f, f ≠ g → fs' f = fs f ∨ (f ∈ fl ∧ (fs' f = none ∨ (e.netOk f = true ∧ fs' f = some (e.chunks f).flatten)))
  | [], fs, fs', _, h => ⟨"", fun f _ => Or.inl (crash_other _ _ _ _ h (by simp [fetchLoop]))⟩
  | g :: fl, fs, fs', hn, h => by
    rw [List.nodup_cons] at hn
    simp only [fetchLoop] at h
    split at h
    · obtain ⟨x, hx⟩ := crash_loop e force hr fl fs fs' hn.2 h
      refine ⟨x, fun f hf => ?_⟩
      rcases hx f hf with h | ⟨h, h'⟩
      · exact Or.inl h
      · exact Or.inr ⟨List.mem_cons_of_mem _ h, h'⟩
    · rcases crash_append _ _ _ _ h with h | h
      · exact ⟨g, fun f hf => Or.inl (crash_other _ _ _ _ h
          (fun o ho hc => hf (by rw [← hc]; exact download_names e g o ho)))⟩
      · obtain ⟨x, hx⟩ := crash_loop e force hr fl _ fs' hn.2 h
        refine ⟨x, fun f hf => ?_⟩
        by_cases hfg : f = g
        · subst hfg
          rcases hx f hf with h | ⟨h, h'⟩
          · have hdr := download_result e f fs
            rw [h]
            cases hd : (download e f).2 with
            | true => exact Or.inr ⟨List.mem_cons_self, Or.inr (hdr.1 hd (hr f))⟩
            | false =>
              rcases hdr.2 hd with h1 | h1
              · exact Or.inr ⟨List.mem_cons_self, Or.inl h1⟩
              · left; rw [h1]; rfl
          · exact absurd h hn.1
        · have hd : run (download e g).1 fs f = fs f :=
            run_other _ _ _ (fun o ho h => hfg (by rw [← h]; exact download_names e g o ho))
          rcases hx f hf with h | ⟨h, h'⟩
          · exact Or.inl (h.trans hd)
          · exact Or.inr ⟨List.mem_cons_of_mem _ h, h'⟩

/-! ## The process command touches only its own files -/

variable {Star : Type}

theorem process_names (l : Local Star) (w : Format Star) (clean : Bool) (fs : Fs) :
    ∀ o ∈ (process l w clean fs).1, o.name = hrsc ∨ (clean = true ∧ ∃ f ∈ sources, o = .remove f) := by
  intro o ho
  unfold process at ho
  split at ho
  · simp at ho
  split at ho
  · simp at ho
  split at ho
  · simp at ho
  · rename_i ops hops
    simp only [List.mem_append] at ho
    rcases ho with ho | ho
    · left
      unfold writeCatalog at hops
      split at hops
      · simp at hops
      · simp only [Option.some.injEq] at hops
        subst hops
        simp only [List.cons_append, List.mem_cons, List.mem_append, List.not_mem_nil, or_false] at ho
        rcases ho with rfl | ho | rfl
        · rfl
        · exact pump_names _ _ _ _ _ o ho
        · rfl
    · split at ho
      · rename_i hc
        simp only [List.mem_map] at ho
        obtain ⟨f, hf, rfl⟩ := ho
        exact Or.inr ⟨hc, f, hf, rfl⟩
      · simp at ho

theorem run_remove_only : ∀ (ops : List Op) (fs : Fs) (f : String),
    (∀ o ∈ ops, o.name = f → o = .remove f) → run ops fs f = fs f ∨ run ops fs f = none
  | [], _, _, _ => Or.inl rfl
  | o :: ops, fs, f, h => by
    rw [run_cons]
    have hrec := run_remove_only ops (o.apply fs) f (fun x hx => h x (List.mem_cons_of_mem _ hx))
    by_cases hn : o.name = f
    · have ho := h o List.mem_cons_self hn
      subst ho
      right
      rcases hrec with h1 | h1
      · rw [h1]; simp [Op.apply]
      · exact h1
    · rw [apply_other fs o f hn] at hrec; exact hrec

theorem hrsc_not_source : hrsc ∉ sources := by decide

theorem process_sources (l : Local Star) (w : Format Star) (clean : Bool) (fs : Fs) (f : String) (hf : f ∈ sources) :
    run (process l w clean fs).1 fs f = fs f ∨ run (process l w clean fs).1 fs f = none := by
  refine run_remove_only _ _ _ (fun o ho hn => ?_)
  rcases process_names l w clean fs o ho with h | ⟨_, g, _, rfl⟩
  · exact absurd (by rw [← h, hn]; exact hf) hrsc_not_source
  · simp only [Op.name] at hn; rw [hn]

/-! ## C112 -/

/-- **C112 (what a successful run leaves).** On a device with room: when `fetch` (without `--process`) exits with 0,
every source that was missing, and every source at all under `--force`, is complete; the others are what they were. -/
theorem C112_success_partial (served : String → List Byte) (e : Net) (l : Local Star) (w : Format Star)
    (force clean : Bool) (fs : Fs) (hh : Honest served e) (hr : Roomy e)
    (h : (fetch e l w force false clean fs).2 = .code 0) (f : String) (hf : f ∈ sources) :
    run (fetch e l w force false clean fs).1 fs f =
      if force = true ∨ fs f = none then some (served f) else fs f := by
  unfold fetch at h ⊢
  split at h
  · simp at h
  · rename_i hg
    simp only [hg] at h ⊢
    simp only [fetchAll_eq] at h ⊢
    split at h
    · simp at h
    · rename_i h0
      simp only [h0, Bool.false_eq_true, if_false]
      have hz : (fetchLoop e force sources fs).2 = 0 := by omega
      rw [loop_ok e force sources fs sources_nodup] at hz
      rw [loop_file e force sources fs sources_nodup f hf]
      by_cases hs : ((fs f).isSome && !force) = true
      · simp only [hs, if_true]
        simp only [Bool.and_eq_true, Bool.not_eq_true'] at hs
        rw [if_neg]
        simp only [hs.2, Bool.false_eq_true, false_or]
        intro hc; rw [hc] at hs; simp at hs
      · have hd := (download_result e f fs).1 ((hz f hf).resolve_left hs) (hr f)
        rw [if_neg hs, hd.2, hh f hd.1, if_pos]
        cases force with
        | true => simp
        | false =>
          right
          simp only [Bool.not_false, Bool.and_true] at hs
          cases hfs : fs f <;> simp_all

/-- C112, corollary: `--force` exiting with 0 leaves everything complete whatever was there, for instance the remains of
a crash. -/
theorem C112_force_partial (served : String → List Byte) (e : Net) (l : Local Star) (w : Format Star)
    (clean : Bool) (fs : Fs) (hh : Honest served e) (hr : Roomy e)
    (h : (fetch e l w true false clean fs).2 = .code 0) :
    Complete served (run (fetch e l w true false clean fs).1 fs) := by
  intro f hf
  rw [C112_success_partial served e l w true clean fs hh hr h f hf]; simp

/-- C112, exit codes: when everything works the run exits with 0; when a needed file cannot be had it exits with 1. -/
theorem C112_exit (e : Net) (l : Local Star) (w : Format Star) (force clean : Bool) (fs : Fs) :
    (Works e → Roomy e → (fetch e l w force false clean fs).2 = .code 0) ∧
    ((∃ f ∈ sources, (force = true ∨ fs f = none) ∧ (e.easyInit f = false ∨ e.opens f = false ∨ e.netOk f = false)) →
      ∀ proc, (fetch e l w force proc clean fs).2 = .code 1) := by
  constructor
  · intro hw hr
    unfold fetch
    simp only [hw.1, fetchAll_eq]
    have : (fetchLoop e force sources fs).2 = 0 := by
      rw [loop_ok e force sources fs sources_nodup]
      intro f _
      right
      have hb := pump_room (e.device f) f (e.chunks f) 0 ⟨[], [], false⟩ rfl (by simpa using hr f)
      simp [download, hw.2 f, hb]
    simp [this]
  · rintro ⟨f, hf, hneed, hbad⟩ proc
    unfold fetch
    split
    · rfl
    · simp only [fetchAll_eq]
      have : (fetchLoop e force sources fs).2 ≠ 0 := by
        intro hz
        rw [loop_ok e force sources fs sources_nodup] at hz
        rcases hz f hf with h | h
        · rcases hneed with h1 | h1
          · simp [h1] at h
          · simp [h1] at h
        · rcases hbad with h1 | h1 | h1 <;> simp [download, h1] at h
          split at h
          · simp at h
          · split at h <;> simp at h
      simp [Nat.pos_of_ne_zero this]

/-- C112, repetition: once every file is there, a run without `--force` exits with 0 and does not touch the disk,
network or no network. -/
theorem C112_idempotent (e : Net) (l : Local Star) (w : Format Star) (clean : Bool) (fs : Fs)
    (hg : e.globalInit = true) (hall : ∀ f ∈ sources, (fs f).isSome) :
    fetch e l w false false clean fs = ([], .code 0) := by
  have hloop : ∀ fl : List String, (∀ f ∈ fl, (fs f).isSome) → fetchLoop e false fl fs = ([], 0) := by
    intro fl
    induction fl with
    | nil => intro _; rfl
    | cons g fl ih =>
      intro h
      simp only [fetchLoop, h g List.mem_cons_self, Bool.not_false, Bool.and_true, if_true]
      exact ih (fun f hf => h f (List.mem_cons_of_mem _ hf))
  unfold fetch
  simp [hg, fetchAll_eq, hloop sources hall]

/-- Any number of uninterrupted runs of the two commands, with any flags, each with its own outside world. -/
inductive History (served : String → List Byte) (w : Format Star) : Fs → Fs → Prop where
  | start (fs : Fs) : History served w fs fs
  | fetch {a b : Fs} (h : History served w a b) (e : Net) (l : Local Star) (force proc clean : Bool)
      (hh : Honest served e) (hr : Roomy e) : History served w a (run (fetch e l w force proc clean b).1 b)
  | process {a b : Fs} (h : History served w a b) (l : Local Star) (clean : Bool) :
      History served w a (run (process l w clean b).1 b)

theorem fetchAll_inv (served : String → List Byte) (e : Net) (force : Bool) (fs : Fs) (hh : Honest served e)
    (hr : Roomy e) (h : AbsentOrComplete served fs) : AbsentOrComplete served (run (fetchAll e force fs).1 fs) := by
  intro f hf
  rw [fetchAll_eq]
  rcases loop_outcome e force sources fs sources_nodup f hf (hr f) with h1 | h1 | ⟨h1, h2⟩
  · rw [h1]; exact h f hf
  · exact Or.inl h1
  · exact Or.inr (by rw [h2, hh f h1])

theorem process_inv (served : String → List Byte) (l : Local Star) (w : Format Star) (clean : Bool) (fs : Fs)
    (h : AbsentOrComplete served fs) : AbsentOrComplete served (run (process l w clean fs).1 fs) := by
  intro f hf
  rcases process_sources l w clean fs f hf with h1 | h1
  · rw [h1]; exact h f hf
  · exact Or.inl h1

/-- **C112 (histories).** Starting from a directory without half-written sources: after any number of uninterrupted
runs, failed ones included, every source is absent or complete, and a run (`--force` or not) that exits with 0 leaves
all 22 complete. -/
theorem C112_history_partial (served : String → List Byte) (w : Format Star) (fs0 fs : Fs)
    (h0 : AbsentOrComplete served fs0) (hist : History served w fs0 fs) :
    AbsentOrComplete served fs ∧
    ∀ (e : Net) (l : Local Star) (force clean : Bool), Honest served e → Roomy e →
      (fetch e l w force false clean fs).2 = .code 0 → Complete served (run (fetch e l w force false clean fs).1 fs) := by
  have hinv : AbsentOrComplete served fs := by
    induction hist with
    | start => exact h0
    | fetch h e l force proc clean hh hr ih =>
      have h1 := fetchAll_inv served e force _ hh hr ih
      unfold fetch
      split
      · exact ih
      · simp only
        split
        · exact h1
        · split
          · simp only [run_append]
            exact process_inv served l w clean _ h1
          · exact h1
    | process h l clean ih => exact process_inv served l w clean _ ih
  refine ⟨hinv, fun e l force clean hh hr hx f hf => ?_⟩
  rw [C112_success_partial served e l w force clean fs hh hr hx f hf]
  split
  · rfl
  · rename_i hn
    rcases hinv f hf with h | h
    · exact absurd (Or.inr h) hn
    · exact h

/-- **C112 (damage of a crash).** A crash at any point of the downloads damages at most one file: every other file is
what it was, or, if it is a source, complete or absent. -/
theorem C112_crash_confined_partial (served : String → List Byte) (e : Net) (l : Local Star) (w : Format Star)
    (force clean : Bool) (fs fs' : Fs) (hh : Honest served e) (hr : Roomy e)
    (h : Crash (fetch e l w force false clean fs).1 fs fs') :
    ∃ g, ∀ f, f ≠ g → fs' f = fs f ∨ (f ∈ sources ∧ (fs' f = none ∨ fs' f = some (served f))) := by
  have hops : (fetch e l w force false clean fs).1 = [] ∨
      (fetch e l w force false clean fs).1 = (fetchLoop e force sources fs).1 := by
    unfold fetch
    split
    · exact Or.inl rfl
    · simp only [fetchAll_eq]
      split
      · exact Or.inr rfl
      · exact Or.inr rfl
  rcases hops with h1 | h1
  · rw [h1] at h
    exact ⟨"", fun f _ => Or.inl (crash_other _ _ _ _ h (by simp))⟩
  · rw [h1] at h
    obtain ⟨g, hg⟩ := crash_loop e force hr sources fs fs' sources_nodup h
    refine ⟨g, fun f hf => ?_⟩
    rcases hg f hf with h | ⟨h, h2 | ⟨h2, h3⟩⟩
    · exact Or.inl h
    · exact Or.inr ⟨h, Or.inl h2⟩
    · exact Or.inr ⟨h, Or.inr (by rw [h3, hh f h2])⟩

/-- C112, bystanders: at any crash point of any command line, files that are neither sources nor the catalogue are
untouched. -/
theorem C112_bystanders (e : Net) (l : Local Star) (w : Format Star) (force proc clean : Bool) (fs fs' : Fs)
    (h : Crash (fetch e l w force proc clean fs).1 fs fs') (g : String) (hg : g ∉ sources) (hg' : g ≠ hrsc) :
    fs' g = fs g := by
  have hloop : ∀ o ∈ (fetchAll e force fs).1, o.name ≠ g := fun o ho hc =>
    hg (by rw [fetchAll_eq] at ho; rw [← hc]; exact fetchLoop_names _ _ _ _ o ho)
  refine crash_other _ _ _ _ h (fun o ho => ?_)
  unfold fetch at ho
  split at ho
  · simp at ho
  · simp only at ho
    split at ho
    · exact hloop o ho
    · split at ho
      · simp only [List.mem_append] at ho
        rcases ho with ho | ho
        · exact hloop o ho
        · rcases process_names l w clean _ o ho with h1 | ⟨_, f, hf, rfl⟩
          · rw [h1]; exact Ne.symm hg'
          · simp only [Op.name]; exact fun hc => hg (hc ▸ hf)
      · exact hloop o ho

/-- Full statement with crashes: if an earlier run, started in a directory without sources, was cut short anywhere, a
later run that exits with 0 leaves everything complete. -/
def C112_crash_full (served : String → List Byte) (w : Format Star) : Prop :=
  ∀ (fs fs' : Fs) (e e' : Net) (l : Local Star), (∀ f ∈ sources, fs f = none) → Honest served e → Roomy e →
    Honest served e' → Roomy e' → Crash (fetch e l w false false false fs).1 fs fs' →
    (fetch e' l w false false false fs').2 = .code 0 →
    Complete served (run (fetch e' l w false false false fs').1 fs')

/-- Full statement without crashes, on any device. -/
def C112_device_full (served : String → List Byte) (w : Format Star) : Prop :=
  ∀ (fs : Fs) (e : Net) (l : Local Star), (∀ f ∈ sources, fs f = none) → Honest served e →
    (fetch e l w false false false fs).2 = .code 0 → Complete served (run (fetch e l w false false false fs).1 fs)

/-- Full statement about refreshing: a `--force` run that reports failure keeps every complete file it could not
replace. -/
def C112_refresh_full (served : String → List Byte) (w : Format Star) : Prop :=
  ∀ (fs : Fs) (e : Net) (l : Local Star), Complete served fs → Honest served e → Roomy e →
    Complete served (run (fetch e l w true false false fs).1 fs)

/-- A world in which everything works, with the file sent in one piece that goes straight to the disk. -/
def goodNet (served : String → List Byte) : Net where
  globalInit := true
  easyInit := fun _ => true
  opens := fun _ => true
  chunks := fun f => [served f]
  netOk := fun _ => true
  device := fun f => ⟨(served f).length, fun _ => (served f).length⟩

theorem goodNet_spec (served : String → List Byte) :
    Works (goodNet served) ∧ Honest served (goodNet served) ∧ Roomy (goodNet served) :=
  ⟨⟨rfl, fun _ => ⟨rfl, rfl, rfl⟩⟩, fun f _ => by simp [goodNet], fun f => by simp [goodNet]⟩

theorem goodNet_head (served : String → List Byte) (l : Local Star) (w : Format Star) (fs : Fs)
    (h : fs "tyc2.dat.00" = none) :
    ∃ ops, (fetch (goodNet served) l w false false false fs).1 = .create "tyc2.dat.00" :: ops := by
  have hcons : ∃ rest, sources = "tyc2.dat.00" :: rest := ⟨_, rfl⟩
  obtain ⟨rest, hrest⟩ := hcons
  have hl : ∃ ops, (fetchLoop (goodNet served) false sources fs).1 = .create "tyc2.dat.00" :: ops := by
    rw [hrest]
    have hd : ∃ ops, (download (goodNet served) "tyc2.dat.00").1 = .create "tyc2.dat.00" :: ops := ⟨_, rfl⟩
    obtain ⟨ops, hops⟩ := hd
    simp only [fetchLoop, h, Option.isSome_none, Bool.false_and, Bool.false_eq_true, if_false, hops, List.cons_append]
    exact ⟨_, rfl⟩
  unfold fetch
  simp only [fetchAll_eq]
  rw [if_neg (by simp [goodNet])]
  split
  · exact hl
  · exact hl

/-- **C112 is violated by a crash**: whenever the first file is not empty, killing the program right after it was opened
leaves an empty file that the next run takes for a downloaded one. -/
theorem C112_crash_violated (served : String → List Byte) (w : Format Star) (l : Local Star)
    (hne : served "tyc2.dat.00" ≠ []) : ¬ C112_crash_full served w := by
  intro hfull
  have hg := goodNet_spec served
  obtain ⟨ops, hops⟩ := goodNet_head served l w (fun _ => none) rfl
  have hx := (C112_exit (goodNet served) l w false false ((Op.create "tyc2.dat.00").apply (fun _ => none))).1 hg.1 hg.2.2
  have hc := hfull (fun _ => none) ((Op.create "tyc2.dat.00").apply (fun _ => none)) (goodNet served) (goodNet served) l
    (fun _ _ => rfl) hg.2.1 hg.2.2 hg.2.1 hg.2.2
    (Or.inl ⟨[.create "tyc2.dat.00"], ops, by rw [hops]; rfl, rfl⟩) hx
  have h1 := hc "tyc2.dat.00" (by decide)
  rw [C112_success_partial served _ l w false false _ hg.2.1 hg.2.2 hx "tyc2.dat.00" (by decide)] at h1
  simp [Op.apply] at h1
  exact hne h1

/-- A world in which the stream keeps the last piece of the first file back until it is closed, and the device is full
by then. -/
def fullDiskNet (served : String → List Byte) (a b : List Byte) : Net where
  globalInit := true
  easyInit := fun _ => true
  opens := fun _ => true
  chunks := fun f => if f = "tyc2.dat.00" then [a, b] else [served f]
  netOk := fun _ => true
  device := fun f => if f = "tyc2.dat.00" then ⟨a.length, fun k => if k = 0 then a.length else 0⟩
    else ⟨(served f).length, fun _ => (served f).length⟩

/-- **C112 is violated by a full device**: the result of `close` is not looked at, so when the last held piece `b` of a
file does not fit, the run exits with 0 and the file is cut to `a`. -/
theorem C112_device_violated (served : String → List Byte) (w : Format Star) (l : Local Star) (a b : List Byte)
    (hs : served "tyc2.dat.00" = a ++ b) (hb : b ≠ []) : ¬ C112_device_full served w := by
  intro hfull
  have hd : download (fullDiskNet served a b) "tyc2.dat.00" =
      ([.create "tyc2.dat.00", .append "tyc2.dat.00" a, .append "tyc2.dat.00" [], .append "tyc2.dat.00" []], true) := by
    simp [download, fullDiskNet, pump, Out.write, closeOp, Out.close]
  have hok : ∀ f, (download (fullDiskNet served a b) f).2 = true := by
    intro f
    by_cases hf : f = "tyc2.dat.00"
    · rw [hf, hd]
    · have hr : ((fullDiskNet served a b).chunks f).flatten.length ≤ ((fullDiskNet served a b).device f).room := by
        simp [fullDiskNet, hf]
      have hpb := pump_room ((fullDiskNet served a b).device f) f ((fullDiskNet served a b).chunks f) 0
        ⟨[], [], false⟩ rfl (by simpa using hr)
      simp only [download]
      simp only [hpb]
      simp [fullDiskNet]
  have hz : (fetchLoop (fullDiskNet served a b) false sources (fun _ => none)).2 = 0 := by
    rw [loop_ok _ _ _ _ sources_nodup]
    exact fun f _ => Or.inr (hok f)
  have hf : fetch (fullDiskNet served a b) l w false false false (fun _ => none) =
      ((fetchLoop (fullDiskNet served a b) false sources (fun _ => none)).1, .code 0) := by
    unfold fetch
    simp only [fetchAll_eq, hz]
    simp [fullDiskNet]
  have h1 := hfull (fun _ => none) (fullDiskNet served a b) l (fun _ _ => rfl)
    (fun f _ => by
      by_cases h : f = "tyc2.dat.00"
      · simp [fullDiskNet, h, hs]
      · simp [fullDiskNet, h]) (by rw [hf]) "tyc2.dat.00" (by decide)
  rw [hf] at h1
  simp only at h1
  rw [loop_file _ _ _ _ sources_nodup _ (by decide), hd] at h1
  simp [run, Op.apply, hs] at h1
  exact hb h1

/-- **C112 is violated by a failed refresh**: the old file is emptied before the transfer and deleted after it failed. -/
theorem C112_refresh_violated (served : String → List Byte) (w : Format Star) (l : Local Star) :
    ¬ C112_refresh_full served w := by
  intro hfull
  let e : Net := { goodNet served with netOk := fun _ => false, chunks := fun _ => [] }
  have hr : Roomy e := fun f => by simp [e]
  have h1 := hfull (fun f => some (served f)) e l (fun _ _ => rfl) (fun f h => by simp [e] at h) hr
    "tyc2.dat.00" (by decide)
  have hd : download e "tyc2.dat.00" =
      ([.create "tyc2.dat.00", .append "tyc2.dat.00" [], .remove "tyc2.dat.00"], false) := by
    simp [download, e, goodNet, pump, Out.close, closeOp]
  have hf : (fetch e l w true false false (fun f => some (served f))).1 =
      (fetchLoop e true sources (fun f => some (served f))).1 := by
    unfold fetch
    simp only [fetchAll_eq]
    rw [if_neg (by simp [e, goodNet])]
    split <;> rfl
  rw [hf, loop_file _ _ _ _ sources_nodup _ (by decide), hd] at h1
  simp [run, Op.apply] at h1

/-- Non-vacuity: a world that works, files of two bytes, an empty directory: the run exits with 0 and all is there. -/
example (l : Local Star) (w : Format Star) :
    Complete (fun _ => [1, 2]) (run (fetch (goodNet fun _ => [1, 2]) l w false false false (fun _ => none)).1
      (fun _ => none)) := by
  have hg := goodNet_spec (fun _ => [(1 : Byte), 2])
  exact (C112_history_partial _ w (fun _ => none) _ (fun _ _ => Or.inl rfl) (.start _)).2 _ l false false hg.2.1 hg.2.2
    ((C112_exit _ l w false false _).1 hg.1 hg.2.2)

example (w : Format Star) (l : Local Star) : ¬ C112_crash_full (fun _ => [1, 2]) w :=
  C112_crash_violated _ w l (by decide)

example (w : Format Star) (l : Local Star) : ¬ C112_device_full (fun _ => [1, 2]) w :=
  C112_device_violated _ w l [1] [2] rfl (by decide)

end Huira.Cli
