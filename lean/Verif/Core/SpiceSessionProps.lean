import Verif.Core.SpiceSession
/-!
# C123: SPICE errors and kernels
-/
namespace Huira.SpiceSess

set_option linter.unusedSimpArgs false

variable (w : World)

/-! ## Lemmas -/

theorem load1_frame (s : St) (p : Path) (ha : s.abortAction = false) :
    (s.load1 w p).abortAction = false ∧ (s.load1 w p).aborted = s.aborted ∧ (s.load1 w p).cwd = s.cwd ∧
    (s.load1 w p).inited = s.inited ∧ (s.load1 w p).lskLoaded = s.lskLoaded := by
  unfold St.load1
  split <;> simp [St.signal, ha]

theorem load1_ok (s : St) (p : Path) (hr : Readable w p) :
    (s.load1 w p).failed = s.failed ∧ (s.load1 w p).loaded = p :: s.loaded ∧
    (s.load1 w p).lsk = inForce w s.lsk [p] := by
  unfold St.load1
  rcases hr with ⟨id, h⟩ | h <;> simp [h, inForce]

theorem load1_bad (s : St) (p : Path) (ha : s.abortAction = false) (hr : ¬ Readable w p) :
    (s.load1 w p).failed = true ∧ (s.load1 w p).loaded = s.loaded ∧ (s.load1 w p).lsk = s.lsk := by
  unfold St.load1
  split
  · exact absurd (Or.inl ⟨_, by assumption⟩) hr
  · exact absurd (Or.inr (by assumption)) hr
  · simp [St.signal, ha]

theorem loadAll_frame (s : St) (es : List Path) (ha : s.abortAction = false) :
    (s.loadAll w es).abortAction = false ∧ (s.loadAll w es).aborted = s.aborted ∧ (s.loadAll w es).cwd = s.cwd ∧
    (s.loadAll w es).inited = s.inited ∧ (s.loadAll w es).lskLoaded = s.lskLoaded := by
  induction es generalizing s with
  | nil => exact ⟨ha, rfl, rfl, rfl, rfl⟩
  | cons e es ih =>
    obtain ⟨h1, h2, h3, h4, h5⟩ := load1_frame w s (resolve s.cwd e) ha
    unfold St.loadAll
    split_ifs
    · exact ⟨h1, h2, h3, h4, h5⟩
    · obtain ⟨k1, k2, k3, k4, k5⟩ := ih _ h1
      exact ⟨k1, k2.trans h2, k3.trans h3, k4.trans h4, k5.trans h5⟩

theorem loadAll_ok (s : St) (es : List Path) (ha : s.abortAction = false) (hf : s.failed = false)
    (hab : s.aborted = false) (hr : ∀ e ∈ es, Readable w (resolve s.cwd e)) :
    (s.loadAll w es).failed = false ∧ (s.loadAll w es).loaded = (es.map (resolve s.cwd)).reverse ++ s.loaded ∧
    (s.loadAll w es).lsk = inForce w s.lsk (es.map (resolve s.cwd)) := by
  induction es generalizing s with
  | nil => exact ⟨hf, rfl, rfl⟩
  | cons e es ih =>
    obtain ⟨h1, h2, h3, h4, h5⟩ := load1_frame w s (resolve s.cwd e) ha
    have hre := hr e List.mem_cons_self
    obtain ⟨k1, k2, k3⟩ := load1_ok w s (resolve s.cwd e) hre
    unfold St.loadAll
    rw [if_neg (by rw [k1, h2, hf, hab]; simp)]
    obtain ⟨i1, i2, i3⟩ := ih _ h1 (k1.trans hf) (h2.trans hab)
      (fun e' he' => by rw [h3]; exact hr e' (List.mem_cons_of_mem _ he'))
    refine ⟨i1, ?_, ?_⟩
    · rw [i2, h3, k2]; simp
    · rw [i3, h3, k3]
      rcases hre with ⟨id, h⟩ | h <;> simp [inForce, h]

theorem loadAll_bad (s : St) (es : List Path) (ha : s.abortAction = false) (hf : s.failed = false)
    (hab : s.aborted = false) (hr : ¬ ∀ e ∈ es, Readable w (resolve s.cwd e)) : (s.loadAll w es).failed = true := by
  induction es generalizing s with
  | nil => exact absurd (fun e he => absurd he (by simp)) hr
  | cons e es ih =>
    obtain ⟨h1, h2, h3, h4, h5⟩ := load1_frame w s (resolve s.cwd e) ha
    unfold St.loadAll
    by_cases hre : Readable w (resolve s.cwd e)
    · obtain ⟨k1, k2, k3⟩ := load1_ok w s (resolve s.cwd e) hre
      rw [if_neg (by rw [k1, h2, hf, hab]; simp)]
      refine ih _ h1 (k1.trans hf) (h2.trans hab) ?_
      intro hall
      apply hr
      intro e' he'
      rcases List.mem_cons.1 he' with rfl | he'
      · exact hre
      · rw [← h3]; exact hall e' he'
    · obtain ⟨k1, k2, k3⟩ := load1_bad w s (resolve s.cwd e) ha hre
      rw [if_pos (Or.inl k1)]
      exact k1

theorem furnshC_frame (s : St) (p : Path) (ha : s.abortAction = false) :
    (s.furnshC w p).abortAction = false ∧ (s.furnshC w p).aborted = s.aborted ∧ (s.furnshC w p).cwd = s.cwd ∧
    (s.furnshC w p).inited = s.inited ∧ (s.furnshC w p).lskLoaded = s.lskLoaded := by
  unfold St.furnshC
  split_ifs
  · exact ⟨ha, rfl, rfl, rfl, rfl⟩
  · split
    · exact loadAll_frame w s _ ha
    · exact load1_frame w s p ha

theorem brought_single {p : Path} (base : Path) (h : ∀ es, w.file p ≠ .listing es) : brought w base p = [p] := by
  unfold brought
  split
  · exact absurd (by assumption) (h _)
  · rfl

theorem furnshC_ok (s : St) (p : Path) (ha : s.abortAction = false) (hf : s.failed = false) (hab : s.aborted = false)
    (hr : ∀ q ∈ brought w s.cwd p, Readable w q) :
    (s.furnshC w p).failed = false ∧ (s.furnshC w p).loaded = (brought w s.cwd p).reverse ++ s.loaded ∧
    (s.furnshC w p).lsk = inForce w s.lsk (brought w s.cwd p) := by
  unfold St.furnshC
  rw [if_neg (by rw [hf]; decide)]
  split
  · rename_i es he
    have hb : brought w s.cwd p = es.map (resolve s.cwd) := by simp [brought, he]
    rw [hb] at hr ⊢
    exact loadAll_ok w s es ha hf hab (fun e he' => hr _ (List.mem_map_of_mem he'))
  · rename_i hne
    have hb := brought_single w s.cwd hne
    rw [hb] at hr ⊢
    obtain ⟨k1, k2, k3⟩ := load1_ok w s p (hr p (List.mem_singleton.2 rfl))
    exact ⟨k1.trans hf, k2, k3⟩

theorem furnshC_bad (s : St) (p : Path) (ha : s.abortAction = false) (hf : s.failed = false) (hab : s.aborted = false)
    (hr : ¬ ∀ q ∈ brought w s.cwd p, Readable w q) : (s.furnshC w p).failed = true := by
  unfold St.furnshC
  rw [if_neg (by rw [hf]; decide)]
  split
  · rename_i es he
    have hb : brought w s.cwd p = es.map (resolve s.cwd) := by simp [brought, he]
    rw [hb] at hr
    refine loadAll_bad w s es ha hf hab (fun hall => hr ?_)
    intro q hq
    obtain ⟨e, he', rfl⟩ := List.mem_map.1 hq
    exact hall e he'
  · rename_i hne
    have hb := brought_single w s.cwd hne
    rw [hb] at hr
    exact (load1_bad w s p ha (fun h => hr (fun q hq => by rw [List.mem_singleton.1 hq]; exact h))).1

/-- What holds between calls. -/
structure Inv (s : St) (home : Path) : Prop where
  clean : s.failed = false
  alive : s.aborted = false
  action : s.inited ≠ [] → s.abortAction = false
  home : s.cwd = home

/-- The state in which `call_spice` runs the routine. -/
def ready (inst : ℕ) (s : St) : St := if inst ∈ s.inited then s else { s with abortAction := false, inited := inst :: s.inited }

theorem ready_spec {s : St} {home : Path} (hi : Inv s home) (inst : ℕ) :
    (ready inst s).abortAction = false ∧ (ready inst s).failed = false ∧ (ready inst s).aborted = false ∧
    (ready inst s).cwd = home ∧ (ready inst s).lsk = s.lsk ∧ (ready inst s).loaded = s.loaded ∧
    (ready inst s).lskLoaded = s.lskLoaded ∧ (ready inst s).inited ≠ [] := by
  unfold ready
  split_ifs with h
  · have hne : s.inited ≠ [] := fun e => by rw [e] at h; simp at h
    exact ⟨hi.action hne, hi.clean, hi.alive, hi.home, rfl, rfl, rfl, hne⟩
  · exact ⟨rfl, hi.clean, hi.alive, hi.home, rfl, rfl, rfl, by simp⟩

theorem callSpice_eq {s : St} {home : Path} (hi : Inv s home) (inst : ℕ) (f : St → St) :
    callSpice inst f s = if (f (ready inst s)).failed then ({ f (ready inst s) with failed := false }, .throws)
      else (f (ready inst s), .value) := by
  have hr := (ready_spec hi inst).2.1
  show (let s0 := ready inst s
    let s1 : St := if s0.failed then { s0 with failed := false } else s0
    let s2 := f s1
    if s2.failed then (({ s2 with failed := false } : St), Out.throws) else (s2, Out.value)) = _
  have h1 : (if (ready inst s).failed then { ready inst s with failed := false } else ready inst s) = ready inst s :=
    if_neg (by rw [hr]; decide)
  simp only [h1]

theorem callSpice_inv {s : St} {home : Path} (hi : Inv s home) (inst : ℕ) (f : St → St)
    (hf : ∀ s : St, s.abortAction = false → (f s).abortAction = false ∧ (f s).aborted = s.aborted ∧ (f s).cwd = s.cwd) :
    Inv (callSpice inst f s).1 home := by
  obtain ⟨h1, _, h3, h4, _⟩ := ready_spec hi inst
  obtain ⟨k1, k2, k3⟩ := hf _ h1
  rw [callSpice_eq hi]
  split_ifs with h
  · exact ⟨rfl, k2.trans h3, fun _ => k1, k3.trans h4⟩
  · exact ⟨by simpa using h, k2.trans h3, fun _ => k1, k3.trans h4⟩

theorem timeC_frame (s : St) (ok : Bool) (ha : s.abortAction = false) :
    (s.timeC ok).abortAction = false ∧ (s.timeC ok).aborted = s.aborted ∧ (s.timeC ok).cwd = s.cwd ∧
    (s.timeC ok).inited = s.inited ∧ (s.timeC ok).lsk = s.lsk ∧ (s.timeC ok).loaded = s.loaded ∧
    (s.timeC ok).lskLoaded = s.lskLoaded := by
  unfold St.timeC
  split_ifs <;> simp [St.signal, ha]

theorem stateC_frame (s : St) (ok : Bool) (ha : s.abortAction = false) :
    (s.stateC ok).abortAction = false ∧ (s.stateC ok).aborted = s.aborted ∧ (s.stateC ok).cwd = s.cwd ∧
    (s.stateC ok).lsk = s.lsk ∧ (s.stateC ok).loaded = s.loaded ∧ (s.stateC ok).lskLoaded = s.lskLoaded := by
  unfold St.stateC
  split_ifs <;> simp [St.signal, ha]

/-- What `ensure_lsk_loaded` does: nothing when it was done before, or when a leap-second kernel is in force already;
otherwise it loads the default one. -/
theorem ensure_cases {s : St} {home : Path} (hi : Inv s home) :
    Inv (ensureLsk w s).1 home ∧
    ((s.lskLoaded = true ∨ s.lsk ≠ none) → (ensureLsk w s).2 = .value ∧ (ensureLsk w s).1.lsk = s.lsk ∧
      (ensureLsk w s).1.loaded = s.loaded) ∧
    ((s.lskLoaded = false ∧ s.lsk = none) → (∀ d, w.file w.defaultLsk = .lsk d → (ensureLsk w s).2 = .value ∧
        (ensureLsk w s).1.lsk = some d ∧ (ensureLsk w s).1.loaded = w.defaultLsk :: s.loaded) ∧
      (w.file w.defaultLsk = .bad → (ensureLsk w s).2 = .throws ∧ (ensureLsk w s).1.lsk = none ∧
        (ensureLsk w s).1.lskLoaded = false ∧ (ensureLsk w s).1.loaded = s.loaded)) := by
  obtain ⟨hc, ha, hact, hh⟩ := hi
  unfold ensureLsk
  by_cases hl : s.lskLoaded = true
  · rw [if_pos hl]
    refine ⟨⟨hc, ha, hact, hh⟩, fun _ => ⟨rfl, rfl, rfl⟩, fun h => ?_⟩
    rw [hl] at h; exact absurd h.1 (by decide)
  · rw [if_neg hl]
    by_cases hk : s.lsk.isSome
    · have ht : St.timeC { s with abortAction := false } true = { s with abortAction := false } := by
        unfold St.timeC
        simp [hc, hk]
      have hc' : ¬ s.failed = true := by rw [hc]; decide
      simp only [ht, if_neg hc']
      refine ⟨⟨hc, ha, hact, hh⟩, fun _ => by simp, fun h => ?_⟩
      rw [h.2] at hk; exact absurd hk (by decide)
    · have hn : s.lsk = none := by simpa using hk
      have ht : St.timeC { s with abortAction := false } true = { s with abortAction := false, failed := true } := by
        unfold St.timeC St.signal
        simp [hc, hn]
      simp only [ht, if_true]
      set s0 : St := { { s with abortAction := false, failed := true } with failed := false } with hs0
      obtain ⟨f1, f2, f3, f4, f5⟩ := furnshC_frame w s0 w.defaultLsk rfl
      refine ⟨?_, fun h => ?_, fun _ => ⟨fun d hd => ?_, fun hb => ?_⟩⟩
      · split_ifs with hfail
        · exact ⟨rfl, f2.trans ha, fun h => hact (by rw [f4] at h; exact h), f3.trans hh⟩
        · exact ⟨by simpa using hfail, f2.trans ha, fun h => hact (by rw [f4] at h; exact h), f3.trans hh⟩
      · rcases h with h | h
        · exact absurd h hl
        · exact absurd hn h
      · have hb : brought w s0.cwd w.defaultLsk = [w.defaultLsk] := brought_single w _ (by rw [hd]; simp)
        obtain ⟨k1, k2, k3⟩ := furnshC_ok w s0 w.defaultLsk rfl rfl ha
          (by rw [hb]; intro q hq; rw [List.mem_singleton.1 hq]; exact Or.inl ⟨d, hd⟩)
        rw [hb] at k2 k3
        simp only [k1, Bool.false_eq_true, if_false]
        refine ⟨trivial, ?_, ?_⟩
        · rw [k3]; simp [inForce, hd]
        · rw [k2]; simp [hs0]
      · have hnr : ¬ Readable w w.defaultLsk := by
          rintro (⟨d, hd⟩ | hd) <;> rw [hb] at hd <;> cases hd
        have hx : s0.furnshC w w.defaultLsk = s0.load1 w w.defaultLsk := by
          unfold St.furnshC
          simp [hs0, hb]
        obtain ⟨k1, k2, k3⟩ := load1_bad w s0 w.defaultLsk rfl hnr
        rw [hx] at f5 ⊢
        simp only [k1, if_true]
        refine ⟨trivial, ?_, ?_, ?_⟩
        · rw [k3]; exact hn
        · rw [f5]; simpa [hs0] using hl
        · rw [k2]

theorem Inv.step {s : St} {home : Path} (hi : Inv s home) (op : Op) : Inv (step w s op).1 home := by
  have hload : ∀ (inst : ℕ) (g : Path → Path) (s : St) (home : Path), Inv s home →
      Inv (callSpice inst (fun s => s.furnshC w (g s.cwd)) s).1 home := by
    intro inst g s home hi
    refine callSpice_inv hi inst _ (fun s ha => ?_)
    obtain ⟨f1, f2, f3, _, _⟩ := furnshC_frame w s (g s.cwd) ha
    exact ⟨f1, f2, f3⟩
  cases op with
  | furnsh p => exact hload 0 (fun c => resolve c p) s home hi
  | furnshRel dir name =>
    simp only [SpiceSess.step]
    split_ifs with h1 h2
    · exact hload 0 (fun c => c ++ [name]) s home hi
    · have hi' : Inv { s with cwd := resolve s.cwd dir } (resolve s.cwd dir) := ⟨hi.clean, hi.alive, hi.action, rfl⟩
      have := hload 1 (fun c => c ++ [name]) _ _ hi'
      exact ⟨this.clean, this.alive, this.action, hi.home⟩
    · exact hi
  | time inst ok =>
    have he := (ensure_cases w hi).1
    simp only [SpiceSess.step]
    rcases hh : ensureLsk w s with ⟨s', o⟩
    rw [hh] at he
    cases o with
    | throws => exact he
    | value =>
      refine callSpice_inv he inst _ (fun s ha => ?_)
      obtain ⟨f1, f2, f3, _⟩ := timeC_frame s ok ha
      exact ⟨f1, f2, f3⟩
  | state inst ok =>
    refine callSpice_inv hi inst _ (fun s ha => ?_)
    obtain ⟨f1, f2, f3, _⟩ := stateC_frame s ok ha
    exact ⟨f1, f2, f3⟩

theorem Inv.run {s : St} {home : Path} (hi : Inv s home) (ops : List Op) : Inv (SpiceSess.run w s ops) home := by
  induction ops generalizing s with
  | nil => exact hi
  | cons op ops ih => exact ih (hi.step w op)

theorem Inv.start (home : Path) : Inv { cwd := home } home := ⟨rfl, rfl, fun h => absurd rfl h, rfl⟩

/-! ## Theorems -/

/-- C123: whatever is called in whatever order, with whatever files, an error of SPICE never ends the process, no error
status is left behind, and the current directory is the one the program started in. -/
theorem C123_contained (home : Path) (ops : List Op) :
    (run w { cwd := home } ops).aborted = false ∧ (run w { cwd := home } ops).failed = false ∧
    (run w { cwd := home } ops).cwd = home :=
  have h := (Inv.start home).run w ops
  ⟨h.alive, h.clean, h.home⟩

/-- C123: after any calls, failed ones included, loading a kernel or a list of kernels succeeds exactly when every kernel
is readable, and then brings in exactly these kernels, in order, on top of what was loaded. -/
theorem C123_furnsh (home : Path) (ops : List Op) (p : Path) :
    let s := run w { cwd := home } ops
    ((step w s (.furnsh p)).2 = .value ↔ ∀ q ∈ brought w home (resolve home p), Readable w q) ∧
    ((step w s (.furnsh p)).2 = .value → (step w s (.furnsh p)).1.loaded = (brought w home (resolve home p)).reverse ++ s.loaded ∧
      (step w s (.furnsh p)).1.lsk = inForce w s.lsk (brought w home (resolve home p))) := by
  intro s
  have hi : Inv s home := (Inv.start home).run w ops
  obtain ⟨r1, r2, r3, r4, r5, r6, r7, _⟩ := ready_spec hi 0
  simp only [step]
  rw [callSpice_eq hi, r4]
  by_cases hr : ∀ q ∈ brought w home (resolve home p), Readable w q
  · obtain ⟨k1, k2, k3⟩ := furnshC_ok w (ready 0 s) (resolve home p) r1 r2 r3 (by rw [r4]; exact hr)
    rw [r4] at k2 k3
    rw [k1]
    simp only [Bool.false_eq_true, if_false]
    exact ⟨⟨fun _ => hr, fun _ => trivial⟩, fun _ => ⟨by rw [k2, r6], by rw [k3, r5]⟩⟩
  · have k1 := furnshC_bad w (ready 0 s) (resolve home p) r1 r2 r3 (by rw [r4]; exact hr)
    rw [k1]
    simp only [if_true]
    exact ⟨⟨fun h => (by cases h), fun h => absurd h hr⟩, fun h => by cases h⟩

/-- C123: `furnsh_relative_to_file` loads the kernels a list names relative to the directory of the list, from wherever the
program runs, and fails when that directory is missing or a kernel cannot be read. -/
theorem C123_relative (home : Path) (ops : List Op) (dir : Path) (name : String) (hd : dir ≠ []) :
    let s := run w { cwd := home } ops
    let base := resolve home dir
    ((step w s (.furnshRel dir name)).2 = .value ↔
      w.dir base = true ∧ ∀ q ∈ brought w base (base ++ [name]), Readable w q) ∧
    ((step w s (.furnshRel dir name)).2 = .value →
      (step w s (.furnshRel dir name)).1.loaded = (brought w base (base ++ [name])).reverse ++ s.loaded ∧
      (step w s (.furnshRel dir name)).1.lsk = inForce w s.lsk (brought w base (base ++ [name]))) := by
  intro s base
  have hi : Inv s home := (Inv.start home).run w ops
  have hb : resolve s.cwd dir = base := by rw [hi.home]
  simp only [step, if_neg hd, hb]
  by_cases hdir : w.dir base = true
  · rw [if_pos hdir]
    have hi' : Inv { s with cwd := base } base := ⟨hi.clean, hi.alive, hi.action, rfl⟩
    obtain ⟨r1, r2, r3, r4, r5, r6, r7, _⟩ := ready_spec hi' 1
    rw [callSpice_eq hi', r4]
    by_cases hr : ∀ q ∈ brought w base (base ++ [name]), Readable w q
    · obtain ⟨k1, k2, k3⟩ := furnshC_ok w (ready 1 { s with cwd := base }) (base ++ [name]) r1 r2 r3 (by rw [r4]; exact hr)
      rw [r4] at k2 k3
      rw [k1]
      simp only [Bool.false_eq_true, if_false]
      exact ⟨⟨fun _ => ⟨hdir, hr⟩, fun _ => trivial⟩, fun _ => ⟨by rw [k2, r6], by rw [k3, r5]⟩⟩
    · have k1 := furnshC_bad w (ready 1 { s with cwd := base }) (base ++ [name]) r1 r2 r3 (by rw [r4]; exact hr)
      rw [k1]
      simp only [if_true]
      exact ⟨⟨fun h => (by cases h), fun h => absurd h.2 hr⟩, fun h => by cases h⟩
  · rw [if_neg hdir]
    exact ⟨⟨fun h => (by cases h), fun h => absurd h.1 hdir⟩, fun h => by cases h⟩

/-- Calls that do not load kernels. -/
def Op.Asks : Op → Prop
  | .time .. => True
  | .state .. => True
  | _ => False

theorem step_asks {s : St} {home : Path} (hi : Inv s home) (op : Op) (ho : op.Asks) (id : ℕ) (hl : s.lsk = some id) :
    (step w s op).1.lsk = some id := by
  cases op with
  | furnsh p => exact ho.elim
  | furnshRel d n => exact ho.elim
  | time inst ok =>
    obtain ⟨he, hv, _⟩ := ensure_cases w hi
    obtain ⟨h1, h2, _⟩ := hv (Or.inr (by rw [hl]; simp))
    simp only [step]
    rcases hh : ensureLsk w s with ⟨s', o⟩
    rw [hh] at he h1 h2
    simp only at h1 h2
    subst h1
    simp only
    obtain ⟨r1, r2, r3, r4, r5, _⟩ := ready_spec he inst
    obtain ⟨_, _, _, _, t5, _⟩ := timeC_frame (ready inst s') ok r1
    rw [callSpice_eq he]
    split_ifs <;> simp only [t5, r5, h2, hl]
  | state inst ok =>
    obtain ⟨r1, r2, r3, r4, r5, _⟩ := ready_spec hi inst
    obtain ⟨_, _, _, t5, _⟩ := stateC_frame (ready inst s) ok r1
    simp only [step]
    rw [callSpice_eq hi]
    split_ifs <;> simp only [t5, r5, hl]

theorem run_append (s : St) (a b : List Op) : run w s (a ++ b) = run w (run w s a) b := by
  induction a generalizing s with
  | nil => rfl
  | cons x a ih => exact ih _

/-- C123: the program's own leap-second kernel always wins: whatever happened before (the default one may have been loaded)
and however many times are converted afterwards, the kernel the program loaded last is in force. -/
theorem C123_own_leap_seconds (home : Path) (before after : List Op) (p : Path) (id : ℕ)
    (hp : w.file (resolve home p) = .lsk id) (ha : ∀ op ∈ after, op.Asks) :
    (run w { cwd := home } (before ++ .furnsh p :: after)).lsk = some id := by
  rw [run_append]
  show (run w (step w (run w { cwd := home } before) (.furnsh p)).1 after).lsk = some id
  have hi : Inv (run w { cwd := home } before) home := (Inv.start home).run w before
  have hb : brought w home (resolve home p) = [resolve home p] := brought_single w _ (by rw [hp]; simp)
  obtain ⟨h1, h2⟩ := C123_furnsh w home before p
  rw [hb] at h1 h2
  have hv := h1.2 (fun q hq => by rw [List.mem_singleton.1 hq]; exact Or.inl ⟨id, hp⟩)
  have hl : (step w (run w { cwd := home } before) (.furnsh p)).1.lsk = some id := by
    rw [(h2 hv).2]; simp [inForce, hp]
  have key : ∀ (after : List Op) (s : St), Inv s home → s.lsk = some id → (∀ op ∈ after, op.Asks) →
      (run w s after).lsk = some id := by
    intro after
    induction after with
    | nil => intro s _ h _; exact h
    | cons op ops ih =>
      intro s hi h ha
      exact ih _ (hi.step w op) (step_asks w hi op (ha op List.mem_cons_self) id h)
        (fun o ho => ha o (List.mem_cons_of_mem _ ho))
  exact key after _ (hi.step w _) hl ha

/-- C123: a conversion of times with acceptable arguments works in every program that has not loaded a leap-second kernel
itself, with the default kernel; without the default kernel it throws, and works as soon as the program loads one. -/
theorem C123_default (home : Path) (ops : List Op) (inst : ℕ) (ok : Bool)
    (hd : (∃ d, w.file w.defaultLsk = .lsk d) ∨ w.file w.defaultLsk = .bad) :
    let s := run w { cwd := home } ops
    ((step w s (.time inst ok)).2 = .value ↔ ok = true ∧ (s.lsk ≠ none ∨ w.file w.defaultLsk ≠ .bad)) ∧
    (∀ d, w.file w.defaultLsk = .lsk d → s.lsk = none → (step w s (.time inst ok)).1.lsk = some d) := by
  intro s
  have hi : Inv s home := (Inv.start home).run w ops
  -- a leap-second kernel has been in force ever since `lskLoaded` was set
  have hkey : ∀ (ops : List Op) (s : St), Inv s home → (s.lskLoaded = true → s.lsk ≠ none) →
      ((run w s ops).lskLoaded = true → (run w s ops).lsk ≠ none) := by
    have hforce : ∀ (ps : List Path) (acc : Option ℕ), acc ≠ none → inForce w acc ps ≠ none := by
      intro ps
      induction ps with
      | nil => intro acc h; exact h
      | cons p ps ih =>
        intro acc h
        unfold inForce
        split
        · exact ih _ (by simp)
        · exact ih _ h
    have hload1 : ∀ (s : St) (p : Path), s.abortAction = false → (s.lsk ≠ none → (s.load1 w p).lsk ≠ none) := by
      intro s p ha h
      unfold St.load1
      split
      · simp
      · exact h
      · simpa [St.signal, ha] using h
    have hloadAll : ∀ (es : List Path) (s : St), s.abortAction = false → (s.lsk ≠ none → (s.loadAll w es).lsk ≠ none) := by
      intro es
      induction es with
      | nil => intro s _ h; exact h
      | cons e es ih =>
        intro s ha h
        unfold St.loadAll
        split_ifs
        · exact hload1 s _ ha h
        · exact ih _ (load1_frame w s _ ha).1 (hload1 s _ ha h)
    have hfurn : ∀ (s : St) (p : Path), s.abortAction = false → (s.lsk ≠ none → (s.furnshC w p).lsk ≠ none) := by
      intro s p ha h
      unfold St.furnshC
      split_ifs
      · exact h
      · split
        · exact hloadAll _ s ha h
        · exact hload1 s p ha h
    have hcall : ∀ (s : St) (h0 : Path) (inst : ℕ) (g : Path → Path), Inv s h0 → (s.lskLoaded = true → s.lsk ≠ none) →
        ((callSpice inst (fun s => s.furnshC w (g s.cwd)) s).1.lskLoaded = true →
          (callSpice inst (fun s => s.furnshC w (g s.cwd)) s).1.lsk ≠ none) := by
      intro s h0 inst g hi h
      obtain ⟨r1, r2, r3, r4, r5, r6, r7, _⟩ := ready_spec hi inst
      rw [callSpice_eq hi]
      have f5 := (furnshC_frame w (ready inst s) (g (ready inst s).cwd) r1).2.2.2.2
      split_ifs
      all_goals
        intro hl
        simp only [f5, r7] at hl
        exact hfurn _ _ r1 (by rw [r5]; exact h hl)
    intro ops
    induction ops with
    | nil => intro s _ h; exact h
    | cons op ops ih =>
      intro s hi h
      refine ih _ (hi.step w op) ?_
      cases op with
      | furnsh p => exact hcall s home 0 (fun c => resolve c p) hi h
      | furnshRel dir name =>
        simp only [step]
        split_ifs with e1 e2
        · exact hcall s home 0 (fun c => c ++ [name]) hi h
        · exact hcall { s with cwd := resolve s.cwd dir } _ 1 (fun c => c ++ [name]) ⟨hi.clean, hi.alive, hi.action, rfl⟩ h
        · exact h
      | time inst ok =>
        obtain ⟨he, hv, hn⟩ := ensure_cases w hi
        have hafter : (ensureLsk w s).1.lskLoaded = true → (ensureLsk w s).1.lsk ≠ none := by
          by_cases hc : s.lskLoaded = true ∨ s.lsk ≠ none
          · obtain ⟨_, h2, _⟩ := hv hc
            intro _
            rw [h2]
            rcases hc with hc | hc
            · exact h hc
            · exact hc
          · have hc' : s.lskLoaded = false ∧ s.lsk = none := by
              constructor
              · cases hx : s.lskLoaded
                · rfl
                · exact absurd (Or.inl hx) hc
              · by_contra hx; exact hc (Or.inr hx)
            obtain ⟨g1, g2⟩ := hn hc'
            rcases hd with ⟨d, hd⟩ | hd
            · intro _; rw [(g1 d hd).2.1]; simp
            · intro hl; rw [(g2 hd).2.2.1] at hl; cases hl
        simp only [step]
        rcases hh : ensureLsk w s with ⟨s', o⟩
        rw [hh] at he hafter
        cases o with
        | throws => exact hafter
        | value =>
          simp only
          obtain ⟨r1, r2, r3, r4, r5, r6, r7, _⟩ := ready_spec he inst
          obtain ⟨_, _, _, _, t5, _, t7⟩ := timeC_frame (ready inst s') ok r1
          rw [callSpice_eq he]
          split_ifs <;> (intro hl; simp only [t5, t7, r5, r7] at hl ⊢; exact hafter hl)
      | state inst ok =>
        obtain ⟨r1, r2, r3, r4, r5, r6, r7, _⟩ := ready_spec hi inst
        obtain ⟨_, _, _, t5, _, t7⟩ := stateC_frame (ready inst s) ok r1
        simp only [step]
        rw [callSpice_eq hi]
        split_ifs <;> (intro hl; simp only [t5, t7, r5, r7] at hl ⊢; exact h hl)
  have hlk := hkey ops _ (Inv.start home) (fun h => by simp at h)
  obtain ⟨he, hv, hn⟩ := ensure_cases w hi
  simp only [step]
  rcases hh : ensureLsk w s with ⟨s', o⟩
  rw [hh] at he hv hn
  simp only at he hv hn
  by_cases hc : s.lskLoaded = true ∨ s.lsk ≠ none
  · have hsome : s.lsk ≠ none := by
      rcases hc with hc | hc
      · exact hlk hc
      · exact hc
    obtain ⟨h1, h2, _⟩ := hv hc
    subst h1
    simp only
    obtain ⟨r1, r2, r3, r4, r5, _⟩ := ready_spec he inst
    rw [callSpice_eq he]
    have hx : (ready inst s').lsk.isSome = true := by rw [r5, h2]; exact Option.isSome_iff_ne_none.2 hsome
    refine ⟨?_, fun d _ hn' => absurd hn' hsome⟩
    cases ok with
    | true => simp [St.timeC, r2, hx, hsome]
    | false => simp [St.timeC, r2, hx, St.signal, r1]
  · have hc' : s.lskLoaded = false ∧ s.lsk = none := by
      constructor
      · cases hx : s.lskLoaded
        · rfl
        · exact absurd (Or.inl hx) hc
      · by_contra hx; exact hc (Or.inr hx)
    obtain ⟨g1, g2⟩ := hn hc'
    rcases hd with ⟨d, hd⟩ | hd
    · obtain ⟨h1, h2, _⟩ := g1 d hd
      subst h1
      simp only
      obtain ⟨r1, r2, r3, r4, r5, _⟩ := ready_spec he inst
      obtain ⟨_, _, _, _, t5, _⟩ := timeC_frame (ready inst s') ok r1
      rw [callSpice_eq he]
      have hx : (ready inst s').lsk.isSome = true := by rw [r5, h2]; rfl
      refine ⟨?_, fun d' hd' _ => ?_⟩
      · cases ok with
        | true => simp [St.timeC, r2, hx, hd]
        | false => simp [St.timeC, r2, hx, St.signal, r1]
      · rw [hd] at hd'; cases hd'
        split_ifs <;> simp only [t5, r5, h2]
    · obtain ⟨h1, _⟩ := g2 hd
      subst h1
      simp only
      refine ⟨⟨fun h => (by cases h), fun h => ?_⟩, fun d hd' => by rw [hd] at hd'; cases hd'⟩
      rcases h.2 with h | h
      · exact absurd hc'.2 h
      · exact absurd hd h

/-! ## A concrete world -/

/-- Kernels in `/k`, the default leap seconds (number 12) in `/data`. -/
def sample : World where
  file := fun p =>
    if p = ["/", "data", "naif.tls"] then .lsk 12
    else if p = ["/", "k", "own.tls"] then .lsk 13
    else if p = ["/", "k", "de.bsp"] then .kernel
    else if p = ["/", "k", "all.tm"] then .listing [["own.tls"], ["de.bsp"]]
    else .bad
  dir := fun p => p = ["/", "k"]
  defaultLsk := ["/", "data", "naif.tls"]

example : (step sample { cwd := ["/", "home"] } (.furnshRel ["/", "k"] "all.tm")).1.loaded =
    [["/", "k", "de.bsp"], ["/", "k", "own.tls"]] := by decide

example : (run sample { cwd := ["/", "home"] } [.time 2 true, .furnsh ["missing"], .furnshRel ["/", "k"] "all.tm", .time 3 false]).lsk
    = some 13 := by decide

example : (step sample (run sample { cwd := ["/", "home"] } [.furnsh ["missing"]]) (.time 2 true)).2 = .value := by decide

/-- An error signalled while the abort action is in force does end the process: that it never happens is a statement about the
library. -/
example (s : St) (h : s.abortAction = true) : s.signal.aborted = true := by simp [St.signal, h]

end Huira.SpiceSess
