import Verif.Cli.FetchProps
import Verif.Stars.Props
/-!
# C113: converting the Tycho-2 files

Full statement: `process-tycho2` and `fetch-tycho2 --process [--clean]` turn the 22 source files into one catalogue
holding exactly their stars; an exit code 0 means the catalogue is complete; at no crash point are stars lost.  False on a
device that fills up, and for an older catalogue when the program dies while writing.
-/
namespace Huira.Cli
set_option linter.unusedSimpArgs false

variable {Star : Type}

/-! ## Specification -/

/-- The stars of the 22 files, in file order. -/
def starsOf (l : Local Star) (fs : Fs) : List Star :=
  datFiles.flatMap (fun f => l.parseDat ((fs f).getD [])) ++ supplFiles.flatMap (fun f => l.parseSuppl ((fs f).getD []))

/-- The bytes of a complete catalogue. -/
def catalogue (w : Format Star) (stars : List Star) : List Byte := w.header stars ++ w.body stars

/-! ## Lemmas -/

theorem readLoop_ok (readable : String → Bool) (parse : List Byte → List Star) : ∀ (fl : List String) (fs : Fs)
    (acc : List Star), (∀ f ∈ fl, (fs f).isSome ∧ readable f = true) →
    readLoop readable parse fl fs acc = .ok (acc ++ fl.flatMap (fun f => parse ((fs f).getD [])))
  | [], _, acc, _ => by simp [readLoop]
  | f :: fl, fs, acc, h => by
    obtain ⟨bs, hbs⟩ := Option.isSome_iff_exists.1 (h f List.mem_cons_self).1
    simp only [readLoop, hbs, (h f List.mem_cons_self).2, if_true]
    rw [readLoop_ok readable parse fl fs _ (fun g hg => h g (List.mem_cons_of_mem _ hg))]
    simp [hbs]

theorem readLoop_inv (readable : String → Bool) (parse : List Byte → List Star) : ∀ (fl : List String) (fs : Fs)
    (acc out : List Star), readLoop readable parse fl fs acc = .ok out → ∀ f ∈ fl, (fs f).isSome ∧ readable f = true
  | [], _, _, _, _ => by simp
  | f :: fl, fs, acc, out, h => by
    simp only [readLoop] at h
    split at h
    · simp at h
    · rename_i bs hbs
      split at h
      · rename_i hr
        intro g hg
        simp only [List.mem_cons] at hg
        rcases hg with rfl | hg
        · simp [hbs, hr]
        · exact readLoop_inv readable parse fl fs _ out h g hg
      · simp at h

theorem readAll_ok (l : Local Star) (fs : Fs) (h : ∀ f ∈ sources, (fs f).isSome ∧ l.readable f = true) :
    readAll l fs = .ok (starsOf l fs) := by
  unfold readAll
  rw [readLoop_ok _ _ _ _ _ (fun f hf => h f (List.mem_append_left _ hf))]
  simp only [Except.bind]
  rw [readLoop_ok _ _ _ _ _ (fun f hf => h f (List.mem_append_right _ hf))]
  simp [starsOf]

theorem readAll_inv (l : Local Star) (fs : Fs) (out : List Star) (h : readAll l fs = .ok out) :
    ∀ f ∈ sources, (fs f).isSome ∧ l.readable f = true := by
  unfold readAll at h
  cases h1 : readLoop l.readable l.parseDat datFiles fs [] with
  | error x => simp [h1, Except.bind] at h
  | ok a =>
    simp only [h1, Except.bind] at h
    intro f hf
    rcases List.mem_append.1 hf with hf | hf
    · exact readLoop_inv _ _ _ _ _ _ h1 f hf
    · exact readLoop_inv _ _ _ _ _ _ h f hf

theorem flatMap_congr' {α β : Type} (g h : α → List β) (fl : List α) (H : ∀ f ∈ fl, g f = h f) :
    fl.flatMap g = fl.flatMap h := by
  induction fl with
  | nil => rfl
  | cons a fl ih =>
    rw [List.flatMap_cons, List.flatMap_cons, H a List.mem_cons_self, ih (fun f hf => H f (List.mem_cons_of_mem _ hf))]

theorem starsOf_congr (l : Local Star) (fs fs' : Fs) (h : ∀ f ∈ sources, fs f = fs' f) :
    starsOf l fs = starsOf l fs' := by
  have h1 := flatMap_congr' (fun f => l.parseDat ((fs f).getD [])) (fun f => l.parseDat ((fs' f).getD [])) datFiles
    (fun f hf => by rw [h f (List.mem_append_left _ hf)])
  have h2 := flatMap_congr' (fun f => l.parseSuppl ((fs f).getD [])) (fun f => l.parseSuppl ((fs' f).getD [])) supplFiles
    (fun f hf => by rw [h f (List.mem_append_right _ hf)])
  unfold starsOf
  rw [h1, h2]

theorem run_removes : ∀ (fl : List String) (fs : Fs) (g : String),
    run (fl.map .remove) fs g = if g ∈ fl then none else fs g
  | [], _, _ => by simp [run]
  | f :: fl, fs, g => by
    rw [List.map_cons, run_cons, run_removes fl]
    by_cases h : g ∈ fl
    · simp [h]
    · by_cases h2 : g = f <;> simp [h, h2, Op.apply]

theorem writeCatalog_names (l : Local Star) (w : Format Star) (stars : List Star) (ops : List Op)
    (h : writeCatalog l w stars = some ops) : ∀ o ∈ ops, o.name = hrsc := by
  unfold writeCatalog at h
  split at h
  · simp at h
  · simp only [Option.some.injEq] at h
    subst h
    intro o ho
    simp only [List.cons_append, List.mem_cons, List.mem_append, List.not_mem_nil, or_false] at ho
    rcases ho with rfl | ho | rfl
    · rfl
    · exact pump_names _ _ _ _ _ o ho
    · rfl

theorem writeCatalog_disk (l : Local Star) (w : Format Star) (stars : List Star) (ops : List Op) (fs : Fs)
    (hr : (catalogue w stars).length ≤ l.device.room) (h : writeCatalog l w stars = some ops) :
    run ops fs hrsc = some (catalogue w stars) := by
  unfold writeCatalog at h
  split at h
  · simp at h
  · simp only [Option.some.injEq] at h
    subst h
    have := stream_disk l.device hrsc [w.header stars, w.body stars] fs (by simpa [catalogue] using hr)
    rw [this]; simp [catalogue]

/-- The shape of a run that exits with 0. -/
theorem process_shape (l : Local Star) (w : Format Star) (clean : Bool) (fs : Fs)
    (h : (process l w clean fs).2 = .code 0) :
    (∀ f ∈ sources, (fs f).isSome) ∧ ∃ ops, writeCatalog l w (starsOf l fs) = some ops ∧
      (process l w clean fs).1 = ops ++ (if clean then sources.map .remove else []) := by
  unfold process at h ⊢
  split at h
  · simp at h
  · rename_i hd
    simp only [hd]
    split at h
    · rename_i x hx
      simp only at h
      subst h
      -- an error is never `code 0`
      exfalso
      have key : ∀ (parse : List Byte → List Star) (fl : List String) (acc : List Star),
          readLoop l.readable parse fl fs acc ≠ .error (.code 0) := by
        intro parse fl
        induction fl with
        | nil => intro acc; simp [readLoop]
        | cons f fl ih =>
          intro acc
          simp only [readLoop]
          split
          · simp
          · split
            · exact ih _
            · simp
      unfold readAll at hx
      cases h1 : readLoop l.readable l.parseDat datFiles fs [] with
      | error x => simp only [h1, Except.bind] at hx; exact key _ _ _ (h1.trans hx)
      | ok a => simp only [h1, Except.bind] at hx; exact key _ _ _ hx
    · rename_i stars hst
      have hall := readAll_inv l fs stars hst
      have hs : stars = starsOf l fs := by
        have := readAll_ok l fs hall
        rw [hst] at this
        exact Except.ok.inj this
      subst hs
      split at h
      · simp at h
      · rename_i ops hops
        refine ⟨fun f hf => (hall f hf).1, ops, hops, ?_⟩
        simp [hst, hops, sources]

/-! ## C113 -/

/-- **C113 (what a successful run leaves).** On a device with room, when `process` exits with 0: all 22 files were
there, the catalogue is exactly the encoding of their stars, the sources are deleted with `clean` and untouched
without, and nothing else changed. -/
theorem C113_success_partial (l : Local Star) (w : Format Star) (clean : Bool) (fs : Fs)
    (h : (process l w clean fs).2 = .code 0) (hr : (catalogue w (starsOf l fs)).length ≤ l.device.room) :
    (∀ f ∈ sources, (fs f).isSome) ∧
    run (process l w clean fs).1 fs hrsc = some (catalogue w (starsOf l fs)) ∧
    (∀ f ∈ sources, run (process l w clean fs).1 fs f = if clean then none else fs f) ∧
    (∀ f, f ∉ sources → f ≠ hrsc → run (process l w clean fs).1 fs f = fs f) := by
  obtain ⟨hall, ops, hops, hp⟩ := process_shape l w clean fs h
  have hn := writeCatalog_names l w _ ops hops
  have hfile : ∀ g, run (process l w clean fs).1 fs g =
      if clean = true ∧ g ∈ sources then none else run ops fs g := by
    intro g
    rw [hp, run_append]
    cases clean with
    | true => simp [run_removes]
    | false => simp [run_nil]
  refine ⟨hall, ?_, ?_, ?_⟩
  · rw [hfile, if_neg (fun hc => hrsc_not_source hc.2)]
    exact writeCatalog_disk l w _ ops fs hr hops
  · intro f hf
    rw [hfile]
    have : run ops fs f = fs f :=
      run_other _ _ _ (fun o ho hc => hrsc_not_source (by rw [← hn o ho, hc]; exact hf))
    rw [this]
    cases clean <;> simp [hf]
  · intro f hf hf'
    rw [hfile, if_neg (fun hc => hf hc.2)]
    exact run_other _ _ _ (fun o ho hc => hf' (by rw [← hc]; exact hn o ho))

/-- C113, refusals: a missing input directory or source file means the disk is not touched and the exit is not 0; a
directory that is there, all files readable and a catalogue that opens mean exit 0. -/
theorem C113_exit (l : Local Star) (w : Format Star) (clean : Bool) (fs : Fs) :
    ((l.inputDirExists = false ∨ ∃ f ∈ sources, fs f = none) →
      (process l w clean fs).1 = [] ∧ (process l w clean fs).2 ≠ .code 0) ∧
    ((∀ f ∈ sources, l.readable f = true) → (∃ f ∈ sources, fs f = none) → (process l w clean fs).2 = .code 1) ∧
    (l.inputDirExists = true → (∀ f ∈ sources, (fs f).isSome ∧ l.readable f = true) → l.opens = true →
      (process l w clean fs).2 = .code 0) := by
  refine ⟨?_, ?_, ?_⟩
  · intro h
    constructor
    · unfold process
      split
      · rfl
      · rename_i hd
        split
        · rfl
        · rename_i stars hst
          rcases h with h | ⟨f, hf, hn⟩
          · simp [h] at hd
          · have := (readAll_inv l fs stars hst f hf).1
            simp [hn] at this
    · intro hc
      rcases h with h | ⟨f, hf, hn⟩
      · unfold process at hc; simp [h] at hc
      · have := (process_shape l w clean fs hc).1 f hf
        simp [hn] at this
  · rintro hrd ⟨f, hf, hn⟩
    unfold process
    split
    · rfl
    · have key : ∀ (parse : List Byte → List Star) (fl : List String) (acc : List Star) (x : Exit),
          (∀ f ∈ fl, l.readable f = true) → readLoop l.readable parse fl fs acc = .error x → x = .code 1 := by
        intro parse fl
        induction fl with
        | nil => intro acc x _ h; simp [readLoop] at h
        | cons g fl ih =>
          intro acc x hrd h
          simp only [readLoop] at h
          split at h
          · simpa using h.symm
          · simp only [hrd g List.mem_cons_self, if_true] at h
            exact ih _ x (fun f hf => hrd f (List.mem_cons_of_mem _ hf)) h
      split
      · rename_i x hx
        unfold readAll at hx
        cases h1 : readLoop l.readable l.parseDat datFiles fs [] with
        | error y =>
          simp only [h1, Except.bind] at hx
          exact key _ _ _ x (fun f hf => hrd f (List.mem_append_left _ hf)) (h1.trans hx)
        | ok a =>
          simp only [h1, Except.bind] at hx
          exact key _ _ _ x (fun f hf => hrd f (List.mem_append_right _ hf)) hx
      · rename_i stars hst
        have := (readAll_inv l fs stars hst f hf).1
        simp [hn] at this
  · intro hd hall ho
    unfold process
    simp [hd, readAll_ok l fs hall, writeCatalog, ho]

/-- **C113 (crash).** On a device with room, at every crash point of `process`, with or without `clean`, either every
source file is intact or the catalogue is completely written: no star is lost. -/
theorem C113_crash_partial (l : Local Star) (w : Format Star) (clean : Bool) (fs fs' : Fs)
    (hr : (catalogue w (starsOf l fs)).length ≤ l.device.room)
    (h : Crash (process l w clean fs).1 fs fs') :
    (∀ f ∈ sources, fs' f = fs f) ∨ fs' hrsc = some (catalogue w (starsOf l fs)) := by
  by_cases hx : (process l w clean fs).2 = .code 0
  · obtain ⟨_, ops, hops, hp⟩ := process_shape l w clean fs hx
    have hn := writeCatalog_names l w _ ops hops
    rw [hp] at h
    rcases crash_append _ _ _ _ h with h | h
    · left
      intro f hf
      exact crash_other _ _ _ _ h (fun o ho hc => hrsc_not_source (by rw [← hn o ho, hc]; exact hf))
    · right
      rw [crash_other _ _ _ hrsc h ?_, writeCatalog_disk l w _ ops fs hr hops]
      intro o ho hc
      split at ho
      · simp only [List.mem_map] at ho
        obtain ⟨g, hg, rfl⟩ := ho
        simp only [Op.name] at hc
        exact hrsc_not_source (hc ▸ hg)
      · simp at ho
  · left
    have : (process l w clean fs).1 = [] := by
      unfold process at hx ⊢
      split
      · rfl
      · rename_i hd
        simp only [hd] at hx
        split
        · rfl
        · rename_i stars hst
          simp only [hst] at hx
          split
          · rfl
          · rename_i ops hops
            simp [hops] at hx
    rw [this] at h
    exact fun f _ => crash_other _ _ _ _ h (by simp)

/-- **C113 (one command).** `fetch --process [--clean]` that exits with 0, in a directory without half-written sources,
with an honest network and room on the device: the catalogue file is read back by `read_star_data` as a Tycho-2
catalogue of exactly the stars with a magnitude of the 22 files on the server, brightest first. -/
theorem C113_end_to_end_partial {K : Type} [LinearOrder K] (served : String → List Byte) (c : Stars.Codec Star)
    (mag : Star → Option K) (sort : List Star → List Star) (hsort : Stars.SortSpec mag sort) (dflt : Star) (t : Byte)
    (inf : K) (hinf : ∀ x : K, x ≤ inf) (e : Net) (l : Local Star) (force clean : Bool) (fs : Fs)
    (hh : Honest served e) (hr : Roomy e) (h0 : AbsentOrComplete served fs)
    (hsz : (starsOf l (fun f => some (served f))).length < 2 ^ 64)
    (hroom : (catalogue (hrscFormat c mag sort t) (starsOf l (fun f => some (served f)))).length ≤ l.device.room)
    (hx : (fetch e l (hrscFormat c mag sort t) force true clean fs).2 = .code 0) :
    ∃ file out, run (fetch e l (hrscFormat c mag sort t) force true clean fs).1 fs hrsc = some file ∧
      Stars.read c mag dflt inf file = .catalog t out ∧
      out.Perm ((starsOf l (fun f => some (served f))).filter (fun s => (mag s).isSome)) ∧
      out.Pairwise (fun a b => ∃ x y, mag a = some x ∧ mag b = some y ∧ x ≤ y) := by
  obtain ⟨out, h1, h2, h3⟩ := Stars.C11_round_trip c mag sort hsort dflt t _ hsz inf hinf
  have hplain : (fetch e l (hrscFormat c mag sort t) force false clean fs).2 = .code 0 ∧
      (fetch e l (hrscFormat c mag sort t) force false clean fs).1 = (fetchAll e force fs).1 ∧
      (process l (hrscFormat c mag sort t) clean (run (fetchAll e force fs).1 fs)).2 = .code 0 ∧
      (fetch e l (hrscFormat c mag sort t) force true clean fs).1 = (fetchAll e force fs).1 ++
        (process l (hrscFormat c mag sort t) clean (run (fetchAll e force fs).1 fs)).1 := by
    unfold fetch at hx ⊢
    split at hx
    · simp at hx
    · rename_i hg
      simp only [hg] at hx ⊢
      split at hx
      · simp at hx
      · rename_i h00
        simp only [h00]
        simpa using hx
  obtain ⟨hx0, hops, hpx, hops'⟩ := hplain
  have hcomplete := (C112_history_partial served (hrscFormat c mag sort t) fs fs h0 (.start fs)).2 e l force clean hh hr hx0
  rw [hops] at hcomplete
  have hstars : starsOf l (run (fetchAll e force fs).1 fs) = starsOf l (fun f => some (served f)) := by
    exact starsOf_congr l _ _ hcomplete
  have hp := C113_success_partial l (hrscFormat c mag sort t) clean _ hpx (by rw [hstars]; exact hroom)
  refine ⟨_, out, ?_, h1, h2, h3⟩
  rw [hops', run_append, hp.2.1, hstars]
  rfl

/-- Full statement: exit code 0 means the catalogue is complete, on any device. -/
def C113_device_full (w : Format Star) : Prop :=
  ∀ (l : Local Star) (clean : Bool) (fs : Fs), (process l w clean fs).2 = .code 0 →
    run (process l w clean fs).1 fs hrsc = some (catalogue w (starsOf l fs))

/-- Full statement: a crash leaves the old catalogue or the new one. -/
def C113_old_full (w : Format Star) : Prop :=
  ∀ (l : Local Star) (fs fs' : Fs), Crash (process l w false fs).1 fs fs' →
    fs' hrsc = fs hrsc ∨ fs' hrsc = some (catalogue w (starsOf l fs))

/-- Everything in place for `process`, files empty of stars, on a device with `room` bytes. -/
def goodLocal (room : Nat) : Local Star :=
  ⟨true, fun _ => true, fun _ => [], fun _ => [], true, ⟨room, fun _ => room⟩⟩

/-- **C113 is violated by a full device**: on a device without any room left, `process` with `clean` exits with 0, all
22 sources are gone and the catalogue is an empty file. -/
theorem C113_device_violated (w : Format Star) (hw : w.header [] ≠ []) :
    ¬ C113_device_full w ∧
    ∃ (l : Local Star) (fs : Fs), (∀ f ∈ sources, (fs f).isSome) ∧ (process l w true fs).2 = .code 0 ∧
      (∀ f ∈ sources, run (process l w true fs).1 fs f = none) ∧ run (process l w true fs).1 fs hrsc = some [] := by
  have hst : starsOf (goodLocal 0 : Local Star) (fun _ => some []) = [] := by
    simp [starsOf, goodLocal]
  have hx : ∀ clean, (process (goodLocal 0) w clean (fun _ => some [])).2 = .code 0 := fun clean =>
    (C113_exit (goodLocal 0) w clean (fun _ => some [])).2.2 rfl (fun _ _ => ⟨rfl, rfl⟩) rfl
  have hfile : ∀ clean, run (process (goodLocal 0) w clean (fun _ => some [])).1 (fun _ => some []) hrsc = some [] ∧
      (clean = true → ∀ f ∈ sources, run (process (goodLocal 0) w clean (fun _ => some [])).1 (fun _ => some []) f = none) := by
    intro clean
    obtain ⟨_, ops, hops, hp⟩ := process_shape (goodLocal 0) w clean (fun _ => some []) (hx clean)
    rw [hst] at hops
    have hrun : run ops (fun _ => some []) hrsc = some [] := by
      simp [writeCatalog, goodLocal, pump, Out.write, closeOp, Out.close] at hops
      subst hops
      simp [run, Op.apply]
    rw [hp, run_append]
    cases clean with
    | true =>
      simp only [if_true, run_removes]
      refine ⟨by rw [if_neg hrsc_not_source]; exact hrun, fun _ f hf => by simp [hf]⟩
    | false => simp [run_nil, hrun]
  refine ⟨fun hfull => ?_, goodLocal 0, fun _ => some [], fun _ _ => rfl, hx true, (hfile true).2 rfl, (hfile true).1⟩
  have h1 := hfull (goodLocal 0) false (fun _ => some []) (hx false)
  rw [(hfile false).1, hst] at h1
  simp only [catalogue, Option.some.injEq] at h1
  have := (List.append_eq_nil_iff.1 h1.symm).1
  exact hw this

/-- **C113 is violated for an older catalogue**: the program empties it first, so dying right after opening the file
leaves neither the old nor the new one. -/
theorem C113_old_violated (w : Format Star) (hw : w.header [] ≠ []) : ¬ C113_old_full w := by
  intro hfull
  have hst : starsOf (goodLocal (catalogue w []).length : Local Star) (fun _ => some [7]) = [] := by
    simp [starsOf, goodLocal]
  have hx := (C113_exit (goodLocal (catalogue w []).length) w false (fun _ => some [7])).2.2 rfl (fun _ _ => ⟨rfl, rfl⟩) rfl
  obtain ⟨_, ops, hops, hp⟩ := process_shape (goodLocal (catalogue w []).length) w false (fun _ => some [7]) hx
  have hhead : ∃ rest, ops = .create hrsc :: rest := by
    unfold writeCatalog at hops
    rw [if_neg (by simp [goodLocal])] at hops
    simp only [Option.some.injEq] at hops
    subst hops
    exact ⟨_, rfl⟩
  obtain ⟨rest, rfl⟩ := hhead
  have h1 := hfull (goodLocal (catalogue w []).length) (fun _ => some [7]) (run [.create hrsc] (fun _ => some [7]))
    (Or.inl ⟨[.create hrsc], rest, by rw [hp]; simp, rfl⟩)
  rw [hst] at h1
  simp [run, Op.apply, catalogue] at h1
  exact hw h1.1

/-- The real format has a header, so both violations apply to it. -/
example (c : Stars.Codec Star) (mag : Star → Option Nat) (sort : List Star → List Star) (t : Byte) :
    ¬ C113_device_full (hrscFormat c mag sort t) ∧ ¬ C113_old_full (hrscFormat c mag sort t) :=
  ⟨(C113_device_violated _ (by simp [hrscFormat, Stars.headerBytes])).1,
   C113_old_violated _ (by simp [hrscFormat, Stars.headerBytes])⟩

/-- Non-vacuity: sources of one byte, each a star of its own brightness; the whole command exits with 0. -/
example (w : Format UInt8) :
    (fetch (goodNet fun _ => [3]) (⟨true, fun _ => true, id, id, true, ⟨(catalogue w (List.replicate 22 3)).length,
      fun _ => 0⟩⟩ : Local UInt8) w false true true (fun _ => none)).2 = .code 0 := by
  have hg := goodNet_spec (fun _ => [(3 : Byte)])
  have h0 := (C112_exit (goodNet fun _ => [3]) (⟨true, fun _ => true, id, id, true, ⟨(catalogue w (List.replicate 22 3)).length,
      fun _ => 0⟩⟩ : Local UInt8) w false true (fun _ => none)).1 hg.1 hg.2.2
  have hc := (C112_history_partial _ w (fun _ => none) _ (fun _ _ => Or.inl rfl) (.start _)).2 _
    (⟨true, fun _ => true, id, id, true, ⟨(catalogue w (List.replicate 22 3)).length, fun _ => 0⟩⟩ : Local UInt8)
    false true hg.2.1 hg.2.2 h0
  unfold fetch at h0 hc ⊢
  split at h0
  · simp at h0
  · rename_i hg0
    simp only [hg0] at h0 hc ⊢
    split at h0
    · simp at h0
    · rename_i h00
      simp only [h00] at hc ⊢
      exact (C113_exit _ w true _).2.2 rfl (fun f hf => ⟨by
        have := hc f hf
        simp only [Bool.false_eq_true, if_false] at this
        rw [this]; rfl, rfl⟩) rfl

end Huira.Cli
