import Mathlib.Data.List.Basic
import Mathlib.Logic.Function.Basic
set_option linter.unusedSimpArgs false
/-!
# C159: views of one scene made in several threads

`SceneView`'s constructor takes the scene by const reference and asks every geometry it shows for its Embree scene with the
const method `blas()` (geometry.hpp 43-53, scene_view.ipp 588-596), which makes it at the first call: it tests a `mutable`
`unique_ptr` and resets it, without a lock.

Modelled: any number of threads, each preparing the geometries of its view in turn, interleaved at every access to the shared
pointer and to Embree's counts (sequentially consistent: what goes wrong here does so without reordering).
Not modelled: the rest of the constructor, threads changing the scene at the same time.
-/
namespace Huira.Thr

/-- An Embree scene: one made before the threads start, for a geometry, or one made by them. -/
inductive Blas where
  | earlier (g : Nat)
  | made (n : Nat)
deriving DecidableEq

/-- Where a thread is. -/
inductive Phase where
  /-- before `if (!blas_)` of the next geometry -/
  | idle
  /-- in `build_blas_` (mesh.ipp 109-157, ellipsoid.ipp 54-72), before `blas_.reset(rtcNewScene(...))` -/
  | making (g : Nat)
  /-- before `return blas_.get()` -/
  | reading (g : Nat)
  /-- before `rtcSetGeometryInstancedScene(inst_geom, blas)` -/
  | got (g : Nat) (p : Blas)

structure Thread where
  phase : Phase := .idle
  todo : List Nat
  /-- what its view instances: geometry and Embree scene -/
  shows : List (Nat × Blas) := []

structure State where
  /-- `blas_` of every geometry -/
  blas : Nat → Option Blas
  /-- Embree's counts; zero: freed -/
  cnt : Blas → Nat
  next : Nat := 0
  threads : Nat → Thread
  fault : Bool := false

/-- Thread `i` goes on by one access. -/
def step (s : State) (i : Nat) : State :=
  let t := s.threads i
  match t.phase with
  | .idle => match t.todo with
    | [] => s
    | g :: rest =>
      { s with threads := Function.update s.threads i
                { t with phase := if (s.blas g).isSome then .reading g else .making g, todo := rest } }
  | .making g =>
    let r := { s with blas := Function.update s.blas g (some (.made s.next)), next := s.next + 1,
                      threads := Function.update s.threads i { t with phase := .reading g } }
    match s.blas g with
    | none => { r with cnt := Function.update s.cnt (.made s.next) 1 }
    | some old => { r with cnt := Function.update (Function.update s.cnt (.made s.next) 1) old (s.cnt old - 1),
                           fault := s.fault || s.cnt old == 0 }
  | .reading g => match s.blas g with
    | none => { s with fault := true }
    | some p => { s with threads := Function.update s.threads i { t with phase := .got g p } }
  | .got g p =>
    if s.cnt p = 0 then { s with fault := true }
    else { s with cnt := Function.update s.cnt p (s.cnt p + 1),
                  threads := Function.update s.threads i { t with phase := .idle, shows := t.shows ++ [(g, p)] } }

/-- The threads start: `ready` geometries were shown by earlier views; thread `i` makes a view showing `shown i`. -/
def start (ready : Nat → Bool) (shown : Nat → List Nat) : State where
  blas g := if ready g then some (.earlier g) else none
  cnt p := match p with
    | .earlier g => if ready g then 1 else 0
    | .made _ => 0
  threads i := { todo := shown i }

/-- a schedule: which thread goes on, step by step -/
def run (ready : Nat → Bool) (shown : Nat → List Nat) (sched : List Nat) : State := sched.foldl step (start ready shown)

/-- the geometry a thread is at -/
def Phase.now : Phase → List Nat
  | .idle => []
  | .making g => [g]
  | .reading g => [g]
  | .got g _ => [g]

/-- Where a thread is, is right. -/
def Phase.fits (blas : Nat → Option Blas) (ready : Nat → Bool) : Phase → Prop
  | .idle => True
  | .making g => blas g = none ∧ ready g = false
  | .reading g => blas g ≠ none
  | .got g p => blas g = some p

structure Inv (ready : Nat → Bool) (shown : Nat → List Nat) (s : State) : Prop where
  ok : s.fault = false
  alive : ∀ g p, s.blas g = some p → 0 < s.cnt p
  early : ∀ g, ready g = true → s.blas g = some (.earlier g)
  fits : ∀ i, (s.threads i).phase.fits s.blas ready
  seen : ∀ i, ∀ x ∈ (s.threads i).shows, s.blas x.1 = some x.2
  order : ∀ i, (s.threads i).shows.map Prod.fst ++ (s.threads i).phase.now ++ (s.threads i).todo = shown i

theorem inv_start (ready : Nat → Bool) (shown : Nat → List Nat) : Inv ready shown (start ready shown) where
  ok := rfl
  alive := by
    intro g p h
    simp only [start] at h ⊢
    split at h
    · cases h; simp [*]
    · cases h
  early := by intro g h; simp [start, h]
  fits := by intro i; trivial
  seen := by intro i x h; cases h
  order := by intro i; rfl

theorem inv_step {ready : Nat → Bool} {shown : Nat → List Nat}
    (hu : ∀ g, ready g = false → ∀ i j, g ∈ shown i → g ∈ shown j → i = j) {s : State} (h : Inv ready shown s) (i : Nat) :
    Inv ready shown (step s i) := by
  have hf := h.fits i
  have hord := h.order i
  unfold step
  simp only
  rcases hph : (s.threads i).phase with _ | g | g | ⟨g, p⟩
  · -- idle
    simp only
    rcases htd : (s.threads i).todo with _ | ⟨g, rest⟩
    · exact h
    · refine ⟨h.ok, h.alive, h.early, fun j => ?_, fun j x hx => ?_, fun j => ?_⟩
      · by_cases hji : j = i
        · subst hji
          simp only [Function.update_self]
          cases hb : s.blas g with
          | none =>
            simp only [Option.isSome_none, Bool.false_eq_true, if_false]
            refine ⟨hb, ?_⟩
            by_contra hr
            rw [h.early g (by simpa using hr)] at hb; cases hb
          | some q =>
            simp only [Option.isSome_some, if_true]
            show s.blas g ≠ none
            rw [hb]; simp
        · simp only [Function.update_of_ne hji]; exact h.fits j
      · simp only [Function.update_apply] at hx
        split at hx
        · exact h.seen i x hx
        · exact h.seen j x hx
      · simp only [Function.update_apply]
        split
        · subst_vars
          rw [hph, htd] at hord
          rw [← hord]
          by_cases hb : (s.blas g).isSome = true <;> simp [hb, Phase.now]
        · exact h.order j
  · -- making
    rw [hph] at hf
    obtain ⟨hb, hr⟩ := hf
    simp only [hb]
    have hgi : g ∈ shown i := by rw [← hord, hph]; simp [Phase.now]
    have keep : ∀ g' p, s.blas g' = some p → Function.update s.blas g (some (Blas.made s.next)) g' = some p := by
      intro g' p hp
      rw [Function.update_of_ne (by rintro rfl; rw [hb] at hp; cases hp)]; exact hp
    refine ⟨h.ok, ?_, ?_, fun j => ?_, fun j x hx => ?_, fun j => ?_⟩
    · intro g' p hp
      simp only [Function.update_apply] at hp ⊢
      split
      · omega
      · split at hp
        · cases hp; exact absurd rfl ‹_›
        · exact h.alive g' p hp
    · intro g' hg'; exact keep g' _ (h.early g' hg')
    · simp only [Function.update_apply]
      split
      · show Function.update s.blas g (some (Blas.made s.next)) g ≠ none
        simp
      · rename_i hji
        have hj := h.fits j
        have hoj := h.order j
        rcases hpj : (s.threads j).phase with _ | g' | g' | ⟨g', p⟩
        · trivial
        · rw [hpj] at hj hoj
          obtain ⟨hb', hr'⟩ := hj
          have hgj : g' ∈ shown j := by rw [← hoj]; simp [Phase.now]
          have hne : g' ≠ g := by rintro rfl; exact hji (hu _ hr _ _ hgj hgi)
          exact ⟨by rw [Function.update_of_ne hne]; exact hb', hr'⟩
        · rw [hpj] at hj
          show Function.update s.blas g (some (Blas.made s.next)) g' ≠ none
          obtain ⟨p, hp⟩ := Option.ne_none_iff_exists'.mp hj
          rw [keep g' p hp]; simp
        · rw [hpj] at hj
          exact keep g' p hj
    · simp only [Function.update_apply] at hx
      split at hx
      · exact keep _ _ (h.seen i x hx)
      · exact keep _ _ (h.seen j x hx)
    · simp only [Function.update_apply]
      split
      · subst_vars; rw [hph] at hord; exact hord
      · exact h.order j
  · -- reading
    rw [hph] at hf
    obtain ⟨p, hp⟩ := Option.ne_none_iff_exists'.mp hf
    simp only [hp]
    refine ⟨h.ok, h.alive, h.early, fun j => ?_, fun j x hx => ?_, fun j => ?_⟩
    · simp only [Function.update_apply]
      split
      · exact hp
      · exact h.fits j
    · simp only [Function.update_apply] at hx
      split at hx
      · exact h.seen i x hx
      · exact h.seen j x hx
    · simp only [Function.update_apply]
      split
      · subst_vars; rw [hph] at hord; exact hord
      · exact h.order j
  · -- got
    rw [hph] at hf
    have hpos := h.alive g p hf
    simp only
    rw [if_neg (by omega)]
    refine ⟨h.ok, fun g' q hq => ?_, h.early, fun j => ?_, fun j x hx => ?_, fun j => ?_⟩
    · simp only [Function.update_apply]
      split
      · omega
      · exact h.alive g' q hq
    · simp only [Function.update_apply]
      split
      · trivial
      · exact h.fits j
    · simp only [Function.update_apply] at hx
      split at hx
      · rcases List.mem_append.mp hx with hx | hx
        · exact h.seen i x hx
        · simp only [List.mem_singleton] at hx; subst hx; exact hf
      · exact h.seen j x hx
    · simp only [Function.update_apply]
      split
      · subst_vars
        rw [hph] at hord
        rw [← hord]; simp [Phase.now]
      · exact h.order j

/-! ## Theorems -/

/-- C159 in full: whatever the threads show and however they are scheduled, no freed Embree scene is used; every view
instances the scene its geometries keep; and a thread that finished shows what was asked. -/
def C159_full : Prop := ∀ (ready : Nat → Bool) (shown : Nat → List Nat) (sched : List Nat),
  (run ready shown sched).fault = false ∧
  (∀ i, ∀ x ∈ ((run ready shown sched).threads i).shows, (run ready shown sched).blas x.1 = some x.2)

/-- **C159 (partial).** Threads make views of one scene at the same time, under any schedule: if every geometry that no
earlier view showed is shown by only one of them, no freed Embree scene is used, every view instances the scenes its
geometries keep, and a thread that came to its end shows all it was asked to, in order. -/
theorem C159_partial (ready : Nat → Bool) (shown : Nat → List Nat)
    (hu : ∀ g, ready g = false → ∀ i j, g ∈ shown i → g ∈ shown j → i = j) (sched : List Nat) :
    (run ready shown sched).fault = false ∧
    (∀ i, ∀ x ∈ ((run ready shown sched).threads i).shows, (run ready shown sched).blas x.1 = some x.2 ∧
      0 < (run ready shown sched).cnt x.2) ∧
    ∀ i, ((run ready shown sched).threads i).phase = .idle → ((run ready shown sched).threads i).todo = [] →
      ((run ready shown sched).threads i).shows.map Prod.fst = shown i := by
  have h : Inv ready shown (run ready shown sched) := by
    unfold run
    suffices ∀ s, Inv ready shown s → Inv ready shown (sched.foldl step s) from this _ (inv_start ready shown)
    induction sched with
    | nil => exact fun s hs => hs
    | cons i sched ih => exact fun s hs => ih _ (inv_step hu hs i)
  refine ⟨h.ok, fun i x hx => ⟨h.seen i x hx, h.alive _ _ (h.seen i x hx)⟩, fun i hp ht => ?_⟩
  have := h.order i
  rw [hp, ht] at this
  simpa [Phase.now] using this

/-- C159: in particular, after one view that showed everything, views can be made in any number of threads. -/
theorem C159_prepared_partial (ready : Nat → Bool) (shown : Nat → List Nat) (hr : ∀ i, ∀ g ∈ shown i, ready g = true)
    (sched : List Nat) : (run ready shown sched).fault = false ∧
      ∀ i, ∀ x ∈ ((run ready shown sched).threads i).shows, x.2 = .earlier x.1 := by
  have hu : ∀ g, ready g = false → ∀ i j, g ∈ shown i → g ∈ shown j → i = j := by
    intro g hg i j hi _
    rw [hr i g hi] at hg; cases hg
  have h : Inv ready shown (run ready shown sched) := by
    unfold run
    suffices ∀ s, Inv ready shown s → Inv ready shown (sched.foldl step s) from this _ (inv_start ready shown)
    induction sched with
    | nil => exact fun s hs => hs
    | cons i sched ih => exact fun s hs => ih _ (inv_step hu hs i)
  refine ⟨h.ok, fun i x hx => ?_⟩
  have h1 := h.seen i x hx
  have hg : x.1 ∈ shown i := by
    rw [← h.order i]
    simp only [List.append_assoc, List.mem_append]
    exact .inl (List.mem_map_of_mem hx)
  rw [h.early x.1 (hr i _ hg)] at h1
  exact (Option.some.inj h1).symm

/-- **C159 (violated).** Whenever two threads both begin with a geometry no view has shown yet, there is a schedule in which
one of them instances an Embree scene the other has freed. -/
theorem C159_violated_race (ready : Nat → Bool) (shown : Nat → List Nat) (g i j : Nat) (hij : i ≠ j) (hg : ready g = false)
    (hi : ∃ r, shown i = g :: r) (hj : ∃ r, shown j = g :: r) : (run ready shown [i, j, i, i, j, i]).fault = true := by
  obtain ⟨ri, hi⟩ := hi
  obtain ⟨rj, hj⟩ := hj
  simp [run, step, start, hg, hi, hj, Function.update_apply, hij, hij.symm]

theorem C159_violated : ¬ C159_full := by
  intro hf
  have h1 := (hf (fun _ => false) (fun _ => [0]) [0, 1, 0, 0, 1, 0]).1
  rw [C159_violated_race (fun _ => false) (fun _ => [0]) 0 0 1 (by decide) rfl ⟨[], rfl⟩ ⟨[], rfl⟩] at h1
  cases h1

/-- three geometries, the first shown before; thread 0 shows 0, 1, 1, thread 1 shows 2, 0 -/
def exReady (g : Nat) : Bool := g == 0
def exShown : Nat → List Nat
  | 0 => [0, 1, 1]
  | 1 => [2, 0]
  | _ => []

example : ∀ g, exReady g = false → ∀ i j, g ∈ exShown i → g ∈ exShown j → i = j := by
  intro g hg i j hi hj
  have hg0 : g ≠ 0 := by simpa [exReady] using hg
  rcases i with _ | _ | i <;> rcases j with _ | _ | j <;> simp [exShown] at hi hj ⊢ <;> omega

example : ((run exReady exShown [0, 1, 0, 1, 0, 1, 1, 0, 0, 0, 0, 0, 1, 0, 0, 1, 1]).threads 0).shows =
    [(0, .earlier 0), (1, .made 1), (1, .made 1)] := by decide

end Huira.Thr
