import Mathlib.Data.List.Count
import Mathlib.Data.List.Basic
import Mathlib.Data.List.Nodup
import Mathlib.Algebra.BigOperators.Group.List.Basic
import Mathlib.Tactic.Linarith
set_option linter.unusedSimpArgs false
/-!
# C158: how long what a view shows lives

A `SceneView` holds a reference to an Embree scene of its own (`tlas_`, a raw `RTCScene` released by the destructor,
scene_view.ipp 149-156, scene_view.hpp 118) and `shared_ptr`s to the primitives it shows (scene_view_types.hpp 46-49), which
hold the geometries (primitive.hpp). A geometry holds a reference to the Embree scene made for it at the first view that
shows it (`blas_`, geometry.hpp 38-53), released with the geometry. An instance in a `tlas_` holds a reference to the Embree
scene it instances (`rtcSetGeometryInstancedScene`). The class declares a destructor and no copy operations, so copying and
assigning copy the raw reference; and it has no move operations, so moving copies too.

Trusted about Embree: scenes are counted references, freed with what they instance when the count reaches zero.
Not modelled: devices (retained by scenes), lights' sphere scenes (made and owned by one `tlas_`), threads, and `shared_ptr`s a
program takes out of a handle with `get()`.
-/
namespace Huira.Life

/-- A view: its Embree scene, and the geometries it shows, one entry per instance. -/
structure View where
  tlas : Nat
  uses : List Nat

structure State where
  /-- what each scene's registries and primitives hold -/
  scenes : List (List Nat) := []
  views : List View := []
  /-- geometries whose Embree scene was made (`blas_` not null, geometry.hpp 45-50) -/
  built : Nat → Bool := fun _ => false
  /-- Embree's counts of the views' and geometries' scenes; zero: not made or freed -/
  tl : Nat → Nat := fun _ => 0
  bl : Nat → Nat := fun _ => 0
  /-- what is instanced in a view's Embree scene -/
  inst : Nat → List Nat := fun _ => []
  /-- numbers not used yet -/
  nextT : Nat := 0
  nextG : Nat := 0
  /-- freed memory was used or released again -/
  fault : Bool := false

/-- Somebody holds the geometry. -/
def State.held (s : State) (g : Nat) : Prop := (∃ l ∈ s.scenes, g ∈ l) ∨ ∃ v ∈ s.views, g ∈ v.uses

instance (s : State) (g : Nat) : Decidable (s.held g) := by unfold State.held; infer_instance

/-- `rtcReleaseScene` of a geometry's scene -/
def releaseB (s : State) (g : Nat) : State :=
  if s.bl g = 0 then { s with fault := true } else { s with bl := Function.update s.bl g (s.bl g - 1) }

/-- `rtcReleaseScene` of a view's scene: with the last reference its instances go -/
def releaseT (s : State) (t : Nat) : State :=
  if s.tl t = 0 then { s with fault := true }
  else
    let s' := { s with tl := Function.update s.tl t (s.tl t - 1) }
    if s'.tl t = 0 then (s.inst t).foldl releaseB s' else s'

/-- The last `shared_ptr`s to geometries went: `~Geometry` releases `blas_` (geometry.hpp 22, 38; embree_device.hpp 20-27).
`before` is the state in which they were still held. -/
def reap (before s : State) : State :=
  ((List.range before.nextG).filter fun g => decide (before.held g) && !decide (s.held g) && before.built g).foldl releaseB s

/-- `blas()` (geometry.hpp 43-53) of every geometry shown, `rtcSetGeometryInstancedScene` for every instance
(scene_view.ipp 588-596) -/
def build (s : State) (g : Nat) : State :=
  let s' := if s.built g then s else { s with built := Function.update s.built g true, bl := Function.update s.bl g 1 }
  { s' with bl := Function.update s'.bl g (s'.bl g + 1) }

/-- What a program does. Views and scenes are named by their position among those that exist. -/
inductive Op where
  /-- `Scene scene;` -/
  | scene
  /-- `scene.add_mesh(...)`, `add_ellipsoid`, with a primitive showing it -/
  | add (scene : Nat)
  /-- `scene.delete_geometry(...)` (scene.ipp 195-218) -/
  | forget (scene geometry : Nat)
  /-- the scene ends -/
  | dropScene (scene : Nat)
  /-- `SceneView view(scene, ...)` with these instances (scene_view.ipp 26-144, 578-699) -/
  | view (scene : Nat) (uses : List Nat)
  /-- the same, throwing while the first geometry's Embree scene is made (mesh.ipp 109-152) -/
  | viewFails (scene : Nat)
  /-- `renderer.render(view, ...)`, `view.intersect(...)` -/
  | render (view : Nat)
  /-- the view ends (scene_view.ipp 149-156) -/
  | dropView (view : Nat)
  /-- `SceneView b = a;`, `SceneView b = std::move(a);`, `std::vector<SceneView>` growing: the implicit copy constructor
  (scene_view.hpp 36-44) -/
  | copy (view : Nat)
  /-- `a = b;`, `a = SceneView(...);`: the implicit assignment -/
  | assign (dst src : Nat)

def step (s : State) : Op → State
  | .scene => { s with scenes := s.scenes ++ [[]] }
  | .add i => match s.scenes[i]? with
    | none => s
    | some l => { s with scenes := s.scenes.set i (s.nextG :: l), nextG := s.nextG + 1 }
  | .forget i g => match s.scenes[i]? with
    | none => s
    | some l => reap s { s with scenes := s.scenes.set i (l.filter (· ≠ g)) }
  | .dropScene i => reap s { s with scenes := s.scenes.eraseIdx i }
  | .view i uses => match s.scenes[i]? with
    | none => s
    | some l =>
      if ∀ g ∈ uses, g ∈ l then
        let b := uses.foldl build s
        { b with views := b.views ++ [⟨b.nextT, uses⟩], tl := Function.update b.tl b.nextT 1,
                 inst := Function.update b.inst b.nextT uses, nextT := b.nextT + 1 }
      else s
  | .viewFails i => match s.scenes[i]? with
    | none => s
    | some _ => { s with tl := Function.update s.tl s.nextT 1, inst := Function.update s.inst s.nextT [], nextT := s.nextT + 1 }
  | .render i => match s.views[i]? with
    | none => s
    | some v => if s.tl v.tlas = 0 ∨ ∃ g ∈ s.inst v.tlas, s.bl g = 0 ∨ ¬ s.held g then { s with fault := true } else s
  | .dropView i => match s.views[i]? with
    | none => s
    | some v => reap s { releaseT s v.tlas with views := s.views.eraseIdx i }
  | .copy i => match s.views[i]? with
    | none => s
    | some v => { s with views := s.views ++ [v] }
  | .assign i j => match s.views[i]?, s.views[j]? with
    | some _, some w => reap s { s with views := s.views.set i w }
    | _, _ => s

def run (h : List Op) : State := h.foldl step {}

/-- No view is copied, moved or assigned. -/
def Op.plain : Op → Prop
  | .copy _ => False
  | .assign _ _ => False
  | _ => True

/-- No view fails to be made. -/
def Op.sound : Op → Prop
  | .viewFails _ => False
  | _ => True

/-! ## Lemmas -/

/-- how often the views show a geometry -/
def State.shown (s : State) (g : Nat) : Nat := (s.views.map fun v => v.uses.count g).sum

theorem held_congr {s s' : State} (h1 : s'.scenes = s.scenes) (h2 : s'.views = s.views) (g : Nat) : s'.held g ↔ s.held g := by
  unfold State.held; rw [h1, h2]

theorem mem_le_sum (l : List Nat) (a : Nat) (h : a ∈ l) : a ≤ l.sum := by
  induction l with
  | nil => cases h
  | cons b l ih =>
    rw [List.sum_cons]
    rcases List.mem_cons.mp h with rfl | h
    · omega
    · have := ih h; omega

theorem beq_false_of_ne {a g : Nat} (h : ¬ g = a) : ¬ (a == g) = true := fun e => h (eq_of_beq e).symm

theorem shown_pos {s : State} {v : View} (hv : v ∈ s.views) {g : Nat} (hg : g ∈ v.uses) : 0 < s.shown g := by
  unfold State.shown
  have h1 : v.uses.count g ∈ s.views.map fun v => v.uses.count g := List.mem_map.mpr ⟨v, hv, rfl⟩
  exact lt_of_lt_of_le (List.count_pos_iff.mpr hg) (mem_le_sum _ _ h1)

theorem sum_erase (l : List View) (i : Nat) (v : View) (h : l[i]? = some v) (g : Nat) :
    (l.map fun v => v.uses.count g).sum = v.uses.count g + ((l.eraseIdx i).map fun v => v.uses.count g).sum := by
  induction l generalizing i with
  | nil => simp at h
  | cons a l ih =>
    cases i with
    | zero => simp at h; subst h; simp
    | succ i =>
      simp only [List.getElem?_cons_succ] at h
      simp only [List.map_cons, List.sum_cons, List.eraseIdx_cons_succ, ih i h]
      omega

/-- releasing a list of scenes, each counted often enough -/
theorem releases (l : List Nat) (s : State) (h : ∀ g, l.count g ≤ s.bl g) :
    l.foldl releaseB s = { s with bl := fun g => s.bl g - l.count g } := by
  induction l generalizing s with
  | nil => simp
  | cons a l ih =>
    have ha : s.bl a ≠ 0 := by have := h a; rw [List.count_cons_self] at this; omega
    rw [List.foldl_cons]
    have e : releaseB s a = { s with bl := Function.update s.bl a (s.bl a - 1) } := by unfold releaseB; rw [if_neg ha]
    rw [e, ih]
    · congr 1
      funext g
      simp only [Function.update_apply, List.count_cons]
      split
      · subst_vars; simp; omega
      · have : ¬ (a == g) = true := beq_false_of_ne ‹¬ g = a›
        simp [this]
    · intro g
      have := h g
      simp only [Function.update_apply, List.count_cons] at *
      split
      · subst_vars; simp at this; omega
      · have hne : ¬ (a == g) = true := beq_false_of_ne ‹¬ g = a›
        simp [hne] at this; exact this

structure Inv (s : State) : Prop where
  ok : s.fault = false
  fresh : ∀ v ∈ s.views, v.tlas < s.nextT
  later : ∀ t, s.nextT ≤ t → s.tl t = 0
  distinct : (s.views.map View.tlas).Nodup
  one : ∀ v ∈ s.views, s.tl v.tlas = 1
  shows : ∀ v ∈ s.views, s.inst v.tlas = v.uses
  built : ∀ v ∈ s.views, ∀ g ∈ v.uses, s.built g = true
  count : ∀ g, s.bl g = (if s.built g = true ∧ s.held g then 1 else 0) + s.shown g
  known : ∀ g, s.held g → g < s.nextG
  new : ∀ g, s.nextG ≤ g → s.built g = false

/-- the same for states made from valid ones by letting go of geometries -/
theorem reap_inv {s s' : State} (hk : ∀ g, s.held g → g < s.nextG)
    (hsub : ∀ g, s'.held g → s.held g) (hb : s'.built = s.built)
    (hc : ∀ g, s'.bl g = (if s.built g = true ∧ s.held g then 1 else 0) + s'.shown g) :
    ∃ bl, reap s s' = { s' with bl := bl } ∧ ∀ g, bl g = (if s'.built g = true ∧ s'.held g then 1 else 0) + s'.shown g := by
  set dead := (List.range s.nextG).filter fun g => decide (s.held g) && !decide (s'.held g) && s.built g with hd
  have mem : ∀ g, g ∈ dead ↔ s.held g ∧ ¬ s'.held g ∧ s.built g = true := by
    intro g
    rw [hd, List.mem_filter, List.mem_range]
    simp only [Bool.and_eq_true, decide_eq_true_eq, Bool.not_eq_true', decide_eq_false_iff_not]
    constructor
    · rintro ⟨_, ⟨h1, h2⟩, h3⟩; exact ⟨h1, h2, h3⟩
    · rintro ⟨h1, h2, h3⟩; exact ⟨hk g h1, ⟨h1, h2⟩, h3⟩
  have nd : dead.Nodup := List.Nodup.filter _ List.nodup_range
  have cnt : ∀ g, dead.count g = if s.held g ∧ ¬ s'.held g ∧ s.built g = true then 1 else 0 := by
    intro g
    split
    · exact List.count_eq_one_of_mem nd ((mem g).mpr ‹_›)
    · exact List.count_eq_zero.mpr (fun h => ‹¬ _› ((mem g).mp h))
  refine ⟨fun g => s'.bl g - dead.count g, ?_, ?_⟩
  · unfold reap
    rw [← hd]
    apply releases
    intro g
    rw [cnt, hc]
    split
    · rename_i h; rw [if_pos ⟨h.2.2, h.1⟩]; omega
    · omega
  · intro g
    show s'.bl g - dead.count g = _
    rw [cnt, hc, hb]
    by_cases h1 : s.built g = true <;> by_cases h2 : s.held g <;> by_cases h3 : s'.held g <;>
      simp [h1, h2, h3] <;> first | omega | exact absurd (hsub g h3) h2

theorem builds (l : List Nat) (s : State) :
    ∃ bu bl, l.foldl build s = { s with built := bu, bl := bl } ∧
      (∀ g, bu g = (s.built g || decide (g ∈ l))) ∧
      ∀ g, bl g = (if s.built g = false ∧ g ∈ l then 1 else s.bl g) + l.count g := by
  induction l generalizing s with
  | nil => exact ⟨s.built, s.bl, rfl, by simp, by simp⟩
  | cons a l ih =>
    rw [List.foldl_cons]
    obtain ⟨bu, bl, h1, h2, h3⟩ := ih (build s a)
    refine ⟨bu, bl, ?_, ?_, ?_⟩
    · rw [h1]; unfold build; split <;> rfl
    · intro g
      rw [h2]
      unfold build
      by_cases hb : s.built a = true <;> by_cases hg : g = a <;> simp [hb, hg, Function.update_apply]
    · intro g
      rw [h3]
      unfold build
      by_cases hb : s.built a = true
      · by_cases hg : g = a
        · subst hg; simp [hb, Function.update_apply]; omega
        · have : ¬ (a == g) = true := beq_false_of_ne hg
          simp [hb, hg, Function.update_apply, List.count_cons, this, List.mem_cons]
      · have hb' : s.built a = false := by simpa using hb
        by_cases hg : g = a
        · subst hg; simp [hb', Function.update_apply]; omega
        · have : ¬ (a == g) = true := beq_false_of_ne hg
          simp [hb', hg, Function.update_apply, List.count_cons, this, List.mem_cons]

theorem eraseIdx_nodup_ne {l : List View} {i : Nat} {v w : View} (h : (l.map View.tlas).Nodup) (hv : l[i]? = some v)
    (hw : w ∈ l.eraseIdx i) : w.tlas ≠ v.tlas := by
  induction l generalizing i with
  | nil => simp at hv
  | cons a l ih =>
    simp only [List.map_cons, List.nodup_cons] at h
    cases i with
    | zero =>
      simp at hv hw; subst hv
      intro he; exact h.1 (he ▸ List.mem_map_of_mem hw)
    | succ i =>
      simp only [List.getElem?_cons_succ] at hv
      simp only [List.eraseIdx_cons_succ, List.mem_cons] at hw
      rcases hw with rfl | hw
      · intro he
        exact h.1 (he ▸ List.mem_map_of_mem (List.mem_of_getElem? hv))
      · exact ih h.2 hv hw

theorem inv_init : Inv {} where
  ok := rfl
  fresh := by simp
  later := by simp
  distinct := by simp
  one := by simp
  shows := by simp
  built := by simp
  count := by simp [State.shown]
  known := by simp [State.held]
  new := by simp

theorem inv_render {s : State} (h : Inv s) (i : Nat) : step s (.render i) = s := by
  simp only [step]
  split
  · rfl
  · rename_i v hv
    have hm := List.mem_of_getElem? hv
    apply if_neg
    rintro (h0 | ⟨g, hg, h0⟩)
    · have := h.one v hm; omega
    · rw [h.shows v hm] at hg
      have := shown_pos hm hg
      have hc := h.count g
      rcases h0 with h0 | h0
      · omega
      · exact h0 (.inr ⟨v, hm, hg⟩)

theorem inv_scenes {s : State} (h : Inv s) (sc : List (List Nat)) (hs : ∀ l ∈ sc, ∀ g ∈ l, ∃ l' ∈ s.scenes, g ∈ l') :
    Inv (reap s { s with scenes := sc }) := by
  have sub : ∀ g, State.held { s with scenes := sc } g → s.held g := by
    rintro g (⟨l, hl, hg⟩ | hv)
    · exact .inl (hs l hl g hg)
    · exact .inr hv
  obtain ⟨bl, e, hc⟩ := reap_inv (s := s) (s' := { s with scenes := sc }) h.known sub rfl h.count
  rw [e]
  exact ⟨h.ok, h.fresh, h.later, h.distinct, h.one, h.shows, h.built, hc, fun g hg => h.known g (sub g hg), h.new⟩

theorem inv_step {s : State} (h : Inv s) (o : Op) (ho : o.plain) : Inv (step s o) := by
  cases o with
  | copy i => exact ho.elim
  | assign i j => exact ho.elim
  | render i => rw [inv_render h]; exact h
  | scene =>
    have he : ∀ g, State.held { s with scenes := s.scenes ++ [[]] } g ↔ s.held g := by
      intro g; simp [State.held]
    refine ⟨h.ok, h.fresh, h.later, h.distinct, h.one, h.shows, h.built, fun g => ?_, fun g hg => h.known g ((he g).mp hg), h.new⟩
    have := h.count g
    simp only [step, he] at *
    exact this
  | add i =>
    simp only [step]
    split
    · exact h
    · rename_i l hl
      have hi : i < s.scenes.length := (List.getElem?_eq_some_iff.mp hl).1
      have hm := List.mem_of_getElem? hl
      have he : ∀ g, State.held { s with scenes := s.scenes.set i (s.nextG :: l), nextG := s.nextG + 1 } g ↔ s.held g ∨ g = s.nextG := by
        intro g
        constructor
        · rintro (⟨l', hl', hg⟩ | hv)
          · rcases List.mem_or_eq_of_mem_set hl' with h1 | rfl
            · exact .inl (.inl ⟨l', h1, hg⟩)
            · rcases List.mem_cons.mp hg with rfl | hg
              · exact .inr rfl
              · exact .inl (.inl ⟨l, hm, hg⟩)
          · exact .inl (.inr hv)
        · have hnew : (s.nextG :: l) ∈ s.scenes.set i (s.nextG :: l) := List.mem_set hi _
          rintro ((⟨l', hl', hg⟩ | hv) | rfl)
          · obtain ⟨j, hj, e⟩ := List.mem_iff_getElem.mp hl'
            by_cases hij : i = j
            · subst hij
              have : l' = l := by rw [← e]; exact (List.getElem?_eq_some_iff.mp hl).2
              subst this
              exact .inl ⟨_, hnew, List.mem_cons_of_mem _ hg⟩
            · refine .inl ⟨l', ?_, hg⟩
              apply List.mem_iff_getElem.mpr
              exact ⟨j, by simpa using hj, by rw [List.getElem_set_ne hij]; exact e⟩
          · exact .inr hv
          · exact .inl ⟨_, hnew, List.mem_cons_self⟩
      refine ⟨h.ok, h.fresh, h.later, h.distinct, h.one, h.shows, h.built, fun g => ?_, fun g hg => ?_, fun g hg => h.new g (by simp at hg; omega)⟩
      · have := h.count g
        have hn := h.new s.nextG le_rfl
        by_cases hg : g = s.nextG
        · subst hg
          simp only [hn, Bool.false_eq_true, false_and, if_false] at *
          exact this
        · simp only [he, hg, or_false] at *
          exact this
      · rcases (he g).mp hg with h1 | rfl
        · exact Nat.lt_succ_of_lt (h.known g h1)
        · exact Nat.lt_succ_self _
  | forget i g =>
    simp only [step]
    split
    · exact h
    · rename_i l hl
      apply inv_scenes h
      intro l' hl' g' hg'
      rcases List.mem_or_eq_of_mem_set hl' with h1 | rfl
      · exact ⟨l', h1, hg'⟩
      · exact ⟨l, List.mem_of_getElem? hl, List.mem_of_mem_filter hg'⟩
  | dropScene i =>
    apply inv_scenes h
    intro l hl g hg
    exact ⟨l, List.mem_of_mem_eraseIdx hl, hg⟩
  | viewFails i =>
    simp only [step]
    split
    · exact h
    · have ne : ∀ v ∈ s.views, v.tlas ≠ s.nextT := fun v hv => Nat.ne_of_lt (h.fresh v hv)
      refine ⟨h.ok, fun v hv => Nat.lt_succ_of_lt (h.fresh v hv), fun t ht => ?_, h.distinct, fun v hv => ?_, fun v hv => ?_, h.built,
        h.count, h.known, h.new⟩
      · simp only at ht ⊢
        rw [Function.update_of_ne (by omega)]; exact h.later t (by omega)
      · simp only; rw [Function.update_of_ne (ne v hv)]; exact h.one v hv
      · simp only; rw [Function.update_of_ne (ne v hv)]; exact h.shows v hv
  | view i uses =>
    simp only [step]
    split
    · exact h
    · rename_i l hl
      split
      · rename_i hu
        obtain ⟨bu, bl, e, hbu, hbl⟩ := builds uses s
        rw [e]
        have hm := List.mem_of_getElem? hl
        have ne : ∀ v ∈ s.views, v.tlas ≠ s.nextT := fun v hv => Nat.ne_of_lt (h.fresh v hv)
        have hheld : ∀ g ∈ uses, s.held g := fun g hg => .inl ⟨l, hm, hu g hg⟩
        have he : ∀ g, State.held { s with built := bu, bl := bl, views := s.views ++ [⟨s.nextT, uses⟩], tl := Function.update s.tl s.nextT 1, inst := Function.update s.inst s.nextT uses, nextT := s.nextT + 1 } g ↔ s.held g := by
          intro g
          constructor
          · rintro (hs | ⟨v, hv, hg⟩)
            · exact .inl hs
            · rcases List.mem_append.mp hv with hv | hv
              · exact .inr ⟨v, hv, hg⟩
              · simp only [List.mem_singleton] at hv; subst hv; exact hheld g hg
          · rintro (hs | ⟨v, hv, hg⟩)
            · exact .inl hs
            · exact .inr ⟨v, List.mem_append_left _ hv, hg⟩
        show Inv { s with built := bu, bl := bl, views := s.views ++ [⟨s.nextT, uses⟩], tl := Function.update s.tl s.nextT 1, inst := Function.update s.inst s.nextT uses, nextT := s.nextT + 1 }
        refine ⟨h.ok, ?_, ?_, ?_, ?_, ?_, ?_, ?_, ?_, ?_⟩
        · intro v hv
          rcases List.mem_append.mp hv with hv | hv
          · exact Nat.lt_succ_of_lt (h.fresh v hv)
          · simp only [List.mem_singleton] at hv; subst hv; exact Nat.lt_succ_self _
        · intro t ht
          simp only at ht ⊢
          rw [Function.update_of_ne (by omega)]; exact h.later t (by omega)
        · simp only [List.map_append, List.map_cons, List.map_nil]
          rw [List.nodup_append]
          refine ⟨h.distinct, by simp, ?_⟩
          intro a ha b hb
          simp only [List.mem_singleton] at hb
          subst hb
          obtain ⟨v, hv, rfl⟩ := List.mem_map.mp ha
          exact ne v hv
        · intro v hv
          rcases List.mem_append.mp hv with hv | hv
          · simp only; rw [Function.update_of_ne (ne v hv)]; exact h.one v hv
          · simp only [List.mem_singleton] at hv; subst hv; exact Function.update_self ..
        · intro v hv
          rcases List.mem_append.mp hv with hv | hv
          · simp only; rw [Function.update_of_ne (ne v hv)]; exact h.shows v hv
          · simp only [List.mem_singleton] at hv; subst hv; exact Function.update_self ..
        · intro v hv g hg
          simp only [hbu]
          rcases List.mem_append.mp hv with hv | hv
          · simp [h.built v hv g hg]
          · simp only [List.mem_singleton] at hv; subst hv; simp [hg]
        · intro g
          have hc := h.count g
          have hsh : State.shown { s with built := bu, bl := bl, views := s.views ++ [⟨s.nextT, uses⟩], tl := Function.update s.tl s.nextT 1, inst := Function.update s.inst s.nextT uses, nextT := s.nextT + 1 } g = s.shown g + uses.count g := by
            simp [State.shown]
          simp only [he, hsh, hbl, hbu]
          by_cases hg : g ∈ uses
          · have hh := hheld g hg
            by_cases hb : s.built g = true
            · simp [hb, hg, hh] at hc ⊢; omega
            · have hb' : s.built g = false := by simpa using hb
              have hz : s.shown g = 0 := by
                unfold State.shown
                apply List.sum_eq_zero
                intro n hn
                obtain ⟨v, hv, rfl⟩ := List.mem_map.mp hn
                apply List.count_eq_zero.mpr
                intro hgv
                have := h.built v hv g hgv
                rw [hb'] at this; cases this
              simp [hb', hg, hh, hz]
          · simp [hg, List.count_eq_zero.mpr hg] at hc ⊢; omega
        · intro g hg; exact h.known g ((he g).mp hg)
        · intro g hg
          have hg' : s.nextG ≤ g := hg
          simp only [hbu]
          rw [h.new g hg']
          have : g ∉ uses := fun hgu => by have := h.known g (hheld g hgu); omega
          simp [this]
      · exact h
  | dropView i =>
    simp only [step]
    split
    · exact h
    · rename_i v hv
      have hm := List.mem_of_getElem? hv
      have h1 := h.one v hm
      have hcv : ∀ g, (s.inst v.tlas).count g ≤ s.bl g := by
        intro g
        rw [h.shows v hm, h.count g]
        have := sum_erase s.views i v hv g
        unfold State.shown; omega
      have er : releaseT s v.tlas = { s with tl := Function.update s.tl v.tlas 0, bl := fun g => s.bl g - v.uses.count g } := by
        unfold releaseT
        rw [if_neg (by omega), h1]
        simp only [Nat.sub_self, Function.update_self, if_true]
        rw [releases (s.inst v.tlas) _ (by exact hcv), h.shows v hm]
      rw [er]
      set s' : State := { s with tl := Function.update s.tl v.tlas 0, bl := fun g => s.bl g - v.uses.count g, views := s.views.eraseIdx i } with hs'
      have sub : ∀ g, s'.held g → s.held g := by
        rintro g (hs | ⟨w, hw, hg⟩)
        · exact .inl hs
        · exact .inr ⟨w, List.mem_of_mem_eraseIdx hw, hg⟩
      obtain ⟨bl, e, hc⟩ := reap_inv (s := s) (s' := s') h.known sub rfl (by
        intro g
        have hsum := sum_erase s.views i v hv g
        have hcg := h.count g
        simp only [hs', State.shown] at hcg ⊢
        omega)
      rw [e]
      have ne : ∀ w ∈ s.views.eraseIdx i, w.tlas ≠ v.tlas := fun w hw => eraseIdx_nodup_ne h.distinct hv hw
      refine ⟨h.ok, fun w hw => h.fresh w (List.mem_of_mem_eraseIdx hw), fun t ht => ?_, ?_, fun w hw => ?_, fun w hw => ?_,
        fun w hw => h.built w (List.mem_of_mem_eraseIdx hw), hc, fun g hg => h.known g (sub g hg), h.new⟩
      · simp only [hs', Function.update_apply]
        split
        · rfl
        · exact h.later t ht
      · exact List.Nodup.sublist ((List.eraseIdx_sublist _ _).map _) h.distinct
      · simp only [hs']; rw [Function.update_of_ne (ne w hw)]; exact h.one w (List.mem_of_mem_eraseIdx hw)
      · exact h.shows w (List.mem_of_mem_eraseIdx hw)

theorem inv_run (h : List Op) (hp : ∀ o ∈ h, o.plain) : Inv (run h) := by
  unfold run
  suffices ∀ (h : List Op) (s : State), Inv s → (∀ o ∈ h, o.plain) → Inv (h.foldl step s) from this h {} inv_init hp
  intro h
  induction h with
  | nil => intro s hs _; exact hs
  | cons o h ih =>
    intro s hs hp
    exact ih _ (inv_step hs o (hp o List.mem_cons_self)) (fun o' ho' => hp o' (List.mem_cons_of_mem _ ho'))

theorem run_snoc (h : List Op) (o : Op) : run (h ++ [o]) = step (run h) o := by simp [run]

/-- `reap` and what it is made of leave everything but the counts and the fault alone. -/
theorem releaseB_frame (s : State) (g : Nat) : (releaseB s g).tl = s.tl ∧ (releaseB s g).views = s.views ∧
    (releaseB s g).nextT = s.nextT ∧ (s.fault = true → (releaseB s g).fault = true) := by
  unfold releaseB; split <;> simp

theorem releasesB_frame (l : List Nat) (s : State) : (l.foldl releaseB s).tl = s.tl ∧ (l.foldl releaseB s).views = s.views ∧
    (l.foldl releaseB s).nextT = s.nextT ∧ (s.fault = true → (l.foldl releaseB s).fault = true) := by
  induction l generalizing s with
  | nil => exact ⟨rfl, rfl, rfl, id⟩
  | cons a l ih =>
    obtain ⟨a1, a2, a3, a4⟩ := releaseB_frame s a
    obtain ⟨b1, b2, b3, b4⟩ := ih (releaseB s a)
    exact ⟨b1.trans a1, b2.trans a2, b3.trans a3, fun hf => b4 (a4 hf)⟩

theorem reap_frame (b s : State) : (reap b s).tl = s.tl ∧ (reap b s).views = s.views ∧ (reap b s).nextT = s.nextT ∧
    (s.fault = true → (reap b s).fault = true) := releasesB_frame _ s

theorem builds_frame (l : List Nat) (s : State) : (l.foldl build s).tl = s.tl ∧ (l.foldl build s).views = s.views ∧
    (l.foldl build s).nextT = s.nextT := by
  obtain ⟨bu, bl, e, _⟩ := builds l s
  rw [e]; exact ⟨rfl, rfl, rfl⟩

theorem releaseT_tl {s : State} {t : Nat} (h : s.tl t = 1) : (releaseT s t).tl = Function.update s.tl t 0 ∧
    (releaseT s t).nextT = s.nextT := by
  unfold releaseT
  rw [if_neg (by omega), h]
  simp only [Nat.sub_self, Function.update_self, if_true]
  exact ⟨(releasesB_frame _ _).1, (releasesB_frame _ _).2.2.1⟩

/-- Every view's Embree scene that exists belongs to a view. -/
def State.owned (s : State) : Prop := ∀ t, s.tl t ≠ 0 → ∃ v ∈ s.views, v.tlas = t

theorem owned_step {s : State} (h : Inv s) (ho : s.owned) (o : Op) (hp : o.plain) (hs : o.sound) : (step s o).owned := by
  cases o with
  | copy i => exact hp.elim
  | assign i j => exact hp.elim
  | viewFails i => exact hs.elim
  | render i => rw [inv_render h]; exact ho
  | scene => exact ho
  | add i => simp only [step]; split <;> exact ho
  | forget i g =>
    simp only [step]
    split
    · exact ho
    · intro t ht
      rw [(reap_frame _ _).1] at ht
      rw [(reap_frame _ _).2.1]; exact ho t ht
  | dropScene i =>
    intro t ht
    simp only [step] at ht ⊢
    rw [(reap_frame _ _).1] at ht
    rw [(reap_frame _ _).2.1]; exact ho t ht
  | view i uses =>
    simp only [step]
    split
    · exact ho
    · split
      · intro t ht
        obtain ⟨e1, e2, e3⟩ := builds_frame uses s
        simp only [e1, e2, e3, Function.update_apply] at ht ⊢
        by_cases htn : t = s.nextT
        · exact ⟨⟨s.nextT, uses⟩, by simp, htn.symm⟩
        · rw [if_neg htn] at ht
          obtain ⟨v, hv, e⟩ := ho t ht
          exact ⟨v, List.mem_append_left _ hv, e⟩
      · exact ho
  | dropView i =>
    simp only [step]
    split
    · exact ho
    · rename_i v hv
      have hm := List.mem_of_getElem? hv
      intro t ht
      rw [(reap_frame _ _).1] at ht
      rw [(reap_frame _ _).2.1]
      simp only [(releaseT_tl (h.one v hm)).1, Function.update_apply] at ht ⊢
      by_cases htv : t = v.tlas
      · rw [if_pos htv] at ht; exact absurd rfl ht
      · rw [if_neg htv] at ht
        obtain ⟨w, hw, e⟩ := ho t ht
        refine ⟨w, ?_, e⟩
        obtain ⟨j, hj, ew⟩ := List.mem_iff_getElem.mp hw
        have hij : j ≠ i := by
          rintro rfl
          have : w = v := by
            have h1 := (List.getElem?_eq_some_iff.mp hv).2
            rw [← ew, ← h1]
          exact htv (by rw [← e, this])
        exact List.mem_eraseIdx_iff_getElem?.mpr ⟨j, hij, by rw [← ew]; exact List.getElem?_eq_getElem hj⟩

/-- An Embree scene nobody owns. -/
def State.orphan (s : State) (t : Nat) : Prop := t < s.nextT ∧ s.tl t = 1 ∧ ∀ v ∈ s.views, v.tlas ≠ t

theorem orphan_step {s : State} (h : Inv s) {t : Nat} (ho : s.orphan t) (o : Op) (hp : o.plain) : (step s o).orphan t := by
  obtain ⟨h1, h2, h3⟩ := ho
  cases o with
  | copy i => exact hp.elim
  | assign i j => exact hp.elim
  | render i => rw [inv_render h]; exact ⟨h1, h2, h3⟩
  | scene => exact ⟨h1, h2, h3⟩
  | add i => simp only [step]; split <;> exact ⟨h1, h2, h3⟩
  | viewFails i =>
    simp only [step]
    split
    · exact ⟨h1, h2, h3⟩
    · exact ⟨Nat.lt_succ_of_lt h1, by simp only; rw [Function.update_of_ne (by omega)]; exact h2, h3⟩
  | forget i g =>
    simp only [step]
    split
    · exact ⟨h1, h2, h3⟩
    · unfold State.orphan
      obtain ⟨e1, e2, e3, _⟩ := reap_frame s { s with scenes := s.scenes.set i (List.filter (fun x => decide (x ≠ g)) _) }
      rw [e1, e2, e3]; exact ⟨h1, h2, h3⟩
  | dropScene i =>
    unfold State.orphan
    simp only [step]
    obtain ⟨e1, e2, e3, _⟩ := reap_frame s { s with scenes := s.scenes.eraseIdx i }
    rw [e1, e2, e3]; exact ⟨h1, h2, h3⟩
  | view i uses =>
    simp only [step]
    split
    · exact ⟨h1, h2, h3⟩
    · split
      · obtain ⟨e1, e2, e3⟩ := builds_frame uses s
        unfold State.orphan
        simp only [e1, e2, e3]
        refine ⟨by omega, by rw [Function.update_of_ne (by omega)]; exact h2, ?_⟩
        intro v hv
        rcases List.mem_append.mp hv with hv | hv
        · exact h3 v hv
        · simp only [List.mem_singleton] at hv; subst hv; simp only; omega
      · exact ⟨h1, h2, h3⟩
  | dropView i =>
    simp only [step]
    split
    · exact ⟨h1, h2, h3⟩
    · rename_i v hv
      have hm := List.mem_of_getElem? hv
      obtain ⟨e1, e2, e3, _⟩ := reap_frame s { releaseT s v.tlas with views := s.views.eraseIdx i }
      obtain ⟨f1, f2⟩ := releaseT_tl (h.one v hm)
      unfold State.orphan
      rw [e1, e2, e3]
      simp only [f1, f2]
      exact ⟨h1, by rw [Function.update_of_ne (h3 v hm).symm]; exact h2, fun w hw => h3 w (List.mem_of_mem_eraseIdx hw)⟩

/-! ## Theorems -/

/-- C158 in full: whatever a program does with scenes and views, no freed memory is used or freed again, and what nobody
holds any more is freed. -/
def C158_full : Prop := ∀ h : List Op, (run h).fault = false ∧
  (∀ t, (run h).tl t ≠ 0 → ∃ v ∈ (run h).views, v.tlas = t) ∧ ∀ g, (run h).bl g ≠ 0 → (run h).held g

/-- **C158 (partial), nothing dangles.** As long as no view is copied, moved or assigned: scenes, geometries and views may end
in any order, and every view that exists can be rendered, also after its scene or its geometries were deleted; nothing is
freed twice. -/
theorem C158_partial (h : List Op) (hp : ∀ o ∈ h, o.plain) :
    (run h).fault = false ∧ ∀ i, (run (h ++ [.render i])).fault = false := by
  have hi := inv_run h hp
  refine ⟨hi.ok, fun i => ?_⟩
  rw [run_snoc, inv_render hi]; exact hi.ok

/-- **C158 (partial), nothing stays.** As long as no view is copied, moved or assigned: the Embree scene of a geometry is freed
once no scene and no view holds the geometry; if no construction of a view failed either, that of a view is freed with it. -/
theorem C158_freed_partial (h : List Op) (hp : ∀ o ∈ h, o.plain) :
    (∀ g, (run h).bl g ≠ 0 → (run h).held g) ∧
      ((∀ o ∈ h, o.sound) → ∀ t, (run h).tl t ≠ 0 → ∃ v ∈ (run h).views, v.tlas = t) := by
  have hi := inv_run h hp
  constructor
  · intro g hg
    by_contra hn
    have hc := hi.count g
    rw [if_neg (fun hh => hn hh.2)] at hc
    have : (run h).shown g = 0 := by
      unfold State.shown
      apply List.sum_eq_zero
      intro n hn'
      obtain ⟨v, hv, rfl⟩ := List.mem_map.mp hn'
      exact List.count_eq_zero.mpr fun hgv => hn (.inr ⟨v, hv, hgv⟩)
    omega
  · intro hs
    unfold run at *
    suffices ∀ (h : List Op) (s : State), Inv s → s.owned → (∀ o ∈ h, o.plain) → (∀ o ∈ h, o.sound) → (h.foldl step s).owned from
      this h {} inv_init (by intro t ht; exact absurd rfl ht) hp hs
    clear hi hp hs h
    intro h
    induction h with
    | nil => intro s _ ho _ _; exact ho
    | cons o h ih =>
      intro s hi ho hp hs
      exact ih _ (inv_step hi o (hp o List.mem_cons_self))
        (owned_step hi ho o (hp o List.mem_cons_self) (hs o List.mem_cons_self))
        (fun o' ho' => hp o' (List.mem_cons_of_mem _ ho')) (fun o' ho' => hs o' (List.mem_cons_of_mem _ ho'))

/-- **C158, copies (violated).** After any history, a copy of any view is unusable once the original ends: rendering it uses
freed memory, and so does its own end. -/
theorem C158_violated_copy (h : List Op) (hp : ∀ o ∈ h, o.plain) (i : Nat) (hv : i < (run h).views.length) :
    (run (h ++ [.copy i] ++ [.dropView i] ++ [.render ((run h).views.length - 1)])).fault = true ∧
      (run (h ++ [.copy i] ++ [.dropView i] ++ [.dropView ((run h).views.length - 1)])).fault = true := by
  have hi := inv_run h hp
  set s := run h with hs
  set v := s.views[i] with hvd
  have e1 : s.views[i]? = some v := List.getElem?_eq_getElem hv
  have hm : v ∈ s.views := List.getElem_mem hv
  have s1 : run (h ++ [.copy i]) = { s with views := s.views ++ [v] } := by
    rw [run_snoc, ← hs]; simp only [step, e1]
  set s2 := run (h ++ [.copy i] ++ [.dropView i]) with hs2
  have e2 : s2 = reap { s with views := s.views ++ [v] } { releaseT { s with views := s.views ++ [v] } v.tlas with
      views := (s.views ++ [v]).eraseIdx i } := by
    rw [hs2, run_snoc, s1]
    have : (s.views ++ [v])[i]? = some v := by rw [List.getElem?_append_left hv, e1]
    simp only [step, this]
  have htl : s2.tl v.tlas = 0 := by
    rw [e2, (reap_frame _ _).1]
    simp only
    rw [(releaseT_tl (s := { s with views := s.views ++ [v] }) (hi.one v hm)).1, Function.update_self]
  have hvs : s2.views[s.views.length - 1]? = some v := by
    rw [e2, (reap_frame _ _).2.1]
    simp only
    rw [List.getElem?_eraseIdx_of_ge (by omega)]
    rw [Nat.sub_add_cancel (by omega)]
    simp
  constructor
  · rw [run_snoc, ← hs2]
    simp only [step, hvs, htl, true_or, if_true]
  · rw [run_snoc, ← hs2]
    simp only [step, hvs]
    apply (reap_frame _ _).2.2.2
    simp only [releaseT, htl, if_true]

/-- **C158, assignments (violated).** `a = SceneView(...)`, after any history: the new view is freed at the end of the
statement, and rendering `a` uses freed memory; the old view's Embree scene is nobody's. -/
theorem C158_violated_assign (h : List Op) (hp : ∀ o ∈ h, o.plain) (i : Nat) (n : Nat) (hn : (run h).views.length = n + 1)
    (hin : i < n) :
    (run (h ++ [.assign i n] ++ [.dropView n] ++ [.render i])).fault = true ∧
      ∃ t, (run (h ++ [.assign i n] ++ [.dropView n])).orphan t := by
  have hi := inv_run h hp
  set s := run h with hs
  have hv' : i < s.views.length := by omega
  have hw' : n < s.views.length := by omega
  set v := s.views[i] with hvd
  set w := s.views[n] with hwd
  have e1 : s.views[i]? = some v := List.getElem?_eq_getElem hv'
  have e2 : s.views[n]? = some w := List.getElem?_eq_getElem hw'
  have mv : v ∈ s.views := List.getElem_mem hv'
  have mw : w ∈ s.views := List.getElem_mem hw'
  have hne : ∀ x ∈ s.views.eraseIdx i, x.tlas ≠ v.tlas := fun x hx => eraseIdx_nodup_ne hi.distinct e1 hx
  have hwv : w.tlas ≠ v.tlas := hne w (List.mem_eraseIdx_iff_getElem?.mpr ⟨n, by omega, e2⟩)
  set s1 := run (h ++ [.assign i n]) with hs1
  have d1 : s1 = reap s { s with views := s.views.set i w } := by
    rw [hs1, run_snoc, ← hs]; simp only [step, e1, e2]
  obtain ⟨a1, a2, a3, _⟩ := reap_frame s { s with views := s.views.set i w }
  rw [← d1] at a1 a2 a3
  simp only at a1 a2 a3
  have v1 : s1.views[n]? = some w := by rw [a2, List.getElem?_set_ne (by omega), e2]
  set s2 := run (h ++ [.assign i n] ++ [.dropView n]) with hs2
  have d2 : s2 = reap s1 { releaseT s1 w.tlas with views := s1.views.eraseIdx n } := by
    rw [hs2, run_snoc, ← hs1]; simp only [step, v1]
  have ow : s1.tl w.tlas = 1 := by rw [a1]; exact hi.one w mw
  obtain ⟨b1, b2, b3, _⟩ := reap_frame s1 { releaseT s1 w.tlas with views := s1.views.eraseIdx n }
  rw [← d2] at b1 b2 b3
  simp only [(releaseT_tl ow).1, (releaseT_tl ow).2] at b1 b2 b3
  have vi : s2.views[i]? = some w := by
    rw [b2, List.getElem?_eraseIdx_of_lt hin, a2, List.getElem?_set_self hv']
  constructor
  · rw [run_snoc, ← hs2]
    have : s2.tl w.tlas = 0 := by rw [b1, Function.update_self]
    simp only [step, vi, this, true_or, if_true]
  · refine ⟨v.tlas, ?_, ?_, ?_⟩
    · rw [b3, a3]; exact hi.fresh v mv
    · rw [b1, Function.update_of_ne hwv.symm, a1]; exact hi.one v mv
    · intro x hx
      rw [b2, a2] at hx
      have hx' := List.mem_of_mem_eraseIdx hx
      rcases List.mem_or_eq_of_mem_set hx' with hx2 | rfl
      · obtain ⟨j, hj⟩ := List.mem_iff_getElem?.mp hx'
        by_cases hji : j = i
        · subst hji
          rw [List.getElem?_set_self hv'] at hj
          cases hj; exact hwv
        · rw [List.getElem?_set_ne (by omega)] at hj
          exact hne x (List.mem_eraseIdx_iff_getElem?.mpr ⟨j, hji, hj⟩)
      · exact hwv

/-- **C158, failures (violated).** A view whose construction throws while a geometry is prepared leaves its Embree scene
behind, whatever happens afterwards. -/
theorem C158_violated_failed (h k : List Op) (hp : ∀ o ∈ h, o.plain) (hk : ∀ o ∈ k, o.plain) (i : Nat)
    (hi' : i < (run h).scenes.length) : ∃ t, (run (h ++ .viewFails i :: k)).orphan t := by
  have hi := inv_run h hp
  have hi2 := inv_step hi (.viewFails i) trivial
  have ho : (step (run h) (.viewFails i)).orphan (run h).nextT := by
    have e1 : (run h).scenes[i]? = some (run h).scenes[i] := List.getElem?_eq_getElem hi'
    simp only [step, e1]
    exact ⟨Nat.lt_succ_self _, by simp, fun v hv => Nat.ne_of_lt (hi.fresh v hv)⟩
  refine ⟨(run h).nextT, ?_⟩
  have e : run (h ++ .viewFails i :: k) = k.foldl step (step (run h) (.viewFails i)) := by simp [run]
  rw [e]
  generalize step (run h) (.viewFails i) = s at hi2 ho
  clear e
  induction k generalizing s with
  | nil => exact ho
  | cons o k ih =>
    exact ih (fun o' ho' => hk o' (List.mem_cons_of_mem _ ho')) _ (inv_step hi2 o (hk o List.mem_cons_self))
      (orphan_step hi2 ho o (hk o List.mem_cons_self))

/-! ## Concrete histories -/

/-- a scene with two geometries and two views, one showing a geometry twice; then the scene ends -/
def exHist : List Op := [.scene, .add 0, .add 0, .view 0 [0, 1, 0], .view 0 [1], .forget 0 1, .dropScene 0]

example : (∀ o ∈ exHist, o.plain) ∧ (∀ o ∈ exHist, o.sound) := by
  constructor <;> intro o ho <;> simp [exHist] at ho <;> rcases ho with rfl | rfl | rfl | rfl | rfl | rfl | rfl <;> trivial

example : (run exHist).views.length = 2 ∧ (run exHist).bl 0 = 3 ∧ (run exHist).bl 1 = 3 ∧ (run exHist).scenes = [] := by decide

-- the views end: everything is freed
example : (run (exHist ++ [.dropView 0, .dropView 0])).bl 0 = 0 ∧ (run (exHist ++ [.dropView 0, .dropView 0])).bl 1 = 0 ∧
    (run (exHist ++ [.dropView 0, .dropView 0])).tl 0 = 0 ∧ (run (exHist ++ [.dropView 0])).bl 1 = 2 := by decide

example : (run (exHist ++ [.copy 0] ++ [.dropView 0] ++ [.render 1])).fault = true := by decide

theorem C158_violated : ¬ C158_full := by
  intro hf
  have h1 := (hf ([.scene, .view 0 []] ++ [.copy 0] ++ [.dropView 0] ++ [.render 0])).1
  have h2 := (C158_violated_copy [.scene, .view 0 []] (by
    intro o ho; simp at ho; rcases ho with rfl | rfl <;> trivial) 0 (by decide)).1
  have : (run [.scene, .view 0 []]).views.length - 1 = 0 := by decide
  rw [this] at h2
  rw [h1] at h2; cases h2

end Huira.Life
