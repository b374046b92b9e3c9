import Mathlib.Data.List.Basic
import Mathlib.Logic.Function.Basic
set_option linter.unusedSimpArgs false
/-!
# C160: what a view keeps of its scene

`SceneView`'s constructor (scene_view.ipp 26-144) copies poses, stars and the pointer to the background, which the scene never
writes through (scene.ipp, `set_background_radiance` makes a new image); it shares the camera model, the primitives with their
materials, and the unresolved objects, in which it also stores their irradiance (139-141). The renderer reads camera, materials
and irradiances when it renders (renderer.ipp 694; `camera_model_`, `primitives_`).

The model says which of these a later call reaches. `P` poses, `M` material settings, `K` irradiances, `O` camera settings but the
sensor's rotation, `R` sensor rotations, `B` backgrounds, `S` stars; the light a resolved object sends is a function of its pose
(the lights' poses are part of `P`).
-/
namespace Huira.Snap

variable {P M K O R B S : Type}

/-- The scene and the objects it shares with views. -/
structure World (P M K O R B S : Type) where
  /-- poses of nodes -/
  pose : Nat → P
  /-- instances of primitives: node and material (a primitive's material cannot be exchanged: primitive_handle.hpp) -/
  bodies : List (Nat × Nat)
  /-- instances of unresolved objects: node and object -/
  points : List (Nat × Nat)
  material : Nat → M
  /-- `irradiance_` of unresolved objects (unresolved_object.hpp 46) -/
  irradiance : Nat → K
  /-- `resolve_irradiance` of spheres, asteroids, emitters; `none`: the base class, which does nothing
  (unresolved_object.ipp 102-120) -/
  law : Nat → Option (P → K)
  camera : O
  turned : R
  observer : Nat
  background : B
  stars : List S

/-- What a view holds itself. -/
structure View (P R B S : Type) where
  observer : P × R
  bodies : List (P × Nat)
  points : List (P × Nat)
  background : B
  stars : List S

/-- `resolve_irradiance` of one instance (scene_view.ipp 136-141) -/
def resolve (w : World P M K O R B S) (x : P × Nat) : World P M K O R B S :=
  match w.law x.2 with
  | none => w
  | some f => { w with irradiance := Function.update w.irradiance x.2 (f x.1) }

/-- the view made (scene_view.ipp 26-144) -/
def captured (w : World P M K O R B S) : View P R B S where
  observer := (w.pose w.observer, w.turned)
  bodies := w.bodies.map fun x => (w.pose x.1, x.2)
  points := w.points.map fun x => (w.pose x.1, x.2)
  background := w.background
  stars := w.stars

/-- the world after a view was made -/
def viewed (w : World P M K O R B S) : World P M K O R B S := (captured w).points.foldl resolve w

/-- Calls on the scene and on handles. -/
inductive Op (P M K O R B S : Type) where
  | move (node : Nat) (p : P)
  | add (body : Nat × Nat)
  | addPoint (point : Nat × Nat)
  | delete (node : Nat)
  | background (b : B)
  | stars (l : List S)
  /-- `set_sensor_rotation` -/
  | turn (r : R)
  /-- every other setter of the camera's handle -/
  | camera (o : O)
  /-- the setters of a material's handle -/
  | material (m : Nat) (x : M)
  /-- `set_irradiance` of an unresolved object's handle -/
  | irradiance (u : Nat) (k : K)
  /-- another view of the scene -/
  | view

def step (w : World P M K O R B S) : Op P M K O R B S → World P M K O R B S
  | .move n p => { w with pose := Function.update w.pose n p }
  | .add b => { w with bodies := w.bodies ++ [b] }
  | .addPoint b => { w with points := w.points ++ [b] }
  | .delete n => { w with bodies := w.bodies.filter (·.1 ≠ n), points := w.points.filter (·.1 ≠ n) }
  | .background b => { w with background := b }
  | .stars l => { w with stars := l }
  | .turn r => { w with turned := r }
  | .camera o => { w with camera := o }
  | .material m x => { w with material := Function.update w.material m x }
  | .irradiance u k => { w with irradiance := Function.update w.irradiance u k }
  | .view => viewed w

/-! ## What a picture shows -/

/-- Everything a picture is made from. -/
structure Picture (P M K O R B S : Type) where
  camera : O
  observer : P × R
  bodies : List (P × M)
  points : List (P × K)
  background : B
  stars : List S

/-- what the renderer reads, from a view in the world as it is -/
def shows (w : World P M K O R B S) (v : View P R B S) : Picture P M K O R B S where
  camera := w.camera
  observer := v.observer
  bodies := v.bodies.map fun x => (x.1, w.material x.2)
  points := v.points.map fun x => (x.1, w.irradiance x.2)
  background := v.background
  stars := v.stars

/-- The calls that reach into a view: settings of the camera, of a material or of a point source it shows, and another view
that shows one of its resolved point sources. -/
def Op.reaches (w : World P M K O R B S) (v : View P R B S) : Op P M K O R B S → Prop
  | .camera _ => True
  | .material m _ => ∃ x ∈ v.bodies, x.2 = m
  | .irradiance u _ => ∃ x ∈ v.points, x.2 = u
  | .view => ∃ x ∈ v.points, (w.law x.2).isSome ∧ ∃ y ∈ w.points, y.2 = x.2
  | _ => False

/-! ## Lemmas -/

theorem resolve_frame (w : World P M K O R B S) (x : P × Nat) : (resolve w x).material = w.material ∧
    (resolve w x).camera = w.camera ∧ (resolve w x).law = w.law ∧
    (∀ u, (u ≠ x.2 ∨ (w.law u) = none) → (resolve w x).irradiance u = w.irradiance u) := by
  unfold resolve
  split
  · exact ⟨rfl, rfl, rfl, fun _ _ => rfl⟩
  · rename_i f hf
    refine ⟨rfl, rfl, rfl, fun u hu => ?_⟩
    apply Function.update_of_ne
    rintro rfl
    rcases hu with hu | hu
    · exact hu rfl
    · rw [hf] at hu; cases hu

theorem resolves_frame (l : List (P × Nat)) (w : World P M K O R B S) : (l.foldl resolve w).material = w.material ∧
    (l.foldl resolve w).camera = w.camera ∧ (l.foldl resolve w).law = w.law ∧
    (∀ u, ((∀ x ∈ l, x.2 ≠ u) ∨ w.law u = none) → (l.foldl resolve w).irradiance u = w.irradiance u) := by
  induction l generalizing w with
  | nil => exact ⟨rfl, rfl, rfl, fun _ _ => rfl⟩
  | cons a l ih =>
    obtain ⟨a1, a2, a3, a4⟩ := resolve_frame w a
    obtain ⟨b1, b2, b3, b4⟩ := ih (resolve w a)
    refine ⟨b1.trans a1, b2.trans a2, b3.trans a3, fun u hu => ?_⟩
    refine (b4 u ?_).trans (a4 u ?_)
    · rcases hu with hu | hu
      · exact .inl fun x hx => hu x (List.mem_cons_of_mem _ hx)
      · right; rw [a3]; exact hu
    · rcases hu with hu | hu
      · exact .inl (hu a List.mem_cons_self).symm
      · exact .inr hu

/-- the last instance of an object decides its irradiance -/
theorem resolves_last (l : List (P × Nat)) (w : World P M K O R B S) (x : P × Nat) (f : P → K) (hf : w.law x.2 = some f) :
    ((l ++ [x]).foldl resolve w).irradiance x.2 = f x.1 := by
  rw [List.foldl_append]
  have h := (resolves_frame l w).2.2.1
  simp only [List.foldl_cons, List.foldl_nil, resolve, h, hf, Function.update_self]

theorem shows_step (w : World P M K O R B S) (v : View P R B S) (o : Op P M K O R B S) (h : ¬ o.reaches w v) :
    shows (step w o) v = shows w v := by
  have key : ∀ w' : World P M K O R B S, w'.camera = w.camera → (∀ x ∈ v.bodies, w'.material x.2 = w.material x.2) →
      (∀ x ∈ v.points, w'.irradiance x.2 = w.irradiance x.2) → shows w' v = shows w v := by
    intro w' h1 h2 h3
    unfold shows
    rw [h1]
    congr 1
    · exact List.map_congr_left fun x hx => by rw [h2 x hx]
    · exact List.map_congr_left fun x hx => by rw [h3 x hx]
  cases o with
  | camera o => exact (h trivial).elim
  | material m x =>
    refine key _ rfl (fun y hy => ?_) (fun _ _ => rfl)
    exact Function.update_of_ne (fun e => h ⟨y, hy, e⟩) _ _
  | irradiance u k =>
    refine key _ rfl (fun _ _ => rfl) (fun y hy => ?_)
    exact Function.update_of_ne (fun e => h ⟨y, hy, e⟩) _ _
  | view =>
    obtain ⟨a1, a2, _, a4⟩ := resolves_frame (captured w).points w
    refine key _ a2 (fun y _ => congrFun a1 _) (fun y hy => a4 _ ?_)
    by_cases hl : w.law y.2 = none
    · exact .inr hl
    · left
      intro x hx e
      simp only [captured, List.mem_map] at hx
      obtain ⟨z, hz, rfl⟩ := hx
      exact h ⟨y, hy, Option.isSome_iff_ne_none.mpr hl, z, hz, e⟩
  | _ => rfl

/-! ## Theorems -/

/-- no call of the history reaches into the view -/
def Untouched (v : View P R B S) : World P M K O R B S → List (Op P M K O R B S) → Prop
  | _, [] => True
  | w, o :: h => ¬ o.reaches w v ∧ Untouched v (step w o) h

/-- C160 in full: whatever is done to the scene after a view was made, the picture of the view is that of its making. -/
def C160_full (P M K O R B S : Type) : Prop := ∀ (w : World P M K O R B S) (h : List (Op P M K O R B S)),
  shows (h.foldl step (viewed w)) (captured w) = shows (viewed w) (captured w)

/-- **C160 (partial), what a view keeps.** After any history: the observer's pose and sensor rotation, the poses of all bodies
and point sources, the background and the stars of its picture are those of its making. -/
theorem C160_kept_partial (w : World P M K O R B S) (h : List (Op P M K O R B S)) :
    (shows (h.foldl step (viewed w)) (captured w)).observer = (w.pose w.observer, w.turned) ∧
    (shows (h.foldl step (viewed w)) (captured w)).bodies.map Prod.fst = w.bodies.map (fun x => w.pose x.1) ∧
    (shows (h.foldl step (viewed w)) (captured w)).points.map Prod.fst = w.points.map (fun x => w.pose x.1) ∧
    (shows (h.foldl step (viewed w)) (captured w)).background = w.background ∧
    (shows (h.foldl step (viewed w)) (captured w)).stars = w.stars := by
  refine ⟨rfl, ?_, ?_, rfl, rfl⟩ <;> simp [shows, captured, Function.comp_def]

/-- **C160 (partial).** The picture of a view is that of its making after every history of moving, adding and deleting objects,
new backgrounds, stars and sensor rotations, settings of materials and point sources it does not show, and further views that
show none of its resolved point sources. -/
theorem C160_partial (w : World P M K O R B S) (h : List (Op P M K O R B S)) (hu : Untouched (captured w) (viewed w) h) :
    shows (h.foldl step (viewed w)) (captured w) = shows (viewed w) (captured w) := by
  suffices ∀ (h : List (Op P M K O R B S)) (u : World P M K O R B S), Untouched (captured w) u h →
      shows (h.foldl step u) (captured w) = shows u (captured w) from this h _ hu
  intro h
  induction h with
  | nil => intro u _; rfl
  | cons o h ih => intro u hu; exact (ih _ hu.2).trans (shows_step u _ o hu.1)

/-- **C160, the camera (violated).** A new setting of the camera changes every view made before it, while the rotation of its
sensor does not. -/
theorem C160_violated_camera (w : World P M K O R B S) (o : O) (r : R) :
    (shows ([.camera o, .turn r].foldl step (viewed w)) (captured w)).camera = o ∧
      (shows ([.camera o, .turn r].foldl step (viewed w)) (captured w)).observer.2 = w.turned := ⟨rfl, rfl⟩

/-- **C160, materials (violated).** So does a new setting of a material, wherever the view shows it. -/
theorem C160_violated_material (w : World P M K O R B S) (m : Nat) (x : M) (n : Nat) (hm : (n, m) ∈ w.bodies) :
    (w.pose n, x) ∈ (shows (step (viewed w) (.material m x)) (captured w)).bodies := by
  simp only [shows, captured, step, List.mem_map]
  exact ⟨(w.pose n, m), ⟨(n, m), hm, rfl⟩, by simp⟩

/-- **C160, other views (violated).** A resolved point source that was moved and then seen by a second view has, in the first
view too, the irradiance of its new place at its old place. -/
theorem C160_violated_view (w : World P M K O R B S) (n u : Nat) (p : P) (f : P → K) (hl : w.law u = some f)
    (hp : w.points = [(n, u)]) :
    (shows (viewed w) (captured w)).points = [(w.pose n, f (w.pose n))] ∧
      (shows ([.move n p, .view].foldl step (viewed w)) (captured w)).points = [(w.pose n, f p)] := by
  have h1 : viewed w = { w with irradiance := Function.update w.irradiance u (f (w.pose n)) } := by
    simp [viewed, captured, hp, resolve, hl]
  constructor
  · rw [h1]; simp [shows, captured, hp]
  · rw [h1]
    simp [shows, captured, hp, step, viewed, resolve, hl]

/-- a scene: two bodies of one material, an emitter (inverse square of its distance) and a plain point source -/
def exWorld : World Nat Nat Nat Nat Nat Nat Nat where
  pose n := n + 1
  bodies := [(1, 7), (2, 7)]
  points := [(3, 0), (4, 1)]
  material m := m
  irradiance _ := 5
  law u := if u = 0 then some fun p => 1000 / (p * p) else none
  camera := 50
  turned := 0
  observer := 0
  background := 3
  stars := [1, 2]

def exLater : List (Op Nat Nat Nat Nat Nat Nat Nat) :=
  [.move 1 90, .move 3 90, .turn 5, .background 4, .stars [], .material 8 1, .irradiance 6 1, .delete 2, .delete 3, .view]

example : Untouched (captured exWorld) (viewed exWorld) exLater := by
  simp [Untouched, exLater, Op.reaches, captured, exWorld, viewed, resolve, step, Function.update_apply]

example : (shows (viewed exWorld) (captured exWorld)).points = [(4, 62), (5, 5)] := by decide

theorem C160_violated : ¬ C160_full Nat Nat Nat Nat Nat Nat Nat := by
  intro hf
  have h1 := congrArg Picture.camera (hf exWorld [.camera 51])
  have h2 : (51 : Nat) = 50 := h1
  omega

end Huira.Snap
