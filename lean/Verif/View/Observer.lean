import Verif.Core.NodeApparent
import Verif.Camera.GeometryProps
set_option linter.unusedSimpArgs false
/-!
# Model of the camera's frame of a scene view (C143, C144, C145)

Models how the constructor of `SceneView` (`include/huira_impl/scene/scene_view.ipp` 54-68, 117-137) and its traversals (395-408,
553-573) bring objects and stars into the frame of the camera, in exact real arithmetic (the code rounds to single precision at the
end): the pose of the camera's instance, the rotation of the sensor (`CameraModel::sensor_rotation`), the inverse, the apparent
transforms of the objects and the transforms inside models.  One temporal sample is modelled; the code treats each sample alike.
Which objects are collected is `View/CollectModel`.
-/
namespace Huira.Observer
noncomputable section
open V3 Rot Xform World Transform

/-! ### Model -/

/-- A camera model: the lens and the angle stored in its sensor (`config_.rotation`, sensor_model.hpp 43), in radians. -/
structure Cam where
  lens : Camera.Lens
  rotation : ℝ

/-- `CameraModelHandle::set_sensor_rotation(angle)` (camera_handle.ipp 302-306, sensor_model.hpp 128). -/
def Cam.setRotation (c : Cam) (angle : ℝ) : Cam := { c with rotation := angle }

/-- `CameraModel::sensor_rotation()` (camera_model.ipp 276-281). -/
def Cam.sensorRotation (c : Cam) : Option M3 := setMatrix (rotZ c.rotation)

/-- The observer's transform (scene_view.ipp 58-61): the pose of the camera's instance, turned by the sensor's rotation. -/
def pose (node : Transform) (c : Cam) : Option Transform := do
  let s ← c.sensorRotation
  let r ← Rot.compose node.rotation s
  return { node with rotation := r }

/-- An object of the scene: its world transform at every light time (C10) and the local transforms of the nodes that lead to it inside
models, outermost first. -/
structure Object where
  state : ℝ → Transform
  path : List Transform

/-- The transform of an object in the frame of an observer (scene_view.ipp 398-408, 557-561). -/
def place (mode : ObsMode) (light tol : ℝ) (obs : Transform) (o : Object) : Option Transform := do
  let inv ← obs.inverse
  let app ← apparentTransform mode light tol o.state obs
  let t ← inv.compose app
  o.path.foldlM Transform.compose t

/-- Where the point `q` of an object is in the frame of the camera: what rays are traced against. -/
def pointInView (mode : ObsMode) (light tol : ℝ) (node : Transform) (c : Cam) (o : Object) (q : V3) : Option V3 := do
  let obs ← pose node c
  let t ← place mode light tol obs o
  return t.applyPoint q

/-- The direction of a star in the frame of the camera (scene_view.ipp 124-129). -/
def starInView (light : ℝ) (node : Transform) (c : Cam) (d : V3) : Option V3 := do
  let obs ← pose node c
  let a ← aberrate light d obs.velocity
  let r ← Rot.inverse obs.rotation
  return r.mulVec a

/-! ### Specification -/

/-- A direction turned by an angle about the optical axis. -/
def turnZ (a : ℝ) (v : V3) : V3 := ⟨Real.cos a * v.x - Real.sin a * v.y, Real.sin a * v.x + Real.cos a * v.y, v.z⟩

/-- The object's rotations are rotations (always the case, C63). -/
structure Object.Ok (o : Object) : Prop where
  state : ∀ t, IsRotation (o.state t).rotation
  path : ∀ l ∈ o.path, IsRotation l.rotation

/-! ### Lemmas -/

theorem rotZ_ortho (a : ℝ) : Ortho (rotZ a) := by
  have := Real.sin_sq_add_cos_sq a
  constructor <;> simp [rotZ, dot, cross] <;> nlinarith

theorem rotZ_mulVec (a : ℝ) (v : V3) : (rotZ a).mulVec v = turnZ a v := by
  ext <;> simp [rotZ, turnZ] <;> ring

theorem rotZ_transpose (a : ℝ) (v : V3) : (rotZ a).transpose.mulVec v = turnZ (-a) v := by
  ext <;> simp [rotZ, turnZ, M3.transpose] <;> ring

theorem turnZ_add (a b : ℝ) (v : V3) : turnZ a (turnZ b v) = turnZ (a + b) v := by
  ext <;> simp [turnZ, Real.cos_add, Real.sin_add] <;> ring

theorem turnZ_zero (v : V3) : turnZ 0 v = v := by ext <;> simp [turnZ]

theorem turnZ_inv (a : ℝ) (v w : V3) : turnZ (-a) v = w ↔ v = turnZ a w := by
  constructor
  · rintro rfl
    rw [turnZ_add]; simp [turnZ_zero]
  · rintro rfl
    rw [turnZ_add]; simp [turnZ_zero]

theorem transpose_mul_mulVec (a b : M3) (v : V3) : (a.mul b).transpose.mulVec v = b.transpose.mulVec (a.transpose.mulVec v) := by
  ext <;> simp [M3.mul, M3.transpose] <;> ring

theorem pose_eq (node : Transform) (c : Cam) (hn : IsRotation node.rotation) :
    pose node c = some { node with rotation := node.rotation.mul (rotZ c.rotation) } := by
  simp only [pose, Cam.sensorRotation, setMatrix_ortho (rotZ_ortho _), Option.bind_eq_bind, Option.bind_some,
    compose_eq hn.ortho (rotZ_ortho _)]
  rfl

/-- The apparent transform depends on the observer's position and velocity only. -/
theorem apparent_indep (mode : ObsMode) (light tol : ℝ) (state : ℝ → Transform) (o₁ o₂ : Transform)
    (hp : o₁.position = o₂.position) (hv : o₁.velocity = o₂.velocity) :
    apparentTransform mode light tol state o₁ = apparentTransform mode light tol state o₂ := by
  cases mode <;> simp [apparentTransform, hp, hv]

theorem apparent_rot (mode : ObsMode) (light tol : ℝ) (state : ℝ → Transform) (o g : Transform)
    (hs : ∀ t, IsRotation (state t).rotation) (h : apparentTransform mode light tol state o = some g) : IsRotation g.rotation := by
  cases mode
  · simp only [apparentTransform, Option.some.injEq] at h
    rw [← h]; exact hs _
  · simp only [apparentTransform, Option.some.injEq] at h
    rw [← h]; exact hs _
  · simp only [apparentTransform] at h
    cases ha : apparent light o.position o.velocity
        (state (geometric (fun t => (state t).position) o.position light tol).1).position with
    | none => simp [ha] at h
    | some p =>
      simp [ha] at h
      rw [← h]
      exact hs _

theorem mul_rot {a b : M3} (ha : IsRotation a) (hb : IsRotation b) : IsRotation (a.mul b) := (ha.ortho.mul hb.ortho).isRotation

theorem had_assoc (a b c : V3) : had (had a b) c = had a (had b c) := by ext <;> simp <;> ring

/-- Descending into a model from two placements that differ by an affine map of space keeps that difference. -/
theorem path_affine (L : V3 → V3) (c0 : V3) (hadd : ∀ u v, L (u + v) = L u + L v) :
    ∀ (path : List Transform) (t u : Transform), (∀ l ∈ path, IsRotation l.rotation) → IsRotation t.rotation → IsRotation u.rotation →
      t.position = L u.position + c0 →
      (∀ (w : M3) (v : V3), t.rotation.mulVec (w.mulVec (had t.scale v)) = L (u.rotation.mulVec (w.mulVec (had u.scale v)))) →
      ∃ t' u', path.foldlM Transform.compose t = some t' ∧ path.foldlM Transform.compose u = some u' ∧
        ∀ q, t'.applyPoint q = L (u'.applyPoint q) + c0 := by
  intro path
  induction path with
  | nil =>
    intro t u _ _ _ hp hw
    have hr : ∀ v, t.rotation.mulVec (had t.scale v) = L (u.rotation.mulVec (had u.scale v)) := by
      intro v
      have := hw M3.one v
      rwa [one_mulVec, one_mulVec] at this
    refine ⟨t, u, rfl, rfl, fun q => ?_⟩
    simp only [Transform.applyPoint, had_comm q, hr, hp, hadd]
    ext <;> simp <;> ring
  | cons l ls ih =>
    intro t u hl ht hu hp hw
    have hr : ∀ v, t.rotation.mulVec (had t.scale v) = L (u.rotation.mulVec (had u.scale v)) := by
      intro v
      have := hw M3.one v
      rwa [one_mulVec, one_mulVec] at this
    have hlr := hl l (by simp)
    obtain ⟨t1, e1, r1, p1, s1, -, -⟩ := compose_some ht hlr
    obtain ⟨u1, e2, r2, p2, s2, -, -⟩ := compose_some hu hlr
    obtain ⟨t', u', h1, h2, h3⟩ := ih t1 u1 (fun x hx => hl x (by simp [hx])) (by rw [r1]; exact mul_rot ht hlr)
      (by rw [r2]; exact mul_rot hu hlr) (by rw [p1, p2, hp, hr, hadd]; ext <;> simp <;> ring)
      (by
        intro w v
        rw [r1, r2, s1, s2, mul_mulVec, mul_mulVec, had_assoc, had_assoc,
          ← mul_mulVec l.rotation w (had t.scale _), ← mul_mulVec l.rotation w (had u.scale _)]
        exact hw _ _)
    exact ⟨t', u', by simp [List.foldlM_cons, e1, h1], by simp [List.foldlM_cons, e2, h2], h3⟩

theorem add_zero' (a : V3) : a + V3.zero = a := by ext <;> simp [V3.zero]

/-! ### C143 -/

/-- The placements of an object for two rotations of the sensor. -/
theorem place_turn (mode : ObsMode) (light tol : ℝ) (node : Transform) (lens : Camera.Lens) (a : ℝ) (o : Object) (q : V3)
    (hn : IsRotation node.rotation) (ho : o.Ok) :
    pointInView mode light tol node ⟨lens, a⟩ o q = (pointInView mode light tol node ⟨lens, 0⟩ o q).map (turnZ (-a)) := by
  have hz : node.rotation.mul (rotZ 0) = node.rotation := by
    apply ext_mulVec
    intro v
    rw [mul_mulVec, rotZ_mulVec, turnZ_zero]
  have hra := mul_rot hn (rotZ_ortho a).isRotation
  simp only [pointInView, pose_eq node _ hn, hz, Option.bind_eq_bind, Option.bind_some, place]
  rw [apparent_indep mode light tol o.state { node with rotation := node.rotation.mul (rotZ a) } node rfl rfl]
  obtain ⟨i1, e1, r1, s1, p1, -, -⟩ := inverse_some (a := { node with rotation := node.rotation.mul (rotZ a) }) hra
  obtain ⟨i2, e2, r2, s2, p2, -, -⟩ := inverse_some (a := node) hn
  simp only [e1, e2, Option.bind_some]
  cases hg : apparentTransform mode light tol o.state node with
  | none => rfl
  | some g =>
    have hgr := apparent_rot _ _ _ _ _ _ ho.state hg
    have h1 : IsRotation i1.rotation := by rw [r1]; exact transpose_ortho hra
    have h2 : IsRotation i2.rotation := by rw [r2]; exact transpose_ortho hn
    obtain ⟨t, f1, tr, tp, ts, -, -⟩ := compose_some h1 hgr
    obtain ⟨u, f2, ur, up, us, -, -⟩ := compose_some h2 hgr
    have key : ∀ v, i1.rotation.mulVec v = turnZ (-a) (i2.rotation.mulVec v) := by
      intro v
      rw [r1, r2, transpose_mul_mulVec, rotZ_transpose]
    have hs : i1.scale = i2.scale := by rw [s1, s2]
    have hadd : ∀ x y, turnZ (-a) (x + y) = turnZ (-a) x + turnZ (-a) y := by
      intro x y; ext <;> simp [turnZ] <;> ring
    obtain ⟨t', u', k1, k2, k3⟩ := path_affine (turnZ (-a)) V3.zero hadd o.path t u ho.path (by rw [tr]; exact mul_rot h1 hgr)
      (by rw [ur]; exact mul_rot h2 hgr)
      (by
        rw [tp, up, add_zero', hadd, key, hs, p1, p2]
        simp only [transpose_mul_mulVec, rotZ_transpose])
      (by intro w v; rw [tr, ur, ts, us, mul_mulVec, mul_mulVec, key, hs])
    simp only [Option.bind_some, f1, f2, k1, k2, Option.map_some, k3, add_zero']
    rfl

/-- **C143.**  Turning the sensor: every pixel looks in the direction it looked in before, turned by the angle about the optical axis.
A point of an object is on the ray of a pixel, at a given distance, after `set_sensor_rotation(a)` exactly if it was on that ray, turned,
at that distance, without; in every observation mode, inside models at any depth. -/
theorem C143_pixels (mode : ObsMode) (light tol : ℝ) (node : Transform) (c : Cam) (a : ℝ) (o : Object) (q : V3)
    (hn : IsRotation node.rotation) (ho : o.Ok) (u v dist : ℝ) :
    pointInView mode light tol node (c.setRotation a) o q = some (dist * c.lens.castRay u v) ↔
      pointInView mode light tol node (c.setRotation 0) o q = some (dist * turnZ a (c.lens.castRay u v)) := by
  have e : dist * turnZ a (c.lens.castRay u v) = turnZ a (dist * c.lens.castRay u v) := by
    ext <;> simp [turnZ] <;> ring
  rw [e]
  simp only [Cam.setRotation]
  rw [place_turn mode light tol node c.lens a o q hn ho]
  cases pointInView mode light tol node ⟨c.lens, 0⟩ o q with
  | none => simp
  | some p => simp only [Option.map_some, Option.some.injEq, turnZ_inv]

/-- **C143.**  The stars turn with everything else. -/
theorem C143_stars (light : ℝ) (node : Transform) (c : Cam) (a : ℝ) (d : V3) (hn : IsRotation node.rotation) :
    starInView light node (c.setRotation a) d = (starInView light node (c.setRotation 0) d).map (turnZ (-a)) := by
  have hz : node.rotation.mul (rotZ 0) = node.rotation := by
    apply ext_mulVec
    intro v
    rw [mul_mulVec, rotZ_mulVec, turnZ_zero]
  have hra := mul_rot hn (rotZ_ortho a).isRotation
  simp only [starInView, Cam.setRotation, pose_eq node _ hn, hz, Option.bind_eq_bind, Option.bind_some, inverse_eq hra.ortho,
    inverse_eq hn.ortho]
  cases aberrate light d node.velocity with
  | none => rfl
  | some w =>
    simp only [Option.bind_some, transpose_mul_mulVec, rotZ_transpose]
    rfl

/-- **C143.**  In the picture of a pinhole camera with square pixels, a turn of the sensor by `a` turns every image point about the
principal point by that angle: clockwise or anticlockwise as the camera looks along `z` or against it. -/
theorem C143_picture (mode : ObsMode) (light tol : ℝ) (node : Transform) (c : Cam) (a : ℝ) (o : Object) (q p : V3)
    (hn : IsRotation node.rotation) (ho : o.Ok) (hd : c.lens.distortion = none) (hf : c.lens.fx = c.lens.fy)
    (h0 : pointInView mode light tol node (c.setRotation 0) o q = some p) :
    ∃ p', pointInView mode light tol node (c.setRotation a) o q = some p' ∧
      let b := if c.lens.blender then a else -a
      let x := (c.lens.project p).1 - c.lens.cx
      let y := (c.lens.project p).2 - c.lens.cy
      c.lens.project p' = (c.lens.cx + (Real.cos b * x - Real.sin b * y), c.lens.cy + (Real.sin b * x + Real.cos b * y)) := by
  refine ⟨turnZ (-a) p, ?_, ?_⟩
  · have := place_turn mode light tol node c.lens a o q hn ho
    simp only [Cam.setRotation] at h0 ⊢
    rw [this, h0]; rfl
  · have hdep : c.lens.depth (turnZ (-a) p) = c.lens.depth p := by simp [Camera.Lens.depth, turnZ]
    simp only [Camera.Lens.project, hd, hdep]
    cases c.lens.blender <;> simp [turnZ, hf] <;> constructor <;> ring

/-- **C143.**  What is read back is the turn by the angle set last; a second setting replaces the first. -/
theorem C143_read_back (c : Cam) (a b : ℝ) :
    (∃ m, (c.setRotation a).sensorRotation = some m ∧ ∀ v, m.mulVec v = turnZ a v) ∧
    (c.setRotation b).setRotation a = c.setRotation a :=
  ⟨⟨rotZ a, setMatrix_ortho (rotZ_ortho a), rotZ_mulVec a⟩, rfl⟩

/-- A quarter turn turns `x` into `y`. -/
example : turnZ (Real.pi / 2) ⟨1, 0, 1⟩ = ⟨0, 1, 1⟩ := by simp [turnZ]

/-- A camera of 640 by 480 pixels. -/
def exCam : Cam := ⟨⟨500, 500, 320, 240, 640, 480, false, none⟩, 0⟩
/-- An object at rest ten units along `z`, with a part inside a model one unit along `x`. -/
def exObject : Object := ⟨fun _ => { Transform.default with position := ⟨0, 0, 10⟩ }, [{ Transform.default with position := ⟨1, 0, 0⟩ }]⟩

theorem exObject_ok : exObject.Ok := ⟨fun _ => ortho_one.isRotation, by simp [exObject]; exact ortho_one.isRotation⟩

theorem exObject_view : pointInView .trueState 299792458 1e-6 Transform.default (exCam.setRotation 0) exObject ⟨0, 0, 0⟩ =
    some ⟨1, 0, 10⟩ := by
  have hz : M3.one.mul (rotZ 0) = M3.one := by
    apply ext_mulVec; intro v; rw [mul_mulVec, rotZ_mulVec, turnZ_zero]
  have ho := ortho_one.isRotation
  have ht : M3.one.transpose = M3.one := by ext <;> simp [M3.transpose, M3.one]
  have hm : M3.one.mul M3.one = M3.one := by apply ext_mulVec; intro v; rw [mul_mulVec, one_mulVec]
  have hi : Rot.inverse M3.one = some M3.one := by rw [inverse_eq ho.ortho, ht]
  have hc : Rot.compose M3.one M3.one = some M3.one := by rw [compose_eq ho.ortho ho.ortho, hm]
  have hpose : pose Transform.default (exCam.setRotation 0) = some Transform.default := by
    rw [pose_eq Transform.default _ (by exact ho)]
    simp [Cam.setRotation, Transform.default, hz]
  simp only [pointInView, hpose, Option.bind_eq_bind, Option.bind_some, place]
  simp only [exObject, apparentTransform, Transform.default, Transform.inverse, hi, Option.bind_eq_bind, Option.bind_some,
    Transform.compose, hc, List.foldlM_cons, List.foldlM_nil, Transform.applyPoint, one_mulVec, Option.pure_def]
  congr 1
  ext <;> simp

/-- With the sensor turned by a quarter, the object seen beside the axis is seen below it. -/
example : ∃ p', pointInView .trueState 299792458 1e-6 Transform.default (exCam.setRotation (Real.pi / 2)) exObject ⟨0, 0, 0⟩ = some p' ∧
    exCam.lens.project p' = (320, 190) := by
  obtain ⟨p', h1, h2⟩ := C143_picture .trueState 299792458 1e-6 Transform.default exCam (Real.pi / 2) exObject ⟨0, 0, 0⟩ ⟨1, 0, 10⟩
    ortho_one.isRotation exObject_ok rfl rfl exObject_view
  refine ⟨p', h1, h2.trans ?_⟩
  simp [exCam, Camera.Lens.project, Camera.Lens.depth]
  norm_num

end
end Huira.Observer
