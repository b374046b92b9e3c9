import Verif.Core.RotationModel

/-!
# Model of `huira::Transform`

Models `include/huira_impl/core/transform.ipp` and the defaults of `include/huira/core/transform.hpp`, in exact real
arithmetic. A `none` result stands for an exception thrown by the `Rotation` functions. Not modelled: `to_string`, the
precision-changing cast.
-/

namespace Huira.Xform

open V3 Rot

/-- Componentwise product, `glm` `a * b`. -/
def had (a b : V3) : V3 := ⟨a.x * b.x, a.y * b.y, a.z * b.z⟩

/-- `struct Transform` (transform.hpp 22-29). -/
@[ext] structure Transform where
  position : V3
  rotation : M3
  scale : V3
  velocity : V3
  angularVelocity : V3

/-- default member initialisers (transform.hpp 23-28) -/
def Transform.default : Transform := ⟨⟨0, 0, 0⟩, M3.one, ⟨1, 1, 1⟩, ⟨0, 0, 0⟩, ⟨0, 0, 0⟩⟩

namespace Transform

/-- `inverse` (transform.ipp 110-132); the scale has no zero component. -/
noncomputable def inverse (t : Transform) : Option Transform := do
  let r ← Rot.inverse t.rotation
  let s : V3 := ⟨1 / t.scale.x, 1 / t.scale.y, 1 / t.scale.z⟩
  return { position := r.mulVec (had (-t.position) s), rotation := r, scale := s,
           velocity := r.mulVec (had (-t.velocity) s), angularVelocity := r.mulVec (-t.angularVelocity) }

/-- `operator*` (transform.ipp 139-162). -/
noncomputable def compose (t b : Transform) : Option Transform := do
  let r ← Rot.compose t.rotation b.rotation
  return { position := t.position + t.rotation.mulVec (had t.scale b.position), rotation := r,
           scale := had t.scale b.scale,
           velocity := t.velocity + t.rotation.mulVec (had t.scale b.velocity) +
             cross t.angularVelocity (t.rotation.mulVec (had t.scale b.position)),
           angularVelocity := t.angularVelocity + t.rotation.mulVec b.angularVelocity }

/-- `apply_to_point` (transform.ipp 169-178). -/
noncomputable def applyPoint (t : Transform) (p : V3) : V3 := t.rotation.mulVec (had p t.scale) + t.position

/-- `apply_to_direction` (transform.ipp 185-193). -/
noncomputable def applyDirection (t : Transform) (d : V3) : V3 := t.rotation.mulVec (had d t.scale)

/-- `apply_to_velocity` (transform.ipp 200-209). -/
noncomputable def applyVelocity (t : Transform) (v : V3) : V3 := t.rotation.mulVec (had v t.scale) + t.velocity

/-- `apply_to_angular_velocity` (transform.ipp 216-222). -/
noncomputable def applyAngularVelocity (t : Transform) (w : V3) : V3 := t.rotation.mulVec w + t.angularVelocity

/-- `velocity_of_point` (transform.ipp 229-238). -/
noncomputable def velocityOfPoint (t : Transform) (p : V3) : V3 := t.velocity + cross t.angularVelocity (p - t.position)

/-- `velocity_of_local_point` (transform.ipp 245-252). -/
noncomputable def velocityOfLocalPoint (t : Transform) (p : V3) : V3 := t.velocityOfPoint (t.applyPoint p)

/-- `Vec4` -/
@[ext] structure V4 where
  x : ℝ
  y : ℝ
  z : ℝ
  w : ℝ

/-- `to_matrix` (transform.ipp 30-53): the four columns; `result[i][j]` is column `i`, row `j`. -/
def toMatrix (t : Transform) : V4 × V4 × V4 × V4 :=
  let col (c : V3) (p : ℝ) : V4 := ⟨c.x * t.scale.x, c.y * t.scale.y, c.z * t.scale.z, p⟩
  (col t.rotation.c0 t.position.x, col t.rotation.c1 t.position.y, col t.rotation.c2 t.position.z, ⟨0, 0, 0, 1⟩)

/-- `glm` product of a 4x4 matrix with a column vector. -/
noncomputable def mulVec4 (m : V4 × V4 × V4 × V4) (v : V4) : V4 :=
  ⟨v.x * m.1.x + v.y * m.2.1.x + v.z * m.2.2.1.x + v.w * m.2.2.2.x,
   v.x * m.1.y + v.y * m.2.1.y + v.z * m.2.2.1.y + v.w * m.2.2.2.y,
   v.x * m.1.z + v.y * m.2.1.z + v.z * m.2.2.1.z + v.w * m.2.2.2.z,
   v.x * m.1.w + v.y * m.2.1.w + v.z * m.2.2.1.w + v.w * m.2.2.2.w⟩

/-- `to_embree` (transform.ipp 59-90), the fields that are not constant zero; casts to float not modelled. -/
noncomputable def toEmbree (t : Transform) : V3 × V3 × Quat := (t.scale, t.position, Rot.toQuat t.rotation)

end Transform
end Huira.Xform
