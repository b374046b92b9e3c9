import Verif.Camera.Geometry
import Mathlib.Analysis.SpecialFunctions.Trigonometric.Inverse
/-!
# Solid angles of the pixels

`compute_pixel_solid_angles_`, `triangle_solid_angle_`, `tangent_`, `get_projected_aperture_area`, `pixel_radiance_to_power`
(`include/huira_impl/cameras/camera_model.ipp` lines 532-565, 659-715). Values are exact reals; the rounding of the corner
pixels to single precision and of the angles to double precision is left out.
-/
namespace Huira.Camera
noncomputable section

/-- `tangent_` (camera_model.ipp 686-693) -/
def tangent (p0 p1 : V3) : V3 := V3.normalize (V3.cross (V3.cross p0 (p1 - p0)) p0)

/-- `triangle_solid_angle_` (camera_model.ipp 695-715) -/
def triangleSolidAngle (c0 c1 c2 : V3) : ℝ :=
  let angle0 := Real.arccos (V3.dot (tangent c0 c1) (tangent c0 c2))
  let angle1 := Real.arccos (V3.dot (tangent c1 c0) (tangent c1 c2))
  let angle2 := Real.arccos (V3.dot (tangent c2 c0) (tangent c2 c1))
  angle0 + angle1 + angle2 - Real.pi

/-- One entry of `pixel_solid_angles_` (camera_model.ipp 667-681) -/
def Lens.pixelSolidAngle (c : Lens) (x y : ℕ) : ℝ :=
  let c0 := V3.normalize (c.pixelToDirection x y)
  let c1 := V3.normalize (c.pixelToDirection (x + 1) y)
  let c2 := V3.normalize (c.pixelToDirection (x + 1) (y + 1))
  let c3 := V3.normalize (c.pixelToDirection x (y + 1))
  triangleSolidAngle c0 c1 c2 + triangleSolidAngle c0 c2 c3

/-- `get_projected_aperture_area` (camera_model.ipp 561-566) -/
def projectedArea (area : ℝ) (d : V3) : ℝ := area * |V3.dot (V3.normalize d) ⟨0, 0, 1⟩|

/-- `pixel_radiance_to_power` (camera_model.ipp 532-544) -/
def Lens.radianceToPower (c : Lens) (area : ℝ) (x y : ℕ) : ℝ :=
  c.pixelSolidAngle x y * projectedArea area (c.castRay x y)

end
end Huira.Camera
