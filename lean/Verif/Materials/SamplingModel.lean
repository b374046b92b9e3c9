import Verif.Num.Vec3
import Mathlib.Analysis.SpecialFunctions.Trigonometric.Basic
import Mathlib.Analysis.SpecialFunctions.Pow.Real

/-!
# Model of the sampling routines and the tangent frame

Models `include/huira/materials/sampling_utils.hpp` and `build_default_tangent_frame` of
`include/huira/render/interaction.hpp`.  `float` is the real numbers with exact arithmetic, `pi_v<float>` is π.
-/

namespace Huira.Sampling

noncomputable section
open Real Classical

/-- `struct HemisphereSample` (`sampling_utils.hpp` 11-14). -/
structure Sample where
  dir : V3
  pdf : ℝ

/-- `uniform_hemisphere` (`sampling_utils.hpp` 24-31). -/
def uniform (u1 u2 : ℝ) : Sample :=
  let z := u1
  let r := sqrt (max 0 (1 - z * z))
  let phi := 2 * π * u2
  ⟨⟨r * cos phi, r * sin phi, z⟩, 1 / (2 * π)⟩

/-- `cosine_hemisphere` (`sampling_utils.hpp` 37-45). -/
def cosine (u1 u2 : ℝ) : Sample :=
  let r := sqrt u1
  let phi := 2 * π * u2
  let z := sqrt (max 0 (1 - u1))
  ⟨⟨r * cos phi, r * sin phi, z⟩, z * (1 / π)⟩

/-- `power_cosine_hemisphere` (`sampling_utils.hpp` 51-58). -/
def powerCosine (n u1 u2 : ℝ) : Sample :=
  let z := u1 ^ (1 / (n + 1))
  let r := sqrt (max 0 (1 - z * z))
  let phi := 2 * π * u2
  ⟨⟨r * cos phi, r * sin phi, z⟩, (n + 1) / (2 * π) * z ^ n⟩

/-- `sine_hemisphere` (`sampling_utils.hpp` 66-76); `cbrt` is only applied to non-negative arguments here. -/
def sine (u1 u2 : ℝ) : Sample :=
  let cosT := (1 - u1) ^ ((1 : ℝ) / 3)
  let sinT := sqrt (max 0 (1 - cosT * cosT))
  let phi := 2 * π * u2
  let pdf := 2 * sinT / (π * π)
  ⟨⟨sinT * cos phi, sinT * sin phi, cosT⟩, max pdf 1e-8⟩

/-- `ggx_sample_half_vector` (`sampling_utils.hpp` 92-109). -/
def ggx (roughness u1 u2 : ℝ) : Sample :=
  let alpha := roughness * roughness
  let alpha2 := alpha * alpha
  let cos2 := (1 - u1) / (1 + (alpha2 - 1) * u1)
  let cosT := sqrt cos2
  let sinT := sqrt (max 0 (1 - cos2))
  let phi := 2 * π * u2
  let denom := cos2 * (alpha2 - 1) + 1
  let D := alpha2 / (π * denom * denom)
  ⟨⟨sinT * cos phi, sinT * sin phi, cosT⟩, max (D * cosT) 1e-8⟩

/-- The stretched view direction of `ggx_vndf_sample` (`sampling_utils.hpp` 127). -/
def vndfVh (wo : V3) (alpha : ℝ) : V3 := V3.normalize ⟨alpha * wo.x, alpha * wo.y, wo.z⟩

/-- The first tangent of `ggx_vndf_sample` (`sampling_utils.hpp` 129-131). -/
def vndfT1 (Vh : V3) : V3 :=
  let len2 := Vh.x * Vh.x + Vh.y * Vh.y
  if len2 > 1e-7 then (1 / sqrt len2) * (⟨-Vh.y, Vh.x, 0⟩ : V3) else ⟨1, 0, 0⟩

/-- The point on the disc (`sampling_utils.hpp` 134-139). -/
def vndfDisc (Vh : V3) (u1 u2 : ℝ) : ℝ × ℝ :=
  let r := sqrt u1
  let phi := 2 * π * u2
  let t1 := r * cos phi
  let t2 := r * sin phi
  let s := 0.5 * (1 + Vh.z)
  (t1, (1 - s) * sqrt (max 0 (1 - t1 * t1)) + s * t2)

/-- The normal before unstretching (`sampling_utils.hpp` 141-142). -/
def vndfNh (Vh : V3) (u1 u2 : ℝ) : V3 :=
  let T1 := vndfT1 Vh
  let T2 := V3.cross Vh T1
  let d := vndfDisc Vh u1 u2
  d.1 * T1 + d.2 * T2 + sqrt (max 0 (1 - d.1 * d.1 - d.2 * d.2)) * Vh

/-- `ggx_vndf_sample` (`sampling_utils.hpp` 122-165). -/
def vndf (wo : V3) (roughness u1 u2 : ℝ) : Sample :=
  let alpha := roughness * roughness
  let Vh := vndfVh wo alpha
  let Nh := vndfNh Vh u1 u2
  let h := V3.normalize ⟨alpha * Nh.x, alpha * Nh.y, max 0 Nh.z⟩
  let alpha2 := alpha * alpha
  let denom := h.z * h.z * (alpha2 - 1) + 1
  let D := alpha2 / (π * denom * denom)
  let cos2 := wo.z * wo.z
  let tan2 := (1 - cos2) / max cos2 1e-8
  let lambda := (-1 + sqrt (1 + alpha2 * tan2)) * 0.5
  let G1 := 1 / (1 + lambda)
  let woh := max (V3.dot wo h) 0
  ⟨h, max (D * G1 * woh / max |wo.z| 1e-8) 1e-8⟩

/-- `local_to_world` (`sampling_utils.hpp` 175-181). -/
def localToWorld (d t b n : V3) : V3 := d.x * t + d.y * b + d.z * n
/-- `world_to_local` (`sampling_utils.hpp` 186-193). -/
def worldToLocal (d t b n : V3) : V3 := ⟨V3.dot d t, V3.dot d b, V3.dot d n⟩

/-- `build_default_tangent_frame` (`interaction.hpp` 45-54); `neg` is the sign bit of the normal's z coordinate, which
`copysign` reads (it may be set when z is zero). -/
def tangentFrame (n : V3) (neg : Bool) : V3 × V3 :=
  let sign : ℝ := if neg then -1 else 1
  let a := -1 / (sign + n.z)
  let b := n.x * n.y * a
  (⟨1 + sign * n.x * n.x * a, sign * b, -sign * n.x⟩, ⟨b, sign + n.y * n.y * a, -n.y⟩)

end
end Huira.Sampling
