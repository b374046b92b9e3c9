import Mathlib.Analysis.SpecialFunctions.Trigonometric.Basic
import Verif.Num.Vec3
import Verif.Num.XFloat
/-!
# Sphere lights

Models `SphereLight` (`include/huira_impl/assets/lights/sphere_light.ipp` lines 17-223), in exact real arithmetic, one
spectral bin at a time.
-/
namespace Huira.Light

noncomputable section
open Classical

/-- `radius_(std::max(radius, 1e-5f))`, lines 20, 34, 47, 61. -/
def radiusOf (r : ℝ) : ℝ := max r (1 / 100000)

/-- `set_spectral_power(Watt)`, lines 67-79: negative, NaN and infinite powers throw (`none`); otherwise
`radiance = power / (pi * 4 pi r^2)`. -/
def setPower (radius : ℝ) (power : XF) : Option XF :=
  if power.lt (.fin 0) ∨ power.isNan ∨ power.isInf then none
  else some (power.div (.fin (Real.pi * (4 * Real.pi * radius * radius))))

/-- A light sample: direction, density, distance to the surface. -/
structure Sample where
  wi : V3
  pdf : ℝ
  distance : ℝ

/-- `cos_theta_max`, lines 108-109. -/
def cosMax (r d2 : ℝ) : ℝ := Real.sqrt (max 0 (1 - r * r / d2))

/-- Solid angle of the cone with the small-angle fallback, lines 137-143 and 182-185. -/
def solidAngle (r d2 : ℝ) : ℝ :=
  let s := 2 * Real.pi * (1 - cosMax r d2)
  if s < 1 / 10000000 then Real.pi * (r * r / d2) else s

/-- First axis of the frame around `w`, lines 122-127. -/
def axisU (w : V3) : V3 :=
  if |w.z| < 999 / 1000 then V3.normalize ⟨-w.y, w.x, 0⟩ else V3.normalize ⟨0, -w.z, w.y⟩

/-- `sample_li`, lines 90-158; `p` is the shaded point, `c` the centre of the light. -/
def sampleLi (r : ℝ) (c p : V3) (u1 u2 : ℝ) : Option Sample :=
  let wc := c - p
  let d2 := V3.dot wc wc
  let d := Real.sqrt d2
  if d ≤ r then none
  else
    let cm := cosMax r d2
    let ct := (1 - u1) + u1 * cm
    let st := Real.sqrt (max 0 (1 - ct * ct))
    let phi := u2 * 2 * Real.pi
    let w := (1 / d) * wc
    let u := axisU w
    let v := V3.cross w u
    let wi := (st * Real.cos phi) * u + (st * Real.sin phi) * v + ct * w
    let b := V3.dot wc wi
    some { wi := wi, pdf := 1 / solidAngle r d2,
           distance := b - Real.sqrt (max 0 (b * b - d2 + r * r)) }

/-- `pdf_li`, lines 160-188. -/
def pdfLi (r : ℝ) (c p wi : V3) : ℝ :=
  let wc := c - p
  let d2 := V3.dot wc wc
  if d2 ≤ r * r then 0
  else if V3.dot wi (V3.normalize wc) < cosMax r d2 then 0
  else 1 / solidAngle r d2

/-- `irradiance_at`, lines 199-213, for radiance `L`. -/
def irradianceAt (r L : ℝ) (c p : V3) : ℝ :=
  let wc := c - p
  let d2 := V3.dot wc wc
  if d2 ≤ r * r then 0 else L * Real.pi * (r * r / d2)

end
end Huira.Light
