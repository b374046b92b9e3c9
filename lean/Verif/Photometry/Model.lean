import Verif.Num.Vec3
import Mathlib.Analysis.SpecialFunctions.Log.Base
import Mathlib.Analysis.SpecialFunctions.Pow.Real
import Mathlib.Analysis.SpecialFunctions.Trigonometric.Inverse

/-!
# Model of the photometric functions

Models `include/huira_impl/core/physics.ipp` (but for the aberration, C70), `include/huira_impl/stars/io/star_data.ipp`,
`include/huira_impl/stars/star.ipp` and `resolve_irradiance` of `include/huira_impl/assets/unresolved/*.ipp`.  `float` and `double` are
the reals; the casts between them are not modelled.
-/

namespace Huira.Phot

noncomputable section
open Real

/-! ## Constants (`include/huira/core/constants.hpp` 24-46) -/

/-- `SPEED_OF_LIGHT` -/
def cLight : ℝ := 299792458
/-- `H_PLANCK` -/
def hPlanck : ℝ := 6.62607015e-34
/-- `K_BOLTZ` -/
def kBoltz : ℝ := 1.380649e-23
/-- `AU` -/
def au : ℝ := 149597870700

/-! ## physics.ipp -/

/-- `photon_energy` (`physics.ipp` 23-27). -/
def photonEnergy (lam : ℝ) : ℝ := (hPlanck * cLight) / lam

/-- One element of `plancks_law` (`physics.ipp` 35-50). -/
def planck (temp lam : ℝ) : ℝ :=
  ((2 * hPlanck * cLight * cLight) / lam ^ 5) / (exp (((hPlanck * cLight) / kBoltz) / (lam * temp)) - 1)

/-- `linspace` (`physics.ipp` 61-69); for `N = 1` the step is not a number in the code. -/
def linspace (lo hi : ℝ) (N : ℕ) : List ℝ :=
  (List.range N).map fun i : ℕ => lo + (i : ℝ) * ((hi - lo) / ((N : ℝ) - 1))

/-- `integrate` (`physics.ipp` 221-230): trapezoids. For an empty list the loop bound wraps around (not modelled). -/
def integrate : List ℝ → List ℝ → ℝ
  | x0 :: x1 :: xs, y0 :: y1 :: ys => (1 / 2) * (y0 + y1) * (x1 - x0) + integrate (x1 :: xs) (y1 :: ys)
  | _, _ => 0

/-- One bin of `black_body` (`physics.ipp` 79-92). -/
def blackBodyBin (temp : ℝ) (steps : ℕ) (bin : ℝ × ℝ) : ℝ :=
  integrate (linspace bin.1 bin.2 steps) ((linspace bin.1 bin.2 steps).map (planck temp))

/-- `black_body` for bins with the given bounds. -/
def blackBody {n : ℕ} (bins : Fin n → ℝ × ℝ) (temp : ℝ) (steps : ℕ) : Fin n → ℝ := fun i => blackBodyBin temp steps (bins i)

/-- The wavelengths of `johnson_vband_approximation` (`physics.ipp` 107-114, 122-124). -/
def vbandLambda (N : ℕ) : List ℝ := (List.range N).map fun i : ℕ => 350e-9 + (i : ℝ) * ((850e-9 - 350e-9) / ((N : ℝ) - 1))

/-- The response of `johnson_vband_approximation` (`physics.ipp` 116-130). -/
def vbandResponse (lam : ℝ) : ℝ := exp (-((lam - 551e-9) * (lam - 551e-9)) / (2 * 38e-9 * 38e-9))

/-- `v_band_irradiance` (`physics.ipp` 142-156). -/
def vBandIrradiance (mag : ℝ) : ℝ := 8.75e9 * (10 : ℝ) ^ (-0.4 * mag)

/-- The least and greatest wavelength of the bins (`physics.ipp` 187-198). -/
def bandOf {n : ℕ} (bins : Fin (n + 1) → ℝ × ℝ) : ℝ × ℝ :=
  (Finset.univ.inf' Finset.univ_nonempty fun i => (bins i).1, Finset.univ.sup' Finset.univ_nonempty fun i => (bins i).2)

/-- `visual_magnitude_to_irradiance` (`physics.ipp` 166-213). -/
def magToIrradiance {n : ℕ} (bins : Fin (n + 1) → ℝ × ℝ) (mag : ℝ) (albedo : Fin (n + 1) → ℝ) : Fin (n + 1) → ℝ :=
  let template := blackBody bins 5778 100
  let solarTotal := ∑ i, template i
  let vl := vbandLambda 500
  let vWeighted := integrate vl (vl.map fun l => planck 5778 l * vbandResponse l)
  let full := linspace (bandOf bins).1 (bandOf bins).2 500
  let fullIntegral := integrate full (full.map (planck 5778))
  let totalFlux := vBandIrradiance mag * fullIntegral / vWeighted
  let scale := totalFlux / solarTotal
  fun i => template i * scale * albedo i * photonEnergy (((bins i).1 + (bins i).2) / 2)

/-! ## star_data.ipp -/

/-- Visual magnitude and colour index of `process_magnitude` (`star_data.ipp` 11-26); `none` is NaN. -/
def vmagColor (bt vt : Option ℝ) : Option (ℝ × ℝ) :=
  match bt, vt with
  | none, none => none
  | some b, some v => some (v - 0.09 * (b - v), 0.85 * (b - v))
  | none, some v => some (v, 0.3)
  | some b, none => some (b, 0.3)

/-- Effective temperature (`star_data.ipp` 28-30). -/
def temperature (bv : ℝ) : ℝ := 4600 * (1 / (0.92 * bv + 1.7) + 1 / (0.92 * bv + 0.62))

/-- Photon flux in the V band of a black body filling the unit solid angle (`star_data.ipp` 38-46). -/
def vbandPhotons (temp : ℝ) : ℝ :=
  integrate (vbandLambda 1000) ((vbandLambda 1000).map fun l => vbandResponse l * planck temp l / photonEnergy l)

/-- `visual_magnitude`, `temperature`, `solid_angle` set by `process_magnitude` (`star_data.ipp` 9-48). -/
def processMagnitude (bt vt : Option ℝ) : Option (ℝ × ℝ × ℝ) :=
  (vmagColor bt vt).map fun m => (m.1, temperature m.2, vBandIrradiance m.1 / vbandPhotons (temperature m.2))

/-- `MAS_TO_RAD` (`star_data.ipp` 56, `star.ipp` 78). -/
def masToRad : ℝ := π / (180 * 3600 * 1000)

/-- `normalize_epoch` (`star_data.ipp` 50-68): new right ascension and declination. -/
def normalizeEpoch (ra dec pmRA pmDEC epochRA epochDEC : ℝ) : ℝ × ℝ :=
  if epochRA = 2000 ∧ epochDEC = 2000 then (ra, dec)
  else
    let dec' := dec + pmDEC * masToRad * (2000 - epochDEC)
    (ra + pmRA * masToRad * (2000 - epochRA) / cos dec', dec')

/-! ## star.ipp -/

/-- `compute_direction_` (`star.ipp` 75-90). -/
def starDirection (ra dec pmRA pmDEC years : ℝ) : V3 :=
  let pmD := pmDEC * masToRad
  let pmR := pmRA * masToRad
  let delta := dec + pmD * years
  let alpha := ra + pmR * years / cos delta
  V3.normalize ⟨cos delta * cos alpha, cos delta * sin alpha, sin delta⟩

/-- `compute_irradiance_` (`star.ipp` 93-100). -/
def starIrradiance {n : ℕ} (bins : Fin n → ℝ × ℝ) (temp solidAngle : ℝ) : Fin n → ℝ :=
  fun i => blackBody bins temp 100 i * solidAngle

/-! ## unresolved objects -/

/-- `UnresolvedEmitter::resolve_irradiance` (`unresolved_emitter.ipp` 57-66), one channel. -/
def emitterIrradiance (power : ℝ) (pos : V3) : ℝ := power / (4 * π * (V3.len pos * V3.len pos))

/-- `lambert_phase_function` (`unresolved_sphere.ipp` 25-28). -/
def lambertPhase (phase : ℝ) : ℝ := (sin phase + (π - phase) * cos phase) / π

/-- The irradiance of a sphere for a phase angle and distance (`unresolved_sphere.ipp` 137-147), one channel. -/
def sphereAt (albedo radius incident phase distance : ℝ) : ℝ :=
  (albedo * (π * radius * radius) * incident * lambertPhase phase) / (4 * π * distance * distance)

/-- `UnresolvedLambertianSphere::resolve_irradiance` (`unresolved_sphere.ipp` 125-161) for the sphere's light, one channel; `fl` is
the rounding of the computed cosine; `none` when `std::acos` gives NaN and the result is rejected (an exception). -/
def sphereIrradiance (fl : ℝ → ℝ) (albedo radius incident : ℝ) (pos light : V3) : Option ℝ :=
  let L := V3.normalize (light - pos)
  let distance := V3.len pos
  let V := (-1 / distance) * pos
  let c := fl (V3.dot V L)
  if c < -1 ∨ 1 < c then none else some (sphereAt albedo radius incident (arccos c) distance)

/-- `asteroid_phi1` (`unresolved_asteroid.ipp` 25-30); for phase angles below a half turn. -/
def phi1 (alpha : ℝ) : ℝ := exp (-3.33 * (tan (alpha / 2)) ^ (0.64 : ℝ))
/-- `asteroid_phi2` (`unresolved_asteroid.ipp` 42-47). -/
def phi2 (alpha : ℝ) : ℝ := exp (-1.87 * (tan (alpha / 2)) ^ (1.22 : ℝ))

/-- The apparent magnitude of an asteroid (`unresolved_asteroid.ipp` 176-184), with distances in metres. -/
def asteroidMagnitude (H G alpha r delta : ℝ) : ℝ :=
  let reduced := H - 2.5 * logb 10 ((1 - G) * phi1 alpha + G * phi2 alpha)
  let rAu := r * au
  let dAu := delta * au
  reduced + 5 * logb 10 (rAu * dAu)

/-- The phase angle and distances of `UnresolvedAsteroid::resolve_irradiance` (`unresolved_asteroid.ipp` 157-175); `none` when it
throws. -/
def asteroidGeometry (pos light : V3) : Option (ℝ × ℝ × ℝ) :=
  let toObs := -pos
  let toLight := light - pos
  let delta := V3.len toObs
  let r := V3.len toLight
  if r ≤ 0 ∨ delta ≤ 0 then none
  else
    let c := V3.dot ((1 / r) * toLight) ((1 / delta) * toObs)
    some (arccos (max (-1) (min 1 c)), r, delta)

/-- `UnresolvedAsteroid::resolve_irradiance` (`unresolved_asteroid.ipp` 151-201) for the asteroid's light. -/
def asteroidIrradiance {n : ℕ} (bins : Fin (n + 1) → ℝ × ℝ) (H G : ℝ) (albedo : Fin (n + 1) → ℝ) (pos light : V3) :
    Option (Fin (n + 1) → ℝ) :=
  (asteroidGeometry pos light).map fun g => magToIrradiance bins (asteroidMagnitude H G g.1 g.2.1 g.2.2) albedo

end
end Huira.Phot
