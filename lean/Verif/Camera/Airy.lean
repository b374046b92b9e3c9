import Mathlib.Analysis.SpecialFunctions.Trigonometric.Basic
import Mathlib.Analysis.SpecialFunctions.Pow.Real

/-!
# Model of the Airy disk

Models `include/huira_impl/cameras/psfs/airy_disk.ipp` and `CircularAperture::make_psf`
(`include/huira_impl/cameras/apertures/circular_aperture.ipp` 106-113) in exact real arithmetic: the rounding of `float`
and `double` is not modelled, the decimal constants are exactly those of the source.
-/

namespace Huira.Airy

open Real

/-- Numerator of the rational approximation, without the factor `x` (airy_disk.ipp 88-92), Horner form as in the source. -/
noncomputable def num1 (y : ℝ) : ℝ :=
  72362614232.0 + y * (-7895059235.0 + y * (242396853.1 + y * (-2972611.439 + y * (15704.48260 + y * (-30.16036606)))))

/-- Denominator of the rational approximation (airy_disk.ipp 93-95). -/
noncomputable def den1 (y : ℝ) : ℝ :=
  144725228442.0 + y * (2300535178.0 + y * (18583304.74 + y * (99447.43394 + y * (376.9991397 + y * 1.0))))

/-- Cosine part of the asymptotic form (airy_disk.ipp 102-103). -/
noncomputable def tailP (y : ℝ) : ℝ :=
  1.0 + y * (0.183105e-2 + y * (-0.3516396496e-4 + y * (0.2457520174e-5 + y * (-0.240337019e-6))))

/-- Sine part of the asymptotic form (airy_disk.ipp 104-106). -/
noncomputable def tailQ (y : ℝ) : ℝ :=
  0.04687499995 + y * (-0.2002690873e-3 + y * (0.8449199096e-5 + y * (-0.88228987e-6 + y * 0.105787412e-6)))

/-- `AiryDisk::bessel_j1` (airy_disk.ipp 81-110). -/
noncomputable def besselJ1 (x : ℝ) : ℝ :=
  let x := |x|
  if x < 8.0 then
    let y := x * x
    x * num1 y / den1 y
  else
    let z := 8.0 / x
    let y := z * z
    let xx := x - 2.356194491
    √(0.636619772 / x) * (cos xx * tailP y - z * sin xx * tailQ y)

/-- The members of an `AiryDisk` (airy_disk.hpp: `f_number_`, `pixel_pitch_`). -/
structure Disk where
  fNumber : ℝ
  pitchX : ℝ
  pitchY : ℝ

/-- The constructor of `AiryDisk` (airy_disk.ipp 20-31; the kernel cache it builds is in `Camera/Aperture.lean`). -/
noncomputable def Disk.make (focal pitchX pitchY diameter : ℝ) : Disk := ⟨focal / diameter, pitchX, pitchY⟩

/-- `AiryDisk::evaluate` (airy_disk.ipp 43-71) at the pixel offset `(x, y)`; `wave i` is the central wavelength of bin `i`. -/
noncomputable def Disk.evaluate {n : ℕ} (d : Disk) (wave : Fin n → ℝ) (x y : ℝ) : Fin n → ℝ :=
  let r := √((x * d.pitchX) * (x * d.pitchX) + (y * d.pitchY) * (y * d.pitchY))
  if r < 1e-20 then fun _ => 1.0
  else fun i =>
    let arg := π * r / (wave i * d.fNumber)
    let airy := 2.0 * besselJ1 arg / arg
    airy * airy

/-- `CircularAperture::make_psf` (circular_aperture.ipp 106-113): the members of an aperture are its diameter and radius,
and the diameter goes to the fourth argument. -/
noncomputable def makePsf (diameter focal pitchX pitchY : ℝ) : Disk := Disk.make focal pitchX pitchY diameter

end Huira.Airy
