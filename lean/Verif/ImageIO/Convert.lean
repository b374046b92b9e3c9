import Verif.Num.Rounding
/-!
# Pixel conversion (model)

Models `integer_to_float` / `float_to_integer` (`include/huira_impl/images/io/convert_pixel.ipp` 83-123) with every
`float` operation rounded by `fl` (any round-to-nearest, see `Verif/Num/Rounding.lean`). Conversion of a `float` to an
integer type truncates toward zero and is undefined (`none`) when the result does not fit.
-/
namespace Huira.ImageIO.Convert
open Huira.Num

/-- `static_cast<T>(float)` for a type with range `[lo, hi]`. -/
def castInt (lo hi : ℤ) (y : ℚ) : Option ℤ :=
  let t := if 0 ≤ y then ⌊y⌋ else ⌈y⌉
  if lo ≤ t ∧ t ≤ hi then some t else none

/-- `std::clamp(v, 0.0f, 1.0f)` -/
def clamp01 (v : ℚ) : ℚ := if v < 0 then 0 else if 1 < v then 1 else v

/-- `integer_to_float` for unsigned types (convert_pixel.ipp 83-89). -/
def toFloatU (fl : ℚ → ℚ) (tmax : ℤ) (value : ℤ) (minR maxR : ℚ) : ℚ :=
  let normalized := fl (fl value / fl tmax)
  fl (minR + fl (normalized * fl (maxR - minR)))

/-- `integer_to_float` for signed types (convert_pixel.ipp 91-99). -/
def toFloatS (fl : ℚ → ℚ) (tmin tmax : ℤ) (value : ℤ) (minR maxR : ℚ) : ℚ :=
  let trueMin := fl tmin
  let trueMax := fl tmax
  let normalized := fl (fl (fl value - trueMin) / fl (trueMax - trueMin))
  fl (minR + fl (normalized * fl (maxR - minR)))

/-- `float_to_integer` for unsigned types (convert_pixel.ipp 101-107). -/
def fromFloatU (fl : ℚ → ℚ) (tmax : ℤ) (value minR maxR : ℚ) : Option ℤ :=
  let normalized := clamp01 (fl (fl (value - minR) / fl (maxR - minR)))
  castInt 0 tmax (fl (fl (normalized * fl tmax) + 1 / 2))

/-- `float_to_integer` for signed types (convert_pixel.ipp 109-119). -/
def fromFloatS (fl : ℚ → ℚ) (tmin tmax : ℤ) (value minR maxR : ℚ) : Option ℤ :=
  let typeMin := fl tmin
  let typeMax := fl tmax
  let normalized := clamp01 (fl (fl (value - minR) / fl (maxR - minR)))
  castInt tmin tmax (fl (fl (typeMin + fl (normalized * fl (typeMax - typeMin))) + 1 / 2))

end Huira.ImageIO.Convert
