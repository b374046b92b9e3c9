import Verif.Units.DimModel
import Verif.Num.XFloat
import Mathlib.Analysis.SpecialFunctions.Trigonometric.Basic

/-!
# Model of quantities and units

Models `include/huira/units/quantity.hpp`, `include/huira_impl/units/quantity.ipp`,
`include/huira/units/units.hpp` and `include/huira/units/spectral_quantity.hpp` (with its `.ipp`).

Simplifications: the stored `double` is a real number and arithmetic on it is exact; `std::ratio` is a rational
number (`std::ratio` reduces to lowest terms, and intmax overflow is a compile error).  The `NaN` check is
modelled separately, on extended floats, at the end of the file.
-/

namespace Huira.Units

open Huira.Dim (Dim)

/-- The `Scale` parameter of a quantity: a `std::ratio`, or one of the unit tags declared in
`quantity.hpp` 345-434. -/
inductive Scale
  | ratio (r : ℚ)
  | siderealDay
  | degree
  | arcMinute
  | arcSecond
  | squareDegree
  | celsius
  | fahrenheit
  | electronVolt
deriving DecidableEq

/-- `is_unit_tag<Scale>::value` (`unit_concepts.hpp` 19-23 and the specialisations in `quantity.hpp`). -/
def Scale.isTag : Scale → Bool
  | .ratio _ => false
  | _ => true

/-- `get_ratio()` (`quantity.hpp` 172-175) and its specialisations (346-395, 427-434).  The two temperature tags
have no ratio; their conversions are specialised instead (the value here is not used). -/
noncomputable def Scale.getRatio : Scale → ℝ
  | .ratio r => (r : ℝ)
  | .siderealDay => 86164.0905
  | .degree => Real.pi / 180
  | .arcMinute => Real.pi / 10800
  | .arcSecond => Real.pi / 648000
  | .squareDegree => (Real.pi / 180) * (Real.pi / 180)
  | .celsius => 1
  | .fahrenheit => 1
  | .electronVolt => 1.602176634e-19

/-- `to_si(double)` (`quantity.hpp` 179) and its specialisations (400-404, 415-419). -/
noncomputable def Scale.toSi (s : Scale) (v : ℝ) : ℝ :=
  match s with
  | .celsius => v + 273.15
  | .fahrenheit => (v + 459.67) * (5 / 9)
  | s => v * s.getRatio

/-- `from_si(double)` (`quantity.hpp` 177) and its specialisations (406-410, 421-425). -/
noncomputable def Scale.fromSi (s : Scale) (v : ℝ) : ℝ :=
  match s with
  | .celsius => v - 273.15
  | .fahrenheit => v * (9 / 5) - 459.67
  | s => v / s.getRatio

/-- A `Quantity<Dim, Scale>` (`quantity.hpp` 25-180; the dimensionless specialisation, 436-580, has the same
members). -/
@[ext]
structure Q (d : Dim) (s : Scale) where
  /-- `value_` (168), returned by `value()` and `raw_value()` -/
  value : ℝ

variable {d d1 d2 : Dim} {s t s1 s2 : Scale}

/-- `to_si()` (`quantity.ipp` 9-13). -/
noncomputable def Q.toSi (q : Q d s) : ℝ := s.toSi q.value

/-- The converting constructor and `as<>()` (`quantity.hpp` 41-45, 74-90). -/
noncomputable def Q.as (t : Scale) (q : Q d s) : Q d t := ⟨t.fromSi q.toSi⟩

/-- Same-scale `operator+` (`quantity.hpp` 94-97); `+=` (106-110) computes the same value. -/
noncomputable def Q.add (a b : Q d s) : Q d s := ⟨a.value + b.value⟩
/-- Same-scale `operator-` (`quantity.hpp` 100-103). -/
noncomputable def Q.sub (a b : Q d s) : Q d s := ⟨a.value - b.value⟩
/-- Scalar `operator*` (`quantity.hpp` 120-124, and 272-276 with the scalar first). -/
noncomputable def Q.scale (k : ℝ) (a : Q d s) : Q d s := ⟨a.value * k⟩
/-- Scalar `operator/` (`quantity.hpp` 127-131). -/
noncomputable def Q.divScalar (a : Q d s) (k : ℝ) : Q d s := ⟨a.value / k⟩
/-- Unary `operator-` (`quantity.hpp` 162). -/
noncomputable def Q.neg (a : Q d s) : Q d s := ⟨-a.value⟩

/-- Mixed-scale `operator+` (`quantity.hpp` 293-299). -/
noncomputable def Q.addMixed (a : Q d s) (b : Q d t) : Q d s := ⟨a.value + (b.as s).value⟩
/-- Mixed-scale `operator-` (`quantity.hpp` 301-307). -/
noncomputable def Q.subMixed (a : Q d s) (b : Q d t) : Q d s := ⟨a.value - (b.as s).value⟩

/-- The scale of a product (`quantity.hpp` 252-258, `ratio_multiply` 189-196): SI if a tag is involved. -/
def mulScale : Scale → Scale → Scale
  | .ratio r, .ratio r' => .ratio (r * r')
  | _, _ => .ratio 1
/-- The scale of a quotient (`quantity.hpp` 264-270). -/
def divScale : Scale → Scale → Scale
  | .ratio r, .ratio r' => .ratio (r / r')
  | _, _ => .ratio 1

/-- Quantity `operator*` (`quantity.hpp` 249-259). -/
noncomputable def Q.mul (a : Q d1 s1) (b : Q d2 s2) : Q (d1 * d2) (mulScale s1 s2) :=
  if s1.isTag || s2.isTag then ⟨a.toSi * b.toSi⟩ else ⟨a.value * b.value⟩
/-- Quantity `operator/` (`quantity.hpp` 261-271). -/
noncomputable def Q.div (a : Q d1 s1) (b : Q d2 s2) : Q (d1 / d2) (divScale s1 s2) :=
  if s1.isTag || s2.isTag then ⟨a.toSi / b.toSi⟩ else ⟨a.value / b.value⟩
/-- `scalar / quantity` (`quantity.hpp` 278-291). -/
noncomputable def Q.recip (k : ℝ) (a : Q d s) : Q (Dim.Dimensionless / d) (divScale (.ratio 1) s) :=
  if s.isTag then ⟨k / a.toSi⟩ else ⟨k / a.value⟩

/-- Same-scale comparisons (`quantity.hpp` 150-160). -/
def Q.lt (a b : Q d s) : Prop := a.value < b.value
/-- `<=` (158). -/
def Q.le (a b : Q d s) : Prop := a.value ≤ b.value
/-- `==` (150). -/
def Q.beq (a b : Q d s) : Prop := a.value = b.value
/-- Mixed-scale `<` (`quantity.hpp` 321-325). -/
def Q.ltMixed (a : Q d s) (b : Q d t) : Prop := a.toSi < b.toSi
/-- Mixed-scale `<=` (`quantity.hpp` 333-337). -/
def Q.leMixed (a : Q d s) (b : Q d t) : Prop := a.toSi ≤ b.toSi
/-- Mixed-scale `==` (`quantity.hpp` 309-313). -/
def Q.beqMixed (a : Q d s) (b : Q d t) : Prop := a.toSi = b.toSi

/-! ## The unit table -/

/-- The unit type aliases of `units.hpp` 46-215. -/
inductive Unit
  | kilometer
  | meter
  | centimeter
  | millimeter
  | micrometer
  | nanometer
  | astronomicalUnit
  | foot
  | yard
  | mile
  | kilogram
  | gram
  | milligram
  | siderealDay
  | day
  | hour
  | minute
  | second
  | millisecond
  | microsecond
  | nanosecond
  | femtosecond
  | ampere
  | kelvin
  | celsius
  | fahrenheit
  | mole
  | candela
  | radian
  | degree
  | arcminute
  | arcsecond
  | steradian
  | squareDegree
  | diopter
  | millidiopter
  | microdiopter
  | metersPerSecond
  | kilometersPerSecond
  | milesPerHour
  | kilometersPerHour
  | radiansPerSecond
  | degreesPerSecond
  | hertz
  | kilohertz
  | megahertz
  | gigahertz
  | terahertz
  | newton
  | kilonewton
  | pascal
  | kilopascal
  | joule
  | kilojoule
  | megajoule
  | electronVolt
  | squareMeter
  | squareCentimeter
  | squareMillimeter
  | milliwatt
  | watt
  | kilowatt
  | megawatt
  | gigawatt
  | coulomb
  | wattsPerMeterSquaredSteradian
  | wattsPerMeterSquared
  | wattsPerSteradian
  | lumen
deriving DecidableEq

/-- The dimension parameter of each alias (`units.hpp` 46-215). -/
def Unit.dim : Unit → Dim
  | .kilometer => Dim.Length
  | .meter => Dim.Length
  | .centimeter => Dim.Length
  | .millimeter => Dim.Length
  | .micrometer => Dim.Length
  | .nanometer => Dim.Length
  | .astronomicalUnit => Dim.Length
  | .foot => Dim.Length
  | .yard => Dim.Length
  | .mile => Dim.Length
  | .kilogram => Dim.Mass
  | .gram => Dim.Mass
  | .milligram => Dim.Mass
  | .siderealDay => Dim.Time
  | .day => Dim.Time
  | .hour => Dim.Time
  | .minute => Dim.Time
  | .second => Dim.Time
  | .millisecond => Dim.Time
  | .microsecond => Dim.Time
  | .nanosecond => Dim.Time
  | .femtosecond => Dim.Time
  | .ampere => Dim.Current
  | .kelvin => Dim.Temperature
  | .celsius => Dim.Temperature
  | .fahrenheit => Dim.Temperature
  | .mole => Dim.AmountOfSubstance
  | .candela => Dim.LuminousIntensity
  | .radian => Dim.Angle
  | .degree => Dim.Angle
  | .arcminute => Dim.Angle
  | .arcsecond => Dim.Angle
  | .steradian => Dim.SolidAngle
  | .squareDegree => Dim.SolidAngle
  | .diopter => Dim.ReciprocalLength
  | .millidiopter => Dim.ReciprocalLength
  | .microdiopter => Dim.ReciprocalLength
  | .metersPerSecond => Dim.Velocity
  | .kilometersPerSecond => Dim.Velocity
  | .milesPerHour => Dim.Velocity
  | .kilometersPerHour => Dim.Velocity
  | .radiansPerSecond => Dim.AngularVelocity
  | .degreesPerSecond => Dim.AngularVelocity
  | .hertz => Dim.Frequency
  | .kilohertz => Dim.Frequency
  | .megahertz => Dim.Frequency
  | .gigahertz => Dim.Frequency
  | .terahertz => Dim.Frequency
  | .newton => Dim.Force
  | .kilonewton => Dim.Force
  | .pascal => Dim.Pressure
  | .kilopascal => Dim.Pressure
  | .joule => Dim.Energy
  | .kilojoule => Dim.Energy
  | .megajoule => Dim.Energy
  | .electronVolt => Dim.Energy
  | .squareMeter => Dim.Area
  | .squareCentimeter => Dim.Area
  | .squareMillimeter => Dim.Area
  | .milliwatt => Dim.Power
  | .watt => Dim.Power
  | .kilowatt => Dim.Power
  | .megawatt => Dim.Power
  | .gigawatt => Dim.Power
  | .coulomb => Dim.Charge
  | .wattsPerMeterSquaredSteradian => Dim.Radiance
  | .wattsPerMeterSquared => Dim.Irradiance
  | .wattsPerSteradian => Dim.RadiantIntensity
  | .lumen => Dim.LuminousFlux

/-- The scale parameter of each alias (`units.hpp` 46-215). -/
def Unit.scale : Unit → Scale
  | .kilometer => .ratio 1000  -- units.hpp 46
  | .meter => .ratio 1  -- units.hpp 47
  | .centimeter => .ratio (1 / 100)  -- units.hpp 48
  | .millimeter => .ratio (1 / 1000)  -- units.hpp 49
  | .micrometer => .ratio (1 / 1000000)  -- units.hpp 50
  | .nanometer => .ratio (1 / 1000000000)  -- units.hpp 51
  | .astronomicalUnit => .ratio 149597870700  -- units.hpp 53
  | .foot => .ratio (381 / 1250)  -- units.hpp 55
  | .yard => .ratio (1143 / 1250)  -- units.hpp 56
  | .mile => .ratio (80467 / 50)  -- units.hpp 57
  | .kilogram => .ratio 1  -- units.hpp 62
  | .gram => .ratio (1 / 1000)  -- units.hpp 63
  | .milligram => .ratio (1 / 1000000)  -- units.hpp 64
  | .siderealDay => .siderealDay  -- units.hpp 69
  | .day => .ratio 86400  -- units.hpp 70
  | .hour => .ratio 3600  -- units.hpp 71
  | .minute => .ratio 60  -- units.hpp 72
  | .second => .ratio 1  -- units.hpp 73
  | .millisecond => .ratio (1 / 1000)  -- units.hpp 74
  | .microsecond => .ratio (1 / 1000000)  -- units.hpp 75
  | .nanosecond => .ratio (1 / 1000000000)  -- units.hpp 76
  | .femtosecond => .ratio (1 / 1000000000000000)  -- units.hpp 77
  | .ampere => .ratio 1  -- units.hpp 82
  | .kelvin => .ratio 1  -- units.hpp 87
  | .celsius => .celsius  -- units.hpp 88
  | .fahrenheit => .fahrenheit  -- units.hpp 89
  | .mole => .ratio 1  -- units.hpp 94
  | .candela => .ratio 1  -- units.hpp 99
  | .radian => .ratio 1  -- units.hpp 104
  | .degree => .degree  -- units.hpp 105
  | .arcminute => .arcMinute  -- units.hpp 106
  | .arcsecond => .arcSecond  -- units.hpp 107
  | .steradian => .ratio 1  -- units.hpp 112
  | .squareDegree => .squareDegree  -- units.hpp 113
  | .diopter => .ratio 1  -- units.hpp 121
  | .millidiopter => .ratio (1 / 1000)  -- units.hpp 122
  | .microdiopter => .ratio (1 / 1000000)  -- units.hpp 123
  | .metersPerSecond => .ratio 1  -- units.hpp 128
  | .kilometersPerSecond => .ratio 1000  -- units.hpp 129
  | .milesPerHour => .ratio (44704 / 100000)  -- units.hpp 130
  | .kilometersPerHour => .ratio (1000 / 3600)  -- units.hpp 131
  | .radiansPerSecond => .ratio 1  -- units.hpp 136
  | .degreesPerSecond => .degree  -- units.hpp 137
  | .hertz => .ratio 1  -- units.hpp 142
  | .kilohertz => .ratio 1000  -- units.hpp 143
  | .megahertz => .ratio 1000000  -- units.hpp 144
  | .gigahertz => .ratio 1000000000  -- units.hpp 145
  | .terahertz => .ratio 1000000000000  -- units.hpp 146
  | .newton => .ratio 1  -- units.hpp 151
  | .kilonewton => .ratio 1000  -- units.hpp 152
  | .pascal => .ratio 1  -- units.hpp 157
  | .kilopascal => .ratio 1000  -- units.hpp 158
  | .joule => .ratio 1  -- units.hpp 163
  | .kilojoule => .ratio 1000  -- units.hpp 164
  | .megajoule => .ratio 1000000  -- units.hpp 165
  | .electronVolt => .electronVolt  -- units.hpp 166
  | .squareMeter => .ratio 1  -- units.hpp 171
  | .squareCentimeter => .ratio (1 / 10000)  -- units.hpp 172
  | .squareMillimeter => .ratio (1 / 1000000)  -- units.hpp 173
  | .milliwatt => .ratio (1 / 1000)  -- units.hpp 178
  | .watt => .ratio 1  -- units.hpp 179
  | .kilowatt => .ratio 1000  -- units.hpp 180
  | .megawatt => .ratio 1000000  -- units.hpp 181
  | .gigawatt => .ratio 1000000000  -- units.hpp 182
  | .coulomb => .ratio 1  -- units.hpp 198
  | .wattsPerMeterSquaredSteradian => .ratio 1  -- units.hpp 203
  | .wattsPerMeterSquared => .ratio 1  -- units.hpp 204
  | .wattsPerSteradian => .ratio 1  -- units.hpp 205
  | .lumen => .ratio 1  -- units.hpp 215

/-! ## Spectral quantities -/

/-- `SpectralQuantity<Dim, Scale, TSpectral>` (`spectral_quantity.hpp` 42-90): one value per bin, in the unit's own
scale. -/
structure SQ (n : ℕ) (r : ℚ) where
  value : Fin n → ℝ

/-- Conversion from another scale (`spectral_quantity.ipp` 20-35). -/
noncomputable def SQ.as {n : ℕ} {r : ℚ} (r' : ℚ) (q : SQ n r) : SQ n r' := ⟨fun i => q.value i * ((r : ℝ) / (r' : ℝ))⟩
/-- `to_si()` (`spectral_quantity.ipp` 46-60). -/
noncomputable def SQ.toSi {n : ℕ} {r : ℚ} (q : SQ n r) : Fin n → ℝ :=
  if r = 1 then q.value else fun i => q.value i * (r : ℝ)
/-- The numbers `to_string()` prints, next to the SI unit's name (`spectral_quantity.ipp` 72-84). -/
def SQ.printed {n : ℕ} {r : ℚ} (q : SQ n r) : Fin n → ℝ := q.value

/-! ## The NaN check -/

/-- What can be done with a quantity of a fixed unit, seen on the stored floating-point value; `none` is a throw. -/
inductive QOp
  | add (x : XF)        -- operator+ with a quantity holding x
  | sub (x : XF)
  | mulScalar (x : XF)
  | divScalar (x : XF)
  | neg
  | addAssign (x : XF)  -- operator+=
  | subAssign (x : XF)
  | mulAssign (x : XF)
  | divAssign (x : XF)

/-- The constructor from a number (`quantity.hpp` 32-39): throws on NaN. -/
noncomputable def construct (v : XF) : Option XF := open Classical in if v.isNan then none else some v

/-- One operation (`quantity.hpp` 94-147, 162): the value-returning operators go through the checking constructor,
the assigning ones store directly. -/
noncomputable def QOp.run (v : XF) : QOp → Option XF
  | .add x => construct (v.add x)
  | .sub x => construct (v.add x.neg)
  | .mulScalar x => construct (v.mul x)
  | .divScalar x => construct (v.div x)
  | .neg => construct v.neg
  | .addAssign x => some (v.add x)
  | .subAssign x => some (v.add x.neg)
  | .mulAssign x => some (v.mul x)
  | .divAssign x => some (v.div x)

end Huira.Units
