import Verif.Units.QuantityModel
import Verif.Num.Rounding

/-!
# Model of times and exposure intervals

Models `include/huira_impl/core/time.ipp` and `include/huira/core/interval.hpp`.

A `Time` is the stored ephemeris time `et_` (TDB seconds past J2000), a real number; `double` arithmetic is taken to be
exact.  The SPICE time-scale conversions are parameters (`Spice`): nothing about CSPICE itself is modelled.
The only rounding kept is the conversion of a sample count to `float`, which is visible to the user.
-/

namespace Huira.Time

/-- `TimeScale` (`time.hpp`). -/
inductive TimeScale
  | TDB | TT | TAI | UTC
deriving DecidableEq

/-- The two SPICE services used: `unitim(t, from, to)` and `deltet(t, "UTC" or "ET")` (`spice.ipp`). -/
structure Spice where
  unitim : ℝ → TimeScale → TimeScale → ℝ
  deltetUtc : ℝ → ℝ
  deltetEt : ℝ → ℝ

/-- A `Time` (`time.hpp`): `et_`. -/
@[ext]
structure T where
  et : ℝ

/-- `SECONDS_PER_DAY` (`time.ipp` 5). -/
def secondsPerDay : ℝ := 86400
/-- `SECONDS_PER_JULIAN_YEAR` (`time.ipp` 6). -/
noncomputable def secondsPerJulianYear : ℝ := 365.25 * secondsPerDay
/-- `J2000_JD` (`time.hpp` 118). -/
def j2000 : ℝ := 2451545
/-- `MJD_OFFSET` (`time.hpp` 132). -/
noncomputable def mjdOffset : ℝ := 2400000.5

/-- `Time::from_julian_date` (`time.ipp` 69-97). -/
noncomputable def fromJulianDate (sp : Spice) (jd : ℝ) : TimeScale → T
  | .TDB => ⟨(jd - j2000) * secondsPerDay⟩
  | .TT => ⟨sp.unitim ((jd - j2000) * secondsPerDay) .TT .TDB⟩
  | .TAI => ⟨sp.unitim ((jd - j2000) * secondsPerDay) .TAI .TDB⟩
  | .UTC => ⟨(jd - j2000) * secondsPerDay + sp.deltetUtc ((jd - j2000) * secondsPerDay)⟩

/-- `Time::from_modified_julian_date` (`time.ipp` 109-112). -/
noncomputable def fromModifiedJulianDate (sp : Spice) (mjd : ℝ) (s : TimeScale) : T :=
  fromJulianDate sp (mjd + mjdOffset) s

/-- The `switch` computing seconds past J2000 in a time scale, repeated in `to_julian_date` (`time.ipp` 140-166) and
`julian_years_since_j2000` (205-229). -/
noncomputable def secondsPast (sp : Spice) (t : T) : TimeScale → ℝ
  | .TDB => t.et
  | .TT => sp.unitim t.et .TDB .TT
  | .TAI => sp.unitim t.et .TDB .TAI
  | .UTC => t.et - sp.deltetEt t.et

/-- `Time::to_julian_date` (`time.ipp` 138-169). -/
noncomputable def toJulianDate (sp : Spice) (t : T) (s : TimeScale) : ℝ :=
  j2000 + secondsPast sp t s / secondsPerDay
/-- `Time::to_modified_julian_date` (`time.ipp` 177-180). -/
noncomputable def toModifiedJulianDate (sp : Spice) (t : T) (s : TimeScale) : ℝ := toJulianDate sp t s - mjdOffset
/-- `Time::julian_years_since_j2000` (`time.ipp` 203-232). -/
noncomputable def julianYears (sp : Spice) (t : T) (s : TimeScale) : ℝ := secondsPast sp t s / secondsPerJulianYear

/-- `operator==` (`time.ipp` 273-276). -/
def T.eq (a b : T) : Prop := a.et = b.et
/-- `operator!=` (`time.ipp` 278-281). -/
def T.ne (a b : T) : Prop := ¬ a.eq b
/-- `operator<` (`time.ipp` 283-286). -/
def T.lt (a b : T) : Prop := a.et < b.et
/-- `operator<=` (`time.ipp` 288-291). -/
def T.le (a b : T) : Prop := ¬ b.lt a
/-- `operator>` (`time.ipp` 293-296). -/
def T.gt (a b : T) : Prop := b.lt a
/-- `operator>=` (`time.ipp` 298-301). -/
def T.ge (a b : T) : Prop := ¬ a.lt b
/-- `operator+(units::Second)` (`time.ipp` 303-306); the argument may have been converted from any unit of time. -/
noncomputable def T.add {s : Units.Scale} (a : T) (delta : Units.Q Dim.Time s) : T :=
  ⟨a.et + (delta.as (.ratio 1)).toSi⟩
/-- `operator-(Time)` (`time.ipp` 308-311). -/
noncomputable def T.sub (a b : T) : Units.Q Dim.Time (.ratio 1) := ⟨a.et - b.et⟩

/-- A duration in seconds. -/
abbrev Second := Units.Q Dim.Time (.ratio 1)

/-! ## Intervals -/

/-- `struct Interval` (`interval.hpp` 35-39). -/
@[ext]
structure Interval where
  start : T
  stop : T

/-- `Interval::from_centered` (`interval.hpp` 48-52). -/
noncomputable def fromCentered (center : T) (duration : Second) : Interval :=
  ⟨center.add (⟨-duration.value / 2⟩ : Second), center.add (⟨duration.value / 2⟩ : Second)⟩
/-- `Interval::from_start` (`interval.hpp` 61-64). -/
noncomputable def fromStart (start : T) (duration : Second) : Interval := ⟨start, start.add duration⟩
/-- `Interval::from_bounds` (`interval.hpp` 73). -/
def fromBounds (start stop : T) : Interval := ⟨start, stop⟩
/-- `Interval::center` (`interval.hpp` 76). -/
noncomputable def Interval.center (i : Interval) : T := i.start.add (⟨(i.stop.et - i.start.et) / 2⟩ : Second)
/-- `Interval::duration` (`interval.hpp` 96). -/
noncomputable def Interval.duration (i : Interval) : Second := ⟨i.stop.et - i.start.et⟩

/-- `Interval::samples(N)` (`interval.hpp` 79-93); `none` is the thrown exception, `fl` the conversion of an integer
to `float` in `static_cast<float>(N - 1)`. -/
noncomputable def Interval.samples (fl : ℚ → ℚ) (i : Interval) (N : ℕ) : Option (List T) :=
  if N = 0 then none
  else if N = 1 then some [i.center]
  else
    let dt : Second := (i.stop.sub i.start).divScalar (fl ((N - 1 : ℕ) : ℚ) : ℝ)
    some ((List.range N).map fun (k : ℕ) => i.start.add (dt.scale (k : ℝ)))

end Huira.Time
