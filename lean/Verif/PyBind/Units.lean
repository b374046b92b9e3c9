import Verif.Units.QuantityProps
/-!
# Python bindings: quantities (C121)

Models `bindings/python/include/huira/units/units_py.ipp` (quantities as Python objects, `detail::unit_from_py`, the
registered implicit conversions), the way the other binding files use them (`handles/scene/node_handle_py.ipp` 25-130,
`handles/camera_handle_py.ipp` 15-200, `scene/scene_py.ipp` 50-310, `core/interval_py.ipp` 22-32) and the operators of
`bindings/python/include/huira/core/time_py.ipp` 91-120.

Environment (pybind11, contracts)
* a parameter bound as `const units::U&` accepts an object of the class `U`; an object of a class registered with
  `implicitly_convertible<W, U>` is converted by calling the Python class `U` with it, and refused when that call raises;
* the constructors bound for a unit accept Python numbers only (`double`, `int`, `float`); objects of other classes that
  define neither `__float__` nor `__index__` are not numbers;
* `x += y` falls back to `x = x + y` when `__iadd__` does not accept `y`.

As in `Verif.Units.QuantityModel` numbers are real numbers. An exception raised in Python is `none`.
-/
namespace Huira.PyUnits

open Huira.Units (Q)

/-- A Python object: a quantity with the number it was made with, a spectral quantity, a number, a `Time` (its ephemeris
time), anything else. -/
inductive PyVal
  | qty (u : Units.Unit) (v : ℝ)
  | spectral
  | number (v : ℝ)
  | time (et : ℝ)
  | other

/-- `obj.attr("to_si")().cast<double>()` (units_py.ipp 20; 80, 91, 112, 119, …): an object without `to_si` raises
`AttributeError`, the `SpectralBins` a spectral quantity answers cannot be cast. -/
noncomputable def PyVal.si : PyVal → Option ℝ
  | .qty u v => some (u.scale.toSi v)
  | _ => none

/-- `detail::unit_from_py<U>(obj)` (units_py.ipp 17-25): the number a parameter of unit `u` gets. -/
noncomputable def unitFromPy (u : Units.Unit) (x : PyVal) : Option ℝ := x.si.map u.scale.fromSi

/-- `__add__` (units_py.ipp 76-86). -/
noncomputable def pyAdd (u : Units.Unit) (v : ℝ) (x : PyVal) : Option PyVal :=
  x.si.map fun s => .qty u (u.scale.fromSi (u.scale.toSi v + s))
/-- `__sub__` (units_py.ipp 87-97). -/
noncomputable def pySub (u : Units.Unit) (v : ℝ) (x : PyVal) : Option PyVal :=
  x.si.map fun s => .qty u (u.scale.fromSi (u.scale.toSi v - s))
/-- `x += y`: `py::self += py::self` (units_py.ipp 99) for an object of the same class (`quantity.hpp` 106-110), `__add__`
for another one. -/
noncomputable def pyIadd (u : Units.Unit) (v : ℝ) (x : PyVal) : Option PyVal :=
  match x with
  | .qty w v' => if w = u then some (.qty u (v + v')) else pyAdd u v x
  | _ => pyAdd u v x
/-- `self * double()` (units_py.ipp 101, 105). -/
noncomputable def pyMul (u : Units.Unit) (v k : ℝ) : PyVal := .qty u (v * k)
/-- `self / double()` (units_py.ipp 102). -/
noncomputable def pyDiv (u : Units.Unit) (v k : ℝ) : PyVal := .qty u (v / k)

/-- `__eq__`, `__lt__`, `__le__`, `__gt__`, `__ge__` (units_py.ipp 107-141). -/
noncomputable def pyEq (u : Units.Unit) (v : ℝ) (x : PyVal) : Option Prop := x.si.map fun s => u.scale.toSi v = s
@[inherit_doc pyEq] noncomputable def pyLt (u : Units.Unit) (v : ℝ) (x : PyVal) : Option Prop := x.si.map fun s => u.scale.toSi v < s
@[inherit_doc pyEq] noncomputable def pyLe (u : Units.Unit) (v : ℝ) (x : PyVal) : Option Prop := x.si.map fun s => u.scale.toSi v ≤ s
@[inherit_doc pyEq] noncomputable def pyGt (u : Units.Unit) (v : ℝ) (x : PyVal) : Option Prop := x.si.map fun s => u.scale.toSi v > s
@[inherit_doc pyEq] noncomputable def pyGe (u : Units.Unit) (v : ℝ) (x : PyVal) : Option Prop := x.si.map fun s => u.scale.toSi v ≥ s

/-- The Python class `U` called with one argument (units_py.ipp 63-66). -/
def classCall (u : Units.Unit) : PyVal → Option PyVal
  | .number v => some (.qty u v)
  | _ => none

/-- `register_unit_conversions<SI, …>` (units_py.ipp 312-391): the classes registered for a target. -/
def implicitSources : Units.Unit → List Units.Unit
  | .meter => [.kilometer, .centimeter, .millimeter, .micrometer, .nanometer, .astronomicalUnit, .foot, .yard, .mile]
  | .kilogram => [.gram, .milligram]
  | .second => [.femtosecond, .nanosecond, .microsecond, .millisecond, .minute, .hour, .day, .siderealDay]
  | .kelvin => [.celsius, .fahrenheit]
  | .radian => [.degree, .arcminute, .arcsecond]
  | .steradian => [.squareDegree]
  | .metersPerSecond => [.kilometersPerSecond, .milesPerHour, .kilometersPerHour]
  | .hertz => [.kilohertz, .megahertz, .gigahertz, .terahertz]
  | .newton => [.kilonewton]
  | .pascal => [.kilopascal]
  | .joule => [.kilojoule, .megajoule, .electronVolt]
  | .watt => [.milliwatt, .kilowatt, .megawatt, .gigawatt]
  | _ => []

/-- A parameter bound as `const units::U&` (`new_sphere_light`, `Interval.from_start`, `set_irradiance`, …): the number the
function gets. -/
def directArg (u : Units.Unit) (x : PyVal) : Option ℝ :=
  match x with
  | .qty w v =>
    if w = u then some v
    else if w ∈ implicitSources u then
      match classCall u x with
      | some (.qty _ v') => some v'
      | _ => none
    else none
  | _ => none

/-- `Time.__add__` (time_py.ipp 92-100). -/
noncomputable def timeAdd (et : ℝ) (x : PyVal) : Option PyVal := x.si.map fun s => .time (et + s)
/-- `Time.__sub__` (time_py.ipp 102-120): another `Time` gives a duration, anything else goes to the second overload. -/
noncomputable def timeSub (et : ℝ) : PyVal → Option PyVal
  | .time et' => some (.qty .second (et - et'))
  | x => x.si.map fun s => .time (et + -s)

/-! ## Specification -/

/-- The physical quantity an object stands for: its dimension and its amount in SI units, by the definition of the unit
(`Huira.Units.meaning`, not the library's factors). -/
noncomputable def PyVal.Means (x : PyVal) (d : Dim.Dim) (amount : ℝ) : Prop :=
  ∃ u v, x = .qty u v ∧ d = u.dim ∧ amount = Units.meaning u v

/-- The units whose factor is right: all but the mile (C61). -/
def Right (u : Units.Unit) : Prop := u ≠ .mile ∧ u ≠ .milesPerHour

/-- The unit measures from a zero of its own (degrees Celsius, degrees Fahrenheit). -/
def Shifted (u : Units.Unit) : Prop := u = .celsius ∨ u = .fahrenheit

theorem si_right {u : Units.Unit} (hu : Right u) (v : ℝ) : u.scale.toSi v = Units.meaning u v :=
  Units.C61_factors_partial u hu.1 ⟨v⟩

/-- C121 (partial): a quantity of the right dimension given for a length, an angle, a power, … reaches the library as the
same physical quantity, in whatever unit it was written. -/
theorem C121_argument_partial (u w : Units.Unit) (v amount : ℝ) (hu : Right u) (hw : Right w)
    (hx : PyVal.Means (.qty w v) u.dim amount) :
    ∃ r, unitFromPy u (.qty w v) = some r ∧ PyVal.Means (.qty u r) u.dim amount := by
  obtain ⟨w', v', he, hd, ha⟩ := hx
  cases he
  refine ⟨_, rfl, u, _, rfl, rfl, ?_⟩
  rw [← si_right hu, Units.toSi_fromSi u.scale_ok, si_right hw, ha]

/-- C121 (partial): it is the C++ conversion. -/
theorem C121_same_as_cpp_partial (u w : Units.Unit) (v : ℝ) :
    unitFromPy u (.qty w v) = some ((⟨v⟩ : Q w.dim w.scale).as u.scale).value := rfl

/-- C121 (partial): a plain number, a spectral quantity, a time or any other object is refused, by parameters and by
operators alike. -/
theorem C121_refused_partial (u : Units.Unit) (v : ℝ) (x : PyVal) (hx : ∀ w v', x ≠ .qty w v') :
    unitFromPy u x = none ∧ directArg u x = none ∧ pyAdd u v x = none ∧ pySub u v x = none ∧ pyIadd u v x = none ∧
    pyEq u v x = none ∧ pyLt u v x = none := by
  cases x with
  | qty w v' => exact absurd rfl (hx w v')
  | _ => exact ⟨rfl, rfl, rfl, rfl, rfl, rfl, rfl⟩

/-- C121 (partial): sums and differences of quantities of one dimension are right, whatever units they are written in, and
come in the unit of the left operand. (Not for temperatures in Celsius or Fahrenheit, see `C121_celsius_violated`.) -/
theorem C121_sum_partial (u w : Units.Unit) (v v' : ℝ) (hu : Right u) (hw : Right w) :
    (∃ r, pyAdd u v (.qty w v') = some (.qty u r) ∧ Units.meaning u r = Units.meaning u v + Units.meaning w v') ∧
    (∃ r, pySub u v (.qty w v') = some (.qty u r) ∧ Units.meaning u r = Units.meaning u v - Units.meaning w v') := by
  refine ⟨⟨_, rfl, ?_⟩, ⟨_, rfl, ?_⟩⟩
  · rw [← si_right hu, Units.toSi_fromSi u.scale_ok, si_right hw, si_right hu]
  · rw [← si_right hu, Units.toSi_fromSi u.scale_ok, si_right hw, si_right hu]

/-- C121 (partial): `x += y` has the value of `x + y`, except for Celsius and Fahrenheit. -/
theorem C121_iadd_partial (u : Units.Unit) (v : ℝ) (x : PyVal) (hs : ¬ Shifted u) : pyIadd u v x = pyAdd u v x := by
  unfold pyIadd
  cases x with
  | qty w v' =>
    by_cases h : w = u
    · subst h
      simp only [if_true, pyAdd, PyVal.si, Option.map_some, Option.some.injEq, PyVal.qty.injEq, true_and]
      have hl : w.scale.Linear := by
        unfold Units.Scale.Linear
        constructor <;> intro h <;> apply hs <;> cases w <;> simp_all [Units.Unit.scale, Shifted]
      have := Units.fromSi_toSi w.scale_ok (v + v')
      rw [← this, Units.toSi_linear hl, Units.toSi_linear hl, Units.toSi_linear hl]
      congr 1
      ring
    · simp only [h, if_false]
  | _ => rfl

/-- C121 (partial): scaling a quantity scales what it means, except for Celsius and Fahrenheit. -/
theorem C121_scale_partial (u : Units.Unit) (v k : ℝ) (hu : Right u) (hs : ¬ Shifted u) :
    PyVal.Means (pyMul u v k) u.dim (k * Units.meaning u v) ∧ PyVal.Means (pyDiv u v k) u.dim (Units.meaning u v / k) := by
  have hl : u.scale.Linear := by
    unfold Units.Scale.Linear
    constructor <;> intro h <;> apply hs <;> cases u <;> simp_all [Units.Unit.scale, Shifted]
  refine ⟨⟨u, _, rfl, rfl, ?_⟩, ⟨u, _, rfl, rfl, ?_⟩⟩
  · rw [← si_right hu, ← si_right hu, Units.toSi_linear hl, Units.toSi_linear hl]; ring
  · rw [← si_right hu, ← si_right hu, Units.toSi_linear hl, Units.toSi_linear hl]; ring

/-- C121 (partial): comparisons compare the physical quantities. -/
theorem C121_compare_partial (u w : Units.Unit) (v v' : ℝ) (hu : Right u) (hw : Right w) :
    pyEq u v (.qty w v') = some (Units.meaning u v = Units.meaning w v') ∧
    pyLt u v (.qty w v') = some (Units.meaning u v < Units.meaning w v') ∧
    pyLe u v (.qty w v') = some (Units.meaning u v ≤ Units.meaning w v') ∧
    pyGt u v (.qty w v') = some (Units.meaning u v > Units.meaning w v') ∧
    pyGe u v (.qty w v') = some (Units.meaning u v ≥ Units.meaning w v') := by
  simp only [pyEq, pyLt, pyLe, pyGt, pyGe, PyVal.si, Option.map_some, si_right hu, si_right hw, and_self]

/-- C121 (partial): a parameter bound to a unit class gets the number as written when the object has that very unit, and
refuses everything else: it never misreads a quantity. -/
theorem C121_direct_partial (u : Units.Unit) (x : PyVal) (r : ℝ) : directArg u x = some r ↔ x = .qty u r := by
  cases x with
  | qty w v =>
    unfold directArg
    simp only [classCall]
    split_ifs with h1 h2
    · subst h1; simp
    · constructor
      · intro h; cases h
      · intro h; cases h; exact absurd rfl h1
    · constructor
      · intro h; cases h
      · intro h; cases h; exact absurd rfl h1
  | _ => simp [directArg]

/-- C121 (partial): adding a duration to a time and taking it away again, or taking the first time away, gives back what was
there, in every unit of time. -/
theorem C121_time_partial (et : ℝ) (w : Units.Unit) (v : ℝ) (hw : Right w) :
    timeAdd et (.qty w v) = some (.time (et + Units.meaning w v)) ∧
    timeSub (et + Units.meaning w v) (.qty w v) = some (.time et) ∧
    timeSub (et + Units.meaning w v) (.time et) = some (.qty .second (Units.meaning w v)) ∧
    (∀ x, (∀ u v', x ≠ .qty u v') → timeAdd et x = none) := by
  refine ⟨?_, ?_, ?_, ?_⟩
  · simp only [timeAdd, PyVal.si, Option.map_some, si_right hw]
  · simp only [timeSub, PyVal.si, Option.map_some, si_right hw]
    congr 2; ring
  · simp only [timeSub]
    congr 2; ring
  · intro x hx
    cases x with
    | qty w' v' => exact absurd rfl (hx w' v')
    | _ => rfl

/-- All unit aliases. -/
def allUnits : List Units.Unit :=
  [.kilometer, .meter, .centimeter, .millimeter, .micrometer, .nanometer, .astronomicalUnit, .foot, .yard, .mile,
   .kilogram, .gram, .milligram, .siderealDay, .day, .hour, .minute, .second, .millisecond, .microsecond,
   .nanosecond, .femtosecond, .ampere, .kelvin, .celsius, .fahrenheit, .mole, .candela, .radian, .degree,
   .arcminute, .arcsecond, .steradian, .squareDegree, .diopter, .millidiopter, .microdiopter, .metersPerSecond,
   .kilometersPerSecond, .milesPerHour, .kilometersPerHour, .radiansPerSecond, .degreesPerSecond, .hertz,
   .kilohertz, .megahertz, .gigahertz, .terahertz, .newton, .kilonewton, .pascal, .kilopascal, .joule,
   .kilojoule, .megajoule, .electronVolt, .squareMeter, .squareCentimeter, .squareMillimeter, .milliwatt, .watt,
   .kilowatt, .megawatt, .gigawatt, .coulomb, .wattsPerMeterSquaredSteradian, .wattsPerMeterSquared,
   .wattsPerSteradian, .lumen]

/-- Every unit alias is a C++ type of its own, so that the module can register a Python class for each. -/
theorem C121_classes_partial (u w : Units.Unit) (hd : u.dim = w.dim) (hs : u.scale = w.scale) : u = w := by
  have hall : ∀ x : Units.Unit, x ∈ allUnits := by intro x; cases x <;> decide
  have hn : (allUnits.map fun x => (x.dim, x.scale)).Nodup := by decide +kernel
  exact List.inj_on_of_nodup_map hn (hall u) (hall w) (Prod.ext hd hs)

/-! ### Violations -/

/-- Full statement: a parameter, an operator or a comparison accepts an object exactly when it is a quantity of the dimension
in question, and then takes it as the physical quantity it stands for. -/
def C121_full : Prop :=
  (∀ u x, (unitFromPy u x).isSome → ∃ a, x.Means u.dim a) ∧
  (∀ u v x, (pyAdd u v x).isSome → ∃ a, x.Means u.dim a) ∧
  (∀ u v x, (pyEq u v x).isSome → ∃ a, x.Means u.dim a) ∧
  (∀ et x, (timeAdd et x).isSome → ∃ a, x.Means Dim.Time a) ∧
  (∀ u x a, x.Means u.dim a → (directArg u x).isSome)

/-- **C121 is violated**: nothing looks at the dimension. A duration is accepted as a position, `Meter(1) + Second(2)` is
three metres, `Meter(1) == Second(1)` holds and a length can be added to a time. -/
theorem C121_dimension_violated :
    unitFromPy .meter (.qty .second 5) = some 5 ∧
    pyAdd .meter 1 (.qty .second 2) = some (.qty .meter 3) ∧
    pyEq .meter 1 (.qty .second 1) = some True ∧
    timeAdd 0 (.qty .kilometer 1) = some (.time 1000) := by
  refine ⟨?_, ?_, ?_, ?_⟩
  · simp [unitFromPy, PyVal.si, Units.Unit.scale, Units.Scale.toSi, Units.Scale.fromSi, Units.Scale.getRatio]
  · simp [pyAdd, PyVal.si, Units.Unit.scale, Units.Scale.toSi, Units.Scale.fromSi, Units.Scale.getRatio]; norm_num
  · simp [pyEq, PyVal.si, Units.Unit.scale, Units.Scale.toSi, Units.Scale.fromSi, Units.Scale.getRatio]
  · simp [timeAdd, PyVal.si, Units.Unit.scale, Units.Scale.toSi, Units.Scale.fromSi, Units.Scale.getRatio]

/-- **C121 is violated**: the implicit conversions registered for the units never take effect, because the constructors they
go through accept numbers only: a sphere light's radius in kilometres or an exposure in milliseconds is refused. -/
theorem C121_implicit_violated (u w : Units.Unit) (v : ℝ) (hw : w ∈ implicitSources u) : directArg u (.qty w v) = none := by
  have hne : w ≠ u := by
    rintro rfl
    revert hw
    cases w <;> simp [implicitSources]
  unfold directArg
  simp only [classCall, if_neg hne, if_pos hw]

/-- **C121 is violated** for temperatures: `Celsius(20) + Celsius(10)` is 303.15 degrees, `x = Celsius(20); x += Celsius(10)`
gives 30 degrees. -/
theorem C121_celsius_violated :
    pyAdd .celsius 20 (.qty .celsius 10) = some (.qty .celsius 303.15) ∧
    pyIadd .celsius 20 (.qty .celsius 10) = some (.qty .celsius 30) := by
  refine ⟨?_, ?_⟩
  · simp only [pyAdd, PyVal.si, Units.Unit.scale, Units.Scale.toSi, Units.Scale.fromSi, Option.map_some]
    norm_num
  · simp only [pyIadd, if_true]
    norm_num

theorem C121_violated : ¬ C121_full := by
  rintro ⟨h, -, -, -, -⟩
  obtain ⟨a, u, v, he, hd, _⟩ := h .meter (.qty .second 5) rfl
  cases he
  exact absurd hd (by decide)

/-- The hypotheses can be met: half a degree is an angle. -/
example : PyVal.Means (.qty .degree 0.5) Units.Unit.radian.dim (Units.meaning .degree 0.5) ∧ Right .degree ∧ ¬ Shifted .degree :=
  ⟨⟨_, _, rfl, rfl, rfl⟩, by unfold Right; decide, by unfold Shifted; decide⟩

example : Units.Unit.millisecond ∈ implicitSources .second := by decide

end Huira.PyUnits
