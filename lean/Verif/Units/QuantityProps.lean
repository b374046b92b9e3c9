import Verif.Units.QuantityModel

/-!
# Units (C61) and the NaN guard of quantities (C89)
-/

set_option linter.unusedSimpArgs false
set_option linter.unusedVariables false

namespace Huira.Units

open Huira.Dim (Dim)

/-! ## Specification: what each unit means -/

/-- The value in SI base units of `v` of each unit, from the international definitions: the 1959 yard
(0.9144 m, 3 feet, mile = 1760 yards), the IAU 2012 astronomical unit, the SI prefixes, degree = π/180,
60 arc-minutes and 3600 arc-seconds to the degree, 0 °C = 273.15 K, °F = 9/5 °C + 32, the SI electron-volt,
and the conventional mean sidereal day. -/
noncomputable def meaning : Unit → ℝ → ℝ
  | .kilometer, v => 1000 * v
  | .meter, v => v
  | .centimeter, v => v / 100
  | .millimeter, v => v / 1000
  | .micrometer, v => v / 10 ^ 6
  | .nanometer, v => v / 10 ^ 9
  | .astronomicalUnit, v => 149597870700 * v
  | .foot, v => 0.3048 * v
  | .yard, v => 3 * 0.3048 * v
  | .mile, v => 1760 * (0.9144 * v)
  | .kilogram, v => v
  | .gram, v => v / 1000
  | .milligram, v => v / 10 ^ 6
  | .siderealDay, v => (23 * 3600 + 56 * 60 + 4.0905) * v
  | .day, v => 24 * 3600 * v
  | .hour, v => 60 * 60 * v
  | .minute, v => 60 * v
  | .second, v => v
  | .millisecond, v => v / 1000
  | .microsecond, v => v / 10 ^ 6
  | .nanosecond, v => v / 10 ^ 9
  | .femtosecond, v => v / 10 ^ 15
  | .ampere, v => v
  | .kelvin, v => v
  | .celsius, v => v + 273.15
  | .fahrenheit, v => (v - 32) * (5 / 9) + 273.15
  | .mole, v => v
  | .candela, v => v
  | .radian, v => v
  | .degree, v => Real.pi / 180 * v
  | .arcminute, v => Real.pi / 180 * (v / 60)
  | .arcsecond, v => Real.pi / 180 * (v / 3600)
  | .steradian, v => v
  | .squareDegree, v => (Real.pi / 180) ^ 2 * v
  | .diopter, v => v
  | .millidiopter, v => v / 1000
  | .microdiopter, v => v / 10 ^ 6
  | .metersPerSecond, v => v
  | .kilometersPerSecond, v => 1000 * v
  | .milesPerHour, v => 1760 * 0.9144 / 3600 * v
  | .kilometersPerHour, v => 1000 / 3600 * v
  | .radiansPerSecond, v => v
  | .degreesPerSecond, v => Real.pi / 180 * v
  | .hertz, v => v
  | .kilohertz, v => 1000 * v
  | .megahertz, v => 10 ^ 6 * v
  | .gigahertz, v => 10 ^ 9 * v
  | .terahertz, v => 10 ^ 12 * v
  | .newton, v => v
  | .kilonewton, v => 1000 * v
  | .pascal, v => v
  | .kilopascal, v => 1000 * v
  | .joule, v => v
  | .kilojoule, v => 1000 * v
  | .megajoule, v => 10 ^ 6 * v
  | .electronVolt, v => 1.602176634 / 10 ^ 19 * v
  | .squareMeter, v => v
  | .squareCentimeter, v => v / 100 / 100
  | .squareMillimeter, v => v / 1000 / 1000
  | .milliwatt, v => v / 1000
  | .watt, v => v
  | .kilowatt, v => 1000 * v
  | .megawatt, v => 10 ^ 6 * v
  | .gigawatt, v => 10 ^ 9 * v
  | .coulomb, v => v
  | .wattsPerMeterSquaredSteradian, v => v
  | .wattsPerMeterSquared, v => v
  | .wattsPerSteradian, v => v
  | .lumen, v => v

/-- A usable scale: the ratio is positive. -/
def Scale.Ok : Scale → Prop
  | .ratio r => 0 < r
  | _ => True

/-- A scale without an offset. -/
def Scale.Linear (s : Scale) : Prop := s ≠ .celsius ∧ s ≠ .fahrenheit

theorem Unit.scale_ok (u : Unit) : u.scale.Ok := by cases u <;> simp [Unit.scale, Scale.Ok] <;> norm_num

theorem mulScale_ok {s t : Scale} (hs : s.Ok) (ht : t.Ok) : (mulScale s t).Ok := by
  cases s <;> cases t <;> simp_all [mulScale, Scale.Ok]
theorem divScale_ok {s t : Scale} (hs : s.Ok) (ht : t.Ok) : (divScale s t).Ok := by
  cases s <;> cases t <;> simp_all [divScale, Scale.Ok]

theorem getRatio_pos {s : Scale} (hs : s.Ok) : 0 < s.getRatio := by
  have := Real.pi_pos
  cases s <;> simp only [Scale.getRatio] <;> try positivity
  simpa [Scale.Ok] using hs

theorem toSi_linear {s : Scale} (hl : s.Linear) (v : ℝ) : s.toSi v = v * s.getRatio := by
  cases s <;> simp_all [Scale.toSi, Scale.Linear]

theorem toSi_fromSi {s : Scale} (hs : s.Ok) (v : ℝ) : s.toSi (s.fromSi v) = v := by
  have hp := (getRatio_pos hs).ne'
  cases s <;> simp only [Scale.toSi, Scale.fromSi] <;> first | (field_simp; try ring) | ring

theorem fromSi_toSi {s : Scale} (hs : s.Ok) (v : ℝ) : s.fromSi (s.toSi v) = v := by
  have hp := (getRatio_pos hs).ne'
  cases s <;> simp only [Scale.toSi, Scale.fromSi] <;> first | (field_simp; try ring) | ring

theorem toSi_strictMono {s : Scale} (hs : s.Ok) {v w : ℝ} : s.toSi v < s.toSi w ↔ v < w := by
  have hp := getRatio_pos hs
  cases s <;> simp only [Scale.toSi] <;> first
    | exact mul_lt_mul_iff_of_pos_right hp
    | constructor <;> intro h <;> linarith

variable {d d1 d2 : Dim} {s t s1 s2 : Scale}

/-! ## C61 -/

/-- Converting to another unit of the same dimension keeps the physical (SI) value. -/
theorem C61_conversion_preserves (ht : t.Ok) (q : Q d s) : (q.as t).toSi = q.toSi := by
  simp [Q.as, Q.toSi, toSi_fromSi ht]

/-- Converting there and back is the identity. -/
theorem C61_round_trip (hs : s.Ok) (ht : t.Ok) (q : Q d s) : (q.as t).as s = q := by
  ext; simp [Q.as, Q.toSi, toSi_fromSi ht, fromSi_toSi hs]

/-- Chains of conversions collapse. -/
theorem C61_chain {u : Scale} (ht : t.Ok) (q : Q d s) : (q.as t).as u = q.as u := by
  ext; simp [Q.as, Q.toSi, toSi_fromSi ht]

/-- The unit a quantity is converted to is the only one holding that SI value. -/
theorem C61_unique (hs : s.Ok) (a b : Q d s) : a.toSi = b.toSi ↔ a = b := by
  constructor
  · intro h
    ext
    have := congrArg s.fromSi h
    simpa [Q.toSi, fromSi_toSi hs] using this
  · rintro rfl; rfl

/-- Comparisons in one unit are comparisons of the physical values. -/
theorem C61_compare (hs : s.Ok) (a b : Q d s) :
    (a.lt b ↔ a.toSi < b.toSi) ∧ (a.le b ↔ a.toSi ≤ b.toSi) ∧ (a.beq b ↔ a.toSi = b.toSi) := by
  refine ⟨(toSi_strictMono hs).symm, ?_, ?_⟩
  · unfold Q.le Q.toSi; rw [← not_lt, ← not_lt]; exact not_congr (toSi_strictMono hs).symm
  · rw [C61_unique hs]
    constructor
    · intro h; ext; exact h
    · rintro rfl; rfl

/-- Comparisons do not depend on the units the operands are expressed in. -/
theorem C61_compare_unit_independent {s' t' : Scale} (hs' : s'.Ok) (ht' : t'.Ok) (a : Q d s) (b : Q d t) :
    (a.ltMixed b ↔ (a.as s').ltMixed (b.as t')) ∧ (a.leMixed b ↔ (a.as s').leMixed (b.as t')) ∧
    (a.beqMixed b ↔ (a.as s').beqMixed (b.as t')) := by
  simp [Q.ltMixed, Q.leMixed, Q.beqMixed, C61_conversion_preserves, hs', ht']

/-- Products and quotients, in whatever units (temperatures with offsets included), have the product and quotient of
the SI values. -/
theorem C61_mul_div (a : Q d1 s1) (b : Q d2 s2) (k : ℝ) :
    (a.mul b).toSi = a.toSi * b.toSi ∧ (a.div b).toSi = a.toSi / b.toSi ∧ (a.recip k).toSi = k / a.toSi := by
  refine ⟨?_, ?_, ?_⟩
  · unfold Q.mul Q.toSi
    cases s1 <;> cases s2 <;> simp [Scale.isTag, mulScale, Scale.toSi, Scale.getRatio] <;> ring
  · unfold Q.div Q.toSi
    cases s1 <;> cases s2 <;> simp [Scale.isTag, divScale, Scale.toSi, Scale.getRatio, mul_div_mul_comm]
  · unfold Q.recip Q.toSi
    cases s1 <;> simp [Scale.isTag, divScale, Scale.toSi, Scale.getRatio]
    field_simp

/-- Sums, differences, multiples and negatives have the corresponding SI values — for units without an offset, with the
operands in the same or in different units. -/
theorem C61_linear_partial (hl : s.Linear) (hs : s.Ok) (a b : Q d s) (c : Q d t) (k : ℝ) :
    (a.add b).toSi = a.toSi + b.toSi ∧ (a.sub b).toSi = a.toSi - b.toSi ∧ (a.scale k).toSi = k * a.toSi ∧
    (a.divScalar k).toSi = a.toSi / k ∧ a.neg.toSi = -a.toSi ∧
    (a.addMixed c).toSi = a.toSi + c.toSi ∧ (a.subMixed c).toSi = a.toSi - c.toSi := by
  have hp := (getRatio_pos hs).ne'
  have hc : (c.as s).value * s.getRatio = c.toSi := by
    rw [← toSi_linear hl]; exact C61_conversion_preserves hs c
  simp only [Q.toSi, toSi_linear hl, Q.add, Q.sub, Q.scale, Q.divScalar, Q.neg, Q.addMixed, Q.subMixed, add_mul, sub_mul, hc]
  exact ⟨trivial, trivial, by ring, by ring, by ring, trivial, trivial⟩

/-- Adding in mixed units does not depend on the unit the sum is expressed in. -/
theorem C61_add_commutes (hs : s.Ok) (ht : t.Ok) (hl : s.Linear) (hlt : t.Linear) (a : Q d s) (b : Q d t) :
    (a.addMixed b).as t = b.addMixed a := by
  rw [← C61_unique ht, C61_conversion_preserves ht, (C61_linear_partial hl hs a a b 0).2.2.2.2.2.1,
    (C61_linear_partial hlt ht b b a 0).2.2.2.2.2.1, add_comm]

/-- Every unit of the library except the mile has its internationally defined SI value. -/
theorem C61_factors_partial (u : Unit) (hu : u ≠ .mile) (q : Q u.dim u.scale) : q.toSi = meaning u q.value := by
  cases u <;> simp only [Q.toSi, Unit.scale, Scale.toSi, Scale.getRatio, meaning] <;>
    first | exact absurd rfl hu | (push_cast; ring)

/-- The mile is 1609.34 m instead of 1609.344 m: 4 mm, or 2.5 parts per million, short. -/
theorem C61_mile (q : Q Unit.mile.dim Unit.mile.scale) :
    q.toSi = 1609.34 * q.value ∧ meaning .mile q.value - q.toSi = 0.004 * q.value := by
  simp only [Q.toSi, Unit.scale, Scale.toSi, Scale.getRatio, meaning]
  constructor
  · push_cast; ring
  · push_cast; ring

/-- The full property: SI values are respected by addition, scaling and the unit table. -/
def C61_full : Prop :=
  (∀ (u : Unit) (a b : Q u.dim u.scale), (a.add b).toSi = a.toSi + b.toSi) ∧
  (∀ (u : Unit) (q : Q u.dim u.scale), q.toSi = meaning u q.value)

/-- It fails twice: 10 °C + 10 °C is 20 °C although 283.15 K + 283.15 K is not 293.15 K, and the mile has a rounded
factor. -/
theorem C61_violated :
    (∃ (u : Unit) (a b : Q u.dim u.scale), (a.add b).toSi ≠ a.toSi + b.toSi) ∧
    (∃ (u : Unit) (q : Q u.dim u.scale), q.toSi ≠ meaning u q.value) ∧ ¬ C61_full := by
  have h1 : ∃ (u : Unit) (a b : Q u.dim u.scale), (a.add b).toSi ≠ a.toSi + b.toSi :=
    ⟨.celsius, ⟨10⟩, ⟨10⟩, by simp only [Q.toSi, Q.add, Unit.scale, Scale.toSi]; norm_num⟩
  have h2 : ∃ (u : Unit) (q : Q u.dim u.scale), q.toSi ≠ meaning u q.value :=
    ⟨.mile, ⟨1⟩, by simp only [Q.toSi, Unit.scale, Scale.toSi, Scale.getRatio, meaning]; norm_num⟩
  refine ⟨h1, h2, ?_⟩
  rintro ⟨hf, -⟩
  obtain ⟨u, a, b, h⟩ := h1
  exact h (hf u a b)

/-- One mile divided by one hour is not one mile per hour. -/
theorem C61_mile_per_hour_violated :
    ((Q.div (⟨1⟩ : Q Unit.mile.dim Unit.mile.scale) (⟨1⟩ : Q Unit.hour.dim Unit.hour.scale)).toSi) ≠
      (⟨1⟩ : Q Unit.milesPerHour.dim Unit.milesPerHour.scale).toSi ∧
    Unit.mile.dim / Unit.hour.dim = Unit.milesPerHour.dim := by
  constructor
  · simp only [Q.toSi, Q.div, Unit.scale, Scale.toSi, Scale.getRatio, Scale.isTag, divScale]
    norm_num [Scale.toSi, Scale.getRatio]
  · decide

/-- Affine units: what the library does compute when it adds or subtracts temperatures. -/
theorem C61_celsius (a b : Q Unit.celsius.dim Unit.celsius.scale) (c : Q Unit.kelvin.dim Unit.kelvin.scale) :
    (a.add b).toSi = a.toSi + b.toSi - 273.15 ∧
    (a.subMixed (d := Dim.Temperature) (t := .ratio 1) c).toSi = a.toSi - c.toSi + 273.15 := by
  constructor
  · simp only [Q.toSi, Q.add, Unit.scale, Scale.toSi]; ring
  · simp only [Q.toSi, Q.subMixed, Q.as, Unit.scale, Scale.toSi, Scale.fromSi, Scale.getRatio]; push_cast; ring

example : ((⟨1⟩ : Q Dim.Length (Unit.kilometer).scale).addMixed (⟨500⟩ : Q Dim.Length (Unit.meter).scale)).value = 1.5 := by
  simp only [Q.addMixed, Q.as, Q.toSi, Unit.scale, Scale.toSi, Scale.fromSi, Scale.getRatio]; norm_num

/-- Composed units stay usable: any product or quotient of usable scales is usable, so all of the above applies to
units built by arithmetic, to any depth. -/
theorem C61_composed (hs : s.Ok) (ht : t.Ok) : (mulScale s t).Ok ∧ (divScale s t).Ok :=
  ⟨mulScale_ok hs ht, divScale_ok hs ht⟩

/-- Spectral quantities convert bin by bin and keep their SI value. -/
theorem C61_spectral {n : ℕ} {r r' : ℚ} (hr' : 0 < r') (q : SQ n r) (i : Fin n) :
    (q.as r').toSi i = q.toSi i ∧ q.toSi i = q.value i * (r : ℝ) := by
  have h : ∀ {r : ℚ} (q : SQ n r), q.toSi i = q.value i * (r : ℝ) := by
    intro r q
    unfold SQ.toSi
    split_ifs with h
    · subst h; simp
    · rfl
  have hne : (r' : ℝ) ≠ 0 := by exact_mod_cast hr'.ne'
  rw [h, h]
  refine ⟨?_, rfl⟩
  simp only [SQ.as]; field_simp

/-- A scalar quantity prints its SI value beside the SI unit; a spectral one prints the unconverted number beside the SI
unit, so anything but an SI-scaled spectral quantity prints wrongly (1 kW prints as "1 W"). -/
theorem C61_spectral_print_violated : ∃ q : SQ 1 1000, q.printed ≠ q.toSi := by
  refine ⟨⟨fun _ => 1⟩, fun h => ?_⟩
  have := congrFun h 0
  simp only [SQ.printed, SQ.toSi] at this
  norm_num at this

/-! ## C89 — quantities and NaN -/

/-- The operators that return a new quantity. -/
def QOp.Returning : QOp → Prop
  | .addAssign _ | .subAssign _ | .mulAssign _ | .divAssign _ => False
  | _ => True

/-- Run a sequence of operations; an exception aborts it. -/
noncomputable def runAll (v : XF) : List QOp → Option XF
  | [] => some v
  | o :: os => (o.run v).bind (fun w => runAll w os)

/-- The full property: a quantity never holds NaN. -/
def C89_full : Prop := ∀ (v : XF) (q : XF) (ops : List QOp) (w : XF),
  construct v = some q → runAll q ops = some w → ¬ w.isNan

theorem construct_not_nan {v q : XF} (h : construct v = some q) : ¬ q.isNan ∧ q = v := by
  unfold construct at h
  split_ifs at h with hn
  cases h; exact ⟨hn, rfl⟩

/-- The constructor rejects exactly NaN. -/
theorem C89_construct (v : XF) : (construct v = none ↔ v = .nan) ∧ (∀ q, construct v = some q → q = v) := by
  refine ⟨?_, fun q h => (construct_not_nan h).2⟩
  unfold construct
  cases v <;> simp [XF.isNan]

/-- As long as only value-returning operators are used, a quantity never holds NaN, however long the computation:
the offending operation throws instead. -/
theorem C89_returning_partial (ops : List QOp) (hops : ∀ o ∈ ops, o.Returning) :
    ∀ (q w : XF), ¬ q.isNan → runAll q ops = some w → ¬ w.isNan := by
  induction ops with
  | nil => intro q w hq h; simp [runAll] at h; rw [← h]; exact hq
  | cons o os ih =>
    intro q w hq h
    simp only [runAll, Option.bind_eq_some_iff] at h
    obtain ⟨x, hx, h⟩ := h
    refine ih (fun o' ho' => hops o' (by simp [ho'])) x w ?_ h
    have ho := hops o (by simp)
    cases o <;> simp only [QOp.Returning] at ho <;> exact (construct_not_nan hx).1

/-- The assigning operators skip the check: `q += -inf` on an infinite quantity leaves NaN in it, silently. -/
theorem C89_violated : ¬ C89_full := by
  intro h
  refine h .pinf .pinf [.addAssign .ninf] .nan ?_ rfl trivial
  simp [construct, XF.isNan]

/-- The same with a scalar: `q *= NaN` is accepted for every quantity, where `q * NaN` throws. -/
theorem C89_scalar_violated (q : XF) :
    (QOp.mulAssign .nan).run q = some .nan ∧ (QOp.mulScalar .nan).run q = none := by
  cases q <;> simp [QOp.run, XF.mul, construct, XF.isNan]

end Huira.Units
