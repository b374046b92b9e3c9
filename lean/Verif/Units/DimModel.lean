import Mathlib.Data.Nat.Digits.Defs
import Mathlib.Data.Int.Basic
import Mathlib.Algebra.Ring.Int.Defs
import Mathlib.Tactic

/-!
# Model of physical dimensions

Models `include/huira/units/dimensionality.hpp` and `include/huira_impl/units/dimensionality.ipp`.
A C++ type `Dimensionality<L,M,T,I,O,N,J,A,S>` is a record of nine integer exponents; two such types are the
same exactly when the exponents are.  (`int` overflow of the template arguments is a compile error and is
not modelled.)
-/

namespace Huira.Dim

/-- `Dimensionality<L, M, T, I, O, N, J, A, S>` (`dimensionality.hpp` 9-26). -/
@[ext]
structure Dim where
  L : ℤ
  M : ℤ
  T : ℤ
  I : ℤ
  O : ℤ
  N : ℤ
  J : ℤ
  A : ℤ
  S : ℤ
deriving DecidableEq, Repr

/-- `operator*` on dimensionalities (`dimensionality.hpp` 28-59): exponents add. -/
def Dim.mul (a b : Dim) : Dim :=
  ⟨a.L + b.L, a.M + b.M, a.T + b.T, a.I + b.I, a.O + b.O, a.N + b.N, a.J + b.J, a.A + b.A, a.S + b.S⟩

/-- `operator/` on dimensionalities (`dimensionality.hpp` 61-94): exponents subtract. -/
def Dim.div (a b : Dim) : Dim :=
  ⟨a.L - b.L, a.M - b.M, a.T - b.T, a.I - b.I, a.O - b.O, a.N - b.N, a.J - b.J, a.A - b.A, a.S - b.S⟩

instance : Mul Dim := ⟨Dim.mul⟩
instance : Div Dim := ⟨Dim.div⟩

/-! The named dimensionality types (`dimensionality.hpp` 110-154). -/

/-- `Dimensionless` (`dimensionality.hpp` 111). -/
def Dimensionless : Dim := ⟨0, 0, 0, 0, 0, 0, 0, 0, 0⟩
/-- `Length` (112). -/
def Length : Dim := ⟨1, 0, 0, 0, 0, 0, 0, 0, 0⟩
/-- `Mass` (113). -/
def Mass : Dim := ⟨0, 1, 0, 0, 0, 0, 0, 0, 0⟩
/-- `Time` (114). -/
def Time : Dim := ⟨0, 0, 1, 0, 0, 0, 0, 0, 0⟩
/-- `Current` (115). -/
def Current : Dim := ⟨0, 0, 0, 1, 0, 0, 0, 0, 0⟩
/-- `Temperature` (116). -/
def Temperature : Dim := ⟨0, 0, 0, 0, 1, 0, 0, 0, 0⟩
/-- `AmountOfSubstance` (117). -/
def AmountOfSubstance : Dim := ⟨0, 0, 0, 0, 0, 1, 0, 0, 0⟩
/-- `LuminousIntensity` (118). -/
def LuminousIntensity : Dim := ⟨0, 0, 0, 0, 0, 0, 1, 0, 0⟩
/-- `Angle` (121). -/
def Angle : Dim := ⟨0, 0, 0, 0, 0, 0, 0, 1, 0⟩
/-- `SolidAngle` (122). -/
def SolidAngle : Dim := ⟨0, 0, 0, 0, 0, 0, 0, 0, 1⟩
/-- `Area` (125). -/
def Area : Dim := Length * Length
/-- `Volume` (126). -/
def Volume : Dim := Length * Length * Length
/-- `Velocity` (127). -/
def Velocity : Dim := Length / Time
/-- `Acceleration` (128). -/
def Acceleration : Dim := Velocity / Time
/-- `ReciprocalLength` (131). -/
def ReciprocalLength : Dim := Dimensionless / Length
/-- `Frequency` (132). -/
def Frequency : Dim := Dimensionless / Time
/-- `Force` (133). -/
def Force : Dim := Mass * Acceleration
/-- `Pressure` (134). -/
def Pressure : Dim := Force / Area
/-- `Energy` (135). -/
def Energy : Dim := Force * Length
/-- `Power` (136). -/
def Power : Dim := Energy / Time
/-- `Charge` (137). -/
def Charge : Dim := Time * Current
/-- `Voltage` (138). -/
def Voltage : Dim := Power / Current
/-- `Capacitance` (139). -/
def Capacitance : Dim := Charge / Voltage
/-- `Resistance` (140). -/
def Resistance : Dim := Voltage / Current
/-- `LuminousFlux` (141). -/
def LuminousFlux : Dim := LuminousIntensity * SolidAngle
/-- `Illuminance` (142). -/
def Illuminance : Dim := LuminousFlux / Area
/-- `AngularVelocity` (145). -/
def AngularVelocity : Dim := Angle / Time
/-- `AngularAcceleration` (146). -/
def AngularAcceleration : Dim := AngularVelocity / Time
/-- `Radiance` (149). -/
def Radiance : Dim := Power / (Area * SolidAngle)
/-- `Irradiance` (150). -/
def Irradiance : Dim := Power / Area
/-- `RadiantIntensity` (151). -/
def RadiantIntensity : Dim := Power / SolidAngle
/-- `Luminance` (154). -/
def Luminance : Dim := LuminousIntensity / Area

/-! ## Printing -/

/-- One decimal digit as a character. -/
def digitChar (n : ℕ) : Char := Char.ofNat (48 + n)

/-- `std::to_string` of a natural number, as a list of characters: decimal digits, most significant first.
(`get_si_unit_string` only prints values greater than one.) -/
def decimal (n : ℕ) : List Char := ((Nat.digits 10 n).reverse).map digitChar

/-- `get_si_unit_string(power_prefix, val, unit)` (`dimensionality.ipp` 13-32), on lists of characters. -/
def unitString (prefix' : ℤ) (val : ℤ) (unit : List Char) : List Char :=
  let val := prefix' * val
  if val = 0 then []
  else if val = 1 then unit
  else if val > 1 then '(' :: (unit ++ (')' :: '^' :: decimal val.toNat))
  else []

/-- The numerator (`p = 1`) or denominator (`p = -1`) of the fall-back text (`dimensionality.ipp` 85-107). -/
def side (p : ℤ) (d : Dim) : List Char :=
  unitString p d.L ['m'] ++ (unitString p d.M ['K', 'g'] ++ (unitString p d.T ['s'] ++
  (unitString p d.I ['A'] ++ (unitString p d.O ['K'] ++ (unitString p d.N ['m', 'o', 'l'] ++
  (unitString p d.J ['c', 'd'] ++ (unitString p d.A ['r', 'a', 'd'] ++ unitString p d.S ['s', 'r'])))))))

/-- The named units tried first (`dimensionality.ipp` 38-82), in order. -/
def named : List (Dim × List Char) :=
  [(Frequency, ['H', 'z']), (Force, ['N']), (Pressure, ['P', 'a']), (Energy, ['J']), (Power, ['W']),
   (Charge, ['C']), (Voltage, ['V']), (Capacitance, ['F']), (Resistance, ['O', 'h', 'm']),
   (LuminousFlux, ['l', 'm']),
   (Illuminance, ['l', 'm', ' ', '/', ' ', 'm', '^', '2']),
   (Radiance, ['W', ' ', '/', ' ', 'm', '^', '2', ' ', 's', 'r']),
   (Irradiance, ['W', ' ', '/', ' ', 'm', '^', '2']),
   (RadiantIntensity, ['W', ' ', '/', ' ', 's', 'r']),
   (Luminance, ['c', 'd', ' ', '/', ' ', 'm', '^', '2'])]

/-- The text built from base units (`dimensionality.ipp` 84-119). -/
def fallback (d : Dim) : List Char :=
  let numerator := side 1 d
  let denominator := side (-1) d
  if denominator = [] ∧ numerator = [] then "dimensionless".toList
  else if numerator = [] then '1' :: ' ' :: '/' :: ' ' :: denominator
  else if denominator = [] then numerator
  else numerator ++ (' ' :: '/' :: ' ' :: denominator)

/-- `to_si_string()` (`dimensionality.ipp` 34-120). -/
def toSiString (d : Dim) : List Char :=
  match named.find? (fun p => p.1 = d) with
  | some p => p.2
  | none => fallback d

end Huira.Dim
