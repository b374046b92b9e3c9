import Verif.Num.XFloat
import Mathlib.Analysis.SpecialFunctions.Log.Base
/-!
# Sensor model

`include/huira_impl/cameras/sensors/sensor_model.ipp`, `simple_sensor.ipp`,
`include/huira/cameras/sensors/sensor_model.hpp`. Values are extended floats (`XF`): exact finite arithmetic with NaN and
infinities. `quantum_efficiency` is a vector over `n` bins.
-/
namespace Huira.Sensor
noncomputable section
open Classical

/-- `SensorConfig` (sensor_model.hpp 25-71). The rotation, which has no setter check and is not used by readout, is
left out. -/
structure Config (n : Nat) where
  resX : Int
  resY : Int
  pitchX : XF
  pitchY : XF
  qe : Fin n → XF
  fullWell : XF
  simulateNoise : Bool
  readNoise : XF
  darkCurrent : XF
  bias : XF
  bitDepth : Int
  gain : XF
  unityDb : XF

/-- Default member initialisers (sensor_model.hpp 26-45); lengths in metres. The default quantum efficiency, half the
normalised photon energies, is taken as an argument `qe0`. -/
def Config.default {n : Nat} (qe0 : Fin n → ℝ) : Config n where
  resX := 1024
  resY := 1024
  pitchX := .fin 8.5e-6
  pitchY := .fin 8.5e-6
  qe := fun c => .fin (qe0 c)
  fullWell := .fin 20000
  simulateNoise := true
  readNoise := .fin 10
  darkCurrent := .fin 1
  bias := .fin 10
  bitDepth := 12
  gain := .fin 1.22
  unityDb := .fin 0

/-- Result of a setter: the configuration afterwards and whether it threw. -/
structure Out (n : Nat) where
  cfg : Config n
  threw : Bool

def ok {n : Nat} (c : Config n) : Out n := ⟨c, false⟩
def throw {n : Nat} (c : Config n) : Out n := ⟨c, true⟩

/-- `set_resolution` (sensor_model.ipp 36-43) -/
def setResolution {n : Nat} (c : Config n) (x y : Int) : Out n :=
  if x < 0 ∨ y < 0 then throw c else ok { c with resX := x, resY := y }

/-- `set_pixel_pitch` (sensor_model.ipp 53-63) -/
def setPixelPitch {n : Nat} (c : Config n) (x y : XF) : Out n :=
  if x.le (.fin 0) ∨ x.isInf ∨ x.isNan ∨ y.le (.fin 0) ∨ y.isInf ∨ y.isNan then throw c
  else ok { c with pitchX := x, pitchY := y }

/-- `set_sensor_size` (sensor_model.ipp 86-97) -/
def setSensorSize {n : Nat} (c : Config n) (w h : XF) : Out n :=
  if w.le (.fin 0) ∨ w.isInf ∨ w.isNan ∨ h.le (.fin 0) ∨ h.isInf ∨ h.isNan then throw c
  else setPixelPitch c (w.div (.fin c.resX)) (h.div (.fin c.resY))

/-- `SpectralBins::valid_ratio` (spectral_bins.ipp 383-397) -/
def validRatio {n : Nat} (q : Fin n → XF) : Prop :=
  ∀ c, ¬ ((q c).lt (.fin 0) ∨ XF.lt (.fin 1) (q c)) ∧ ¬ (q c).isNan ∧ ¬ (q c).isInf

/-- `set_quantum_efficiency` (sensor_model.ipp 118-125) -/
def setQe {n : Nat} (c : Config n) (q : Fin n → XF) : Out n :=
  if ¬ validRatio q then throw c else ok { c with qe := q }

/-- `set_full_well_capacity` (sensor_model.ipp 134-142) -/
def setFullWell {n : Nat} (c : Config n) (v : XF) : Out n :=
  if v.le (.fin 0) ∨ v.isInf ∨ v.isNan then throw c else ok { c with fullWell := v }
/-- `set_read_noise` (sensor_model.ipp 151-159) -/
def setReadNoise {n : Nat} (c : Config n) (v : XF) : Out n :=
  if v.lt (.fin 0) ∨ v.isInf ∨ v.isNan then throw c else ok { c with readNoise := v }
/-- `set_dark_current` (sensor_model.ipp 168-176) -/
def setDarkCurrent {n : Nat} (c : Config n) (v : XF) : Out n :=
  if v.lt (.fin 0) ∨ v.isInf ∨ v.isNan then throw c else ok { c with darkCurrent := v }
/-- `set_bias_level_dn` (sensor_model.ipp 185-193) -/
def setBias {n : Nat} (c : Config n) (v : XF) : Out n :=
  if v.lt (.fin 0) ∨ v.isInf ∨ v.isNan then throw c else ok { c with bias := v }
/-- `set_bit_depth` (sensor_model.ipp 202-209) -/
def setBitDepth {n : Nat} (c : Config n) (v : Int) : Out n :=
  if v ≤ 0 then throw c else ok { c with bitDepth := v }
/-- `set_gain_adu` (sensor_model.ipp 218-225) -/
def setGain {n : Nat} (c : Config n) (v : XF) : Out n :=
  if v.le (.fin 0) ∨ v.isInf ∨ v.isNan then throw c else ok { c with gain := v }
/-- `set_unity_db` (sensor_model.ipp 234-242) -/
def setUnityDb {n : Nat} (c : Config n) (v : XF) : Out n :=
  if v.isInf ∨ v.isNan then throw c else ok { c with unityDb := v }

/-- `std::pow(10.f, e)` in single precision: results below half the smallest denormal are 0, results from 2^128 on are
infinite, in between exact (rounding left out). -/
def powf10 : XF → XF
  | .fin e => if (10 : ℝ) ^ e ≤ 2 ^ (-150 : ℝ) then .fin 0 else if 2 ^ (128 : ℝ) ≤ (10 : ℝ) ^ e then .pinf else .fin (10 ^ e)
  | .pinf => .pinf
  | .ninf => .fin 0
  | .nan => .nan

/-- `SensorConfig::set_gain_db` (sensor_model.hpp 52-59) -/
def setGainDb {n : Nat} (c : Config n) (v : XF) : Out n :=
  if v.isInf ∨ v.isNan then throw c
  else ok { c with gain := powf10 ((c.unityDb.add v.neg).div (.fin 20)) }
/-- `gain_db` (sensor_model.hpp 64), for a positive finite gain -/
def gainDb {n : Nat} (c : Config n) : XF :=
  match c.gain with
  | .fin g => c.unityDb.add (XF.neg (.fin (20 * Real.logb 10 g)))
  | _ => .nan

/-- `set_simulate_noise` (sensor_model.hpp 104) -/
def setSimulateNoise {n : Nat} (c : Config n) (b : Bool) : Out n := ok { c with simulateNoise := b }

/-- Setter calls. -/
inductive Op (n : Nat) where
  | resolution (x y : Int)
  | pixelPitch (x y : XF)
  | sensorSize (w h : XF)
  | qe (q : Fin n → XF)
  | fullWell (v : XF)
  | readNoise (v : XF)
  | darkCurrent (v : XF)
  | bias (v : XF)
  | bitDepth (v : Int)
  | gain (v : XF)
  | unityDb (v : XF)
  | gainDb (v : XF)
  | simulateNoise (b : Bool)

def apply {n : Nat} (c : Config n) : Op n → Out n
  | .resolution x y => setResolution c x y
  | .pixelPitch x y => setPixelPitch c x y
  | .sensorSize w h => setSensorSize c w h
  | .qe q => setQe c q
  | .fullWell v => setFullWell c v
  | .readNoise v => setReadNoise c v
  | .darkCurrent v => setDarkCurrent c v
  | .bias v => setBias c v
  | .bitDepth v => setBitDepth c v
  | .gain v => setGain c v
  | .unityDb v => setUnityDb c v
  | .gainDb v => setGainDb c v
  | .simulateNoise b => setSimulateNoise c b

/-- A program that catches the exceptions and carries on. -/
def run {n : Nat} (c : Config n) (h : List (Op n)) : Config n := h.foldl (fun c o => (apply c o).cfg) c

/-! ## Readout -/

/-- `max_dn` (simple_sensor.ipp 79), exact -/
def maxDn {n : Nat} (c : Config n) : ℝ := 2 ^ c.bitDepth - 1

/-- `noise_and_adc` (simple_sensor.ipp 25-53). `shot` and `read` are the values the two normal distributions return. -/
def noiseAdc {n : Nat} (c : Config n) (signal dark shot read : XF) (maxDn : ℝ) : XF :=
  let acc := signal.add dark
  let acc := if c.simulateNoise then (acc.add shot).add read else acc
  let bias := if c.simulateNoise then c.bias else .fin 0
  let acc := XF.min acc c.fullWell
  let dn := (acc.div c.gain).add bias
  (XF.clamp dn (.fin 0) (.fin maxDn)).div (.fin maxDn)

/-- Photo-electrons of one bin (simple_sensor.ipp 89-96): power, exposure time, photon energy, quantum efficiency. -/
def electrons (power dt energy qe : XF) : XF := (((power.mul dt).div energy).mul qe)

/-- Dark electrons (simple_sensor.ipp 81-84) -/
def darkE {n : Nat} (c : Config n) (dt : XF) : XF := if c.simulateNoise then c.darkCurrent.mul dt else .fin 0

/-- `electrons.total()`: sum over bins (spectral_bins.ipp). -/
def total {n : Nat} (f : Fin n → XF) : XF := (List.ofFn f).foldl XF.add (.fin 0)

/-- Readout of a mono sensor, one pixel (simple_sensor.ipp 86-114). -/
def pixelMono {n : Nat} (c : Config n) (energy : Fin n → XF) (dt : XF) (power : Fin n → XF) (shot read : XF) : XF :=
  noiseAdc c (total fun b => electrons (power b) dt (energy b) (c.qe b)) (darkE c dt) shot read (maxDn c)

end
end Huira.Sensor
