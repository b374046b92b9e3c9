import Verif.Sensor.Props

/-!
# Sensors made from a configuration (C168)

Models the constructor `SensorModel(SensorConfig)` (`include/huira_impl/cameras/sensors/sensor_model.ipp` 15-28), which
`SimpleSensor(config)` (`include/huira/cameras/sensors/simple_sensor.hpp` 33-36) calls with the configuration it is given and
`set_sensor<SimpleSensor<...>>(config)` (`camera_model.ipp` 107-113) with that of the user. The fields of `SensorConfig` are public
(sensor_model.hpp 25-45), so a configuration is any values. The setters are those of `Sensor/Model.lean`.
-/
set_option linter.unusedSimpArgs false
namespace Huira.Sensor
open Classical

/-- `SensorModel::SensorModel(config)` (sensor_model.ipp 15-28); `none` when it throws. `config_{config}` copies every field. -/
noncomputable def construct {n : Nat} (c : Config n) : Option (Config n) :=
  if c.resX < 0 ∨ c.resY < 0 then none
  else if c.pitchX.le (.fin 0) ∨ c.pitchY.le (.fin 0) then none
  else some c

/-! ## Specification -/

/-- **C168 in full**: a sensor can be made from exactly the configurations whose values the setters allow, and then has them. -/
def C168_full : Prop := ∀ (n : Nat) (c : Config n), (Valid c → construct c = some c) ∧ (¬ Valid c → construct c = none)

/-! ## What holds -/

/-- **C168 (partial).** Every configuration with allowed values is accepted unchanged; negative resolutions and pixels that are not
positive are refused; and a sensor that was made keeps a resolution that is not negative whatever is called later. -/
theorem C168_partial {n : Nat} (c : Config n) :
    (Valid c → construct c = some c) ∧
    (c.resX < 0 ∨ c.resY < 0 ∨ (∃ r : ℝ, r ≤ 0 ∧ (c.pitchX = .fin r ∨ c.pitchY = .fin r)) → construct c = none) ∧
    (∀ c', construct c = some c' → c' = c ∧ ∀ h, 0 ≤ (run c' h).resX ∧ 0 ≤ (run c' h).resY) := by
  refine ⟨fun hv => ?_, ?_, ?_⟩
  · obtain ⟨⟨x, hx, hx0⟩, ⟨y, hy, hy0⟩⟩ := hv.pitch
    obtain ⟨r1, r2⟩ := hv.res
    unfold construct
    rw [if_neg (by omega), if_neg]
    rw [hx, hy]
    simp [XF.le, hx0, hy0]
  · rintro (h | h | ⟨r, hr, h⟩)
    · simp [construct, h]
    · simp [construct, h]
    · unfold construct
      split
      · rfl
      · rw [if_pos]
        rcases h with h | h
        · exact Or.inl (by rw [h]; exact hr)
        · exact Or.inr (by rw [h]; exact hr)
  · intro c' hc
    unfold construct at hc
    split at hc
    · cases hc
    · next h1 =>
      split at hc
      · cases hc
      · cases hc
        refine ⟨rfl, ?_⟩
        have keep : ∀ (h : List (Op n)) (d : Config n), 0 ≤ d.resX → 0 ≤ d.resY → 0 ≤ (run d h).resX ∧ 0 ≤ (run d h).resY := by
          intro h
          induction h with
          | nil => exact fun d a b => ⟨a, b⟩
          | cons o h ih =>
            intro d a b
            have : 0 ≤ (apply d o).cfg.resX ∧ 0 ≤ (apply d o).cfg.resY := by
              cases o <;> simp only [apply, setResolution, setPixelPitch, setSensorSize, setQe, setFullWell, setReadNoise,
                setDarkCurrent, setBias, setBitDepth, setGain, setUnityDb, setGainDb, setSimulateNoise, ok, throw] <;>
                (try split_ifs) <;> (try exact ⟨a, b⟩)
              simp only
              omega
            exact ih _ this.1 this.2
        intro h
        exact keep h c (by omega) (by omega)

/-! ## What does not -/

/-- **C168 is violated** for every other value: whatever full well, noise, dark current, bias, bit depth, gain, reference and quantum
efficiency are written into an allowed configuration, NaN included, a sensor is made with them, and with infinitely wide pixels. -/
theorem C168_violated {n : Nat} (c : Config n) (hv : Valid c) (qe : Fin n → XF) (fullWell readNoise dark bias gain unity : XF) (bits : Int)
    (px py : XF) (hx : px = .pinf ∨ px = c.pitchX) (hy : py = .pinf ∨ py = c.pitchY) :
    construct (⟨c.resX, c.resY, px, py, qe, fullWell, c.simulateNoise, readNoise, dark, bias, bits, gain, unity⟩ : Config n) =
      some ⟨c.resX, c.resY, px, py, qe, fullWell, c.simulateNoise, readNoise, dark, bias, bits, gain, unity⟩ := by
  obtain ⟨⟨x, ex, hx0⟩, ⟨y, ey, hy0⟩⟩ := hv.pitch
  obtain ⟨r1, r2⟩ := hv.res
  unfold construct
  rw [if_neg (by simp only; omega), if_neg]
  simp only
  rw [ex] at hx
  rw [ey] at hy
  rcases hx with rfl | rfl <;> rcases hy with rfl | rfl <;> simp [XF.le, hx0, hy0]

theorem C168_violated_full : ¬ C168_full := by
  intro h
  have hv : Valid (Config.default (n := 0) fun b => b.elim0) := valid_default _ fun b => b.elim0
  have h1 := C168_violated _ hv (fun b => b.elim0) .nan .nan .nan .nan .nan .nan 0 _ _ (Or.inr rfl) (Or.inr rfl)
  rw [(h 0 _).2] at h1
  · cases h1
  · intro hb
    obtain ⟨r, hr, _⟩ := hb.fullWell
    cases hr

/-- **C168, what comes of it.** A sensor made with gain zero, and no noise, makes NaN of a pixel that received nothing. -/
theorem C168_violated_picture {n : Nat} (c : Config n) (hv : Valid c) (shot read : XF) :
    ∃ s, construct { c with gain := .fin 0, simulateNoise := false } = some s ∧
      ¬ In01 (noiseAdc s (.fin 0) (.fin 0) shot read (maxDn s)) := by
  refine ⟨_, C168_violated { c with simulateNoise := false } { hv with } c.qe c.fullWell c.readNoise c.darkCurrent c.bias (.fin 0) c.unityDb
    c.bitDepth c.pitchX c.pitchY (Or.inr rfl) (Or.inr rfl), ?_⟩
  obtain ⟨w, hw, hw0⟩ := hv.fullWell
  rintro ⟨r, hr, h0, h1⟩
  simp only [noiseAdc, hw, Bool.false_eq_true, if_false] at hr
  have hm : XF.min (XF.add (.fin 0) (.fin 0)) (.fin w) = .fin 0 := by
    simp [XF.min, XF.add, XF.lt, not_lt.2 hw0.le]
  rw [hm] at hr
  simp [XF.div, XF.infTimes, XF.add, XF.clamp, XF.lt] at hr

/-! ## Repair by setters -/

theorem run_iff {n : Nat} (P : Config n → Prop) (S : Op n → Prop) (hstep : ∀ c o, P (apply c o).cfg ↔ P c ∨ S o) (h : List (Op n)) :
    ∀ c, P (run c h) ↔ P c ∨ ∃ o ∈ h, S o := by
  induction h with
  | nil => intro c; simp [run]
  | cons o h ih =>
    intro c
    have := ih (apply c o).cfg
    rw [hstep] at this
    rw [List.exists_mem_cons_iff, ← or_assoc, ← this]
    rfl

theorem nonneg_step {n : Nat} (c : Config n) (o : Op n) :
    ((apply c o).cfg.readNoise.IsNonneg ↔ c.readNoise.IsNonneg ∨ ∃ v : XF, o = .readNoise v ∧ v.IsNonneg) ∧
    ((apply c o).cfg.darkCurrent.IsNonneg ↔ c.darkCurrent.IsNonneg ∨ ∃ v : XF, o = .darkCurrent v ∧ v.IsNonneg) ∧
    ((apply c o).cfg.bias.IsNonneg ↔ c.bias.IsNonneg ∨ ∃ v : XF, o = .bias v ∧ v.IsNonneg) ∧
    ((apply c o).cfg.fullWell.IsPos ↔ c.fullWell.IsPos ∨ ∃ v : XF, o = .fullWell v ∧ v.IsPos) ∧
    (0 < (apply c o).cfg.bitDepth ↔ 0 < c.bitDepth ∨ ∃ v : Int, o = .bitDepth v ∧ 0 < v) := by
  cases o with
  | readNoise v =>
    simp only [apply, setReadNoise]
    split_ifs with h
    · have := mt (XF.isNonneg_iff v).1 (not_not.2 h); simp [throw, this]
    · have := (XF.isNonneg_iff v).2 h; simp [ok, this]
  | darkCurrent v =>
    simp only [apply, setDarkCurrent]
    split_ifs with h
    · have := mt (XF.isNonneg_iff v).1 (not_not.2 h); simp [throw, this]
    · have := (XF.isNonneg_iff v).2 h; simp [ok, this]
  | bias v =>
    simp only [apply, setBias]
    split_ifs with h
    · have := mt (XF.isNonneg_iff v).1 (not_not.2 h); simp [throw, this]
    · have := (XF.isNonneg_iff v).2 h; simp [ok, this]
  | fullWell v =>
    simp only [apply, setFullWell]
    split_ifs with h
    · have := mt (XF.isPos_iff v).1 (not_not.2 h); simp [throw, this]
    · have := (XF.isPos_iff v).2 h; simp [ok, this]
  | bitDepth v =>
    simp only [apply, setBitDepth]
    split_ifs with h
    · simp [throw]; omega
    · simp [ok]; omega
  | _ =>
    simp only [apply, setResolution, setPixelPitch, setSensorSize, setQe, setGain, setUnityDb, setGainDb, setSimulateNoise, ok, throw]
    (try split_ifs) <;> simp

/-- **C168, repair.** Whatever a sensor was made with, and whatever is called, each of these is allowed in the end exactly if it was at
first or some call of its own setter gave an allowed value. -/
theorem C168_repair {n : Nat} (c : Config n) (h : List (Op n)) :
    ((run c h).readNoise.IsNonneg ↔ c.readNoise.IsNonneg ∨ ∃ v : XF, Op.readNoise v ∈ h ∧ v.IsNonneg) ∧
    ((run c h).darkCurrent.IsNonneg ↔ c.darkCurrent.IsNonneg ∨ ∃ v : XF, Op.darkCurrent v ∈ h ∧ v.IsNonneg) ∧
    ((run c h).bias.IsNonneg ↔ c.bias.IsNonneg ∨ ∃ v : XF, Op.bias v ∈ h ∧ v.IsNonneg) ∧
    ((run c h).fullWell.IsPos ↔ c.fullWell.IsPos ∨ ∃ v : XF, Op.fullWell v ∈ h ∧ v.IsPos) ∧
    (0 < (run c h).bitDepth ↔ 0 < c.bitDepth ∨ ∃ v : Int, Op.bitDepth v ∈ h ∧ 0 < v) := by
  refine ⟨?_, ?_, ?_, ?_, ?_⟩
  · rw [run_iff (fun c => c.readNoise.IsNonneg) (fun o => ∃ v : XF, o = .readNoise v ∧ v.IsNonneg) (fun c o => (nonneg_step c o).1) h c]; aesop
  · rw [run_iff (fun c => c.darkCurrent.IsNonneg) (fun o => ∃ v : XF, o = .darkCurrent v ∧ v.IsNonneg) (fun c o => (nonneg_step c o).2.1) h c]; aesop
  · rw [run_iff (fun c => c.bias.IsNonneg) (fun o => ∃ v : XF, o = .bias v ∧ v.IsNonneg) (fun c o => (nonneg_step c o).2.2.1) h c]; aesop
  · rw [run_iff (fun c => c.fullWell.IsPos) (fun o => ∃ v : XF, o = .fullWell v ∧ v.IsPos) (fun c o => (nonneg_step c o).2.2.2.1) h c]; aesop
  · rw [run_iff (fun c => 0 < c.bitDepth) (fun o => ∃ v : Int, o = .bitDepth v ∧ 0 < v) (fun c o => (nonneg_step c o).2.2.2.2) h c]; aesop

/-- A sensor with an infinite full well, which a later call makes finite; one with a negative number of rows is refused. -/
example : (∃ s, construct { Config.default (n := 3) (fun _ => 1 / 2) with fullWell := .pinf } = some s ∧ ¬ s.fullWell.IsPos ∧
      (run s [.bias (.fin (-1)), .fullWell (.fin 9000)]).fullWell.IsPos) ∧
    construct { Config.default (n := 3) (fun _ => 1 / 2) with resY := -1 } = none := by
  have hv : Valid (Config.default (n := 3) fun _ => 1 / 2) := valid_default _ fun b => by norm_num
  refine ⟨⟨_, C168_violated _ hv _ .pinf _ _ _ _ _ _ _ _ (Or.inr rfl) (Or.inr rfl), ?_, ?_⟩, ?_⟩
  · rintro ⟨r, hr, _⟩; cases hr
  · exact (C168_repair _ _).2.2.2.1.2 (Or.inr ⟨.fin 9000, by simp, 9000, rfl, by norm_num⟩)
  · exact (C168_partial _).2.1 (Or.inr (Or.inl (by simp)))

end Huira.Sensor
