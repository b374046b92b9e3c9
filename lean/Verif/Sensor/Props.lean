import Verif.Sensor.Model
import Mathlib.Algebra.BigOperators.Fin
import Mathlib.Algebra.Order.BigOperators.Group.Finset
/-!
# Sensor: properties C35, C36
-/
set_option linter.unusedSimpArgs false
namespace Huira.Sensor
open Classical

/-! ## Specification -/

/-- The documented ranges of all parameters. -/
structure Valid {n : Nat} (c : Config n) : Prop where
  res : 0 ≤ c.resX ∧ 0 ≤ c.resY
  pitch : c.pitchX.IsPos ∧ c.pitchY.IsPos
  qe : ∀ b, ∃ r : ℝ, c.qe b = .fin r ∧ 0 ≤ r ∧ r ≤ 1
  fullWell : c.fullWell.IsPos
  readNoise : c.readNoise.IsNonneg
  darkCurrent : c.darkCurrent.IsNonneg
  bias : c.bias.IsNonneg
  bitDepth : 0 < c.bitDepth
  gain : c.gain.IsPos
  unityDb : ∃ r : ℝ, c.unityDb = .fin r

/-- A value in [0,1]. -/
def In01 (v : XF) : Prop := ∃ r : ℝ, v = .fin r ∧ 0 ≤ r ∧ r ≤ 1

/-- **C35 in full** (range clause): after any history of setter calls, every digitised value computed from electrons that
are not NaN lies in [0,1]. -/
def C35_full : Prop := ∀ (n : Nat) (qe0 : Fin n → ℝ), (∀ b, 0 ≤ qe0 b ∧ qe0 b ≤ 1) → ∀ (h : List (Op n)) (signal dark shot read : XF),
  let c := run (Config.default qe0) h
  ¬ (if c.simulateNoise then ((signal.add dark).add shot).add read else signal.add dark).isNan →
  In01 (noiseAdc c signal dark shot read (maxDn c))

/-- **C36 in full**: a setter that throws changes nothing, and all parameters stay in their ranges. -/
def C36_full : Prop := ∀ (n : Nat) (qe0 : Fin n → ℝ), (∀ b, 0 ≤ qe0 b ∧ qe0 b ≤ 1) → ∀ (h : List (Op n)),
  (∀ o, (apply (run (Config.default qe0) h) o).threw = true → (apply (run (Config.default qe0) h) o).cfg = run (Config.default qe0) h) ∧
  Valid (run (Config.default qe0) h)

/-! ## C36 -/

/-- **C36 (partial).** In every state, a setter that throws leaves every parameter unchanged. -/
theorem C36_throw_unchanged_partial {n : Nat} (c : Config n) (o : Op n) (h : (apply c o).threw = true) : (apply c o).cfg = c := by
  cases o <;> simp only [apply, setResolution, setPixelPitch, setSensorSize, setQe, setFullWell, setReadNoise,
    setDarkCurrent, setBias, setBitDepth, setGain, setUnityDb, setGainDb, setSimulateNoise, ok, throw] at h ⊢ <;>
    (try split_ifs at h ⊢) <;> simp_all

theorem valid_default {n : Nat} (qe0 : Fin n → ℝ) (h : ∀ b, 0 ≤ qe0 b ∧ qe0 b ≤ 1) : Valid (Config.default qe0) where
  res := ⟨by show (0 : Int) ≤ 1024; decide, by show (0 : Int) ≤ 1024; decide⟩
  pitch := ⟨⟨8.5e-6, rfl, by norm_num⟩, ⟨8.5e-6, rfl, by norm_num⟩⟩
  qe := fun b => ⟨qe0 b, rfl, h b⟩
  fullWell := ⟨20000, rfl, by norm_num⟩
  readNoise := ⟨10, rfl, by norm_num⟩
  darkCurrent := ⟨1, rfl, by norm_num⟩
  bias := ⟨10, rfl, by norm_num⟩
  bitDepth := by show (0 : Int) < 12; decide
  gain := ⟨1.22, rfl, by norm_num⟩
  unityDb := ⟨0, rfl⟩

theorem pitch_ok {n : Nat} (c : Config n) (x y : XF) (hv : Valid c) : Valid (setPixelPitch c x y).cfg := by
  unfold setPixelPitch
  split_ifs with h
  · exact hv
  · have hx : x.IsPos := (XF.isPos_iff x).2 (by tauto)
    have hy : y.IsPos := (XF.isPos_iff y).2 (by tauto)
    exact { hv with pitch := ⟨hx, hy⟩ }

theorem powf10_pos (e : ℝ) (h0 : -38 ≤ e) (h1 : e ≤ 38) : (powf10 (.fin e)).IsPos := by
  have a : (10 : ℝ) ^ (-38 : ℝ) ≤ 10 ^ e := Real.rpow_le_rpow_of_exponent_le (by norm_num) h0
  have b : (10 : ℝ) ^ e ≤ 10 ^ (38 : ℝ) := Real.rpow_le_rpow_of_exponent_le (by norm_num) h1
  have c1 : (2 : ℝ) ^ (-150 : ℝ) < 10 ^ (-38 : ℝ) := by
    rw [Real.rpow_neg (by norm_num), Real.rpow_neg (by norm_num)]
    apply inv_strictAnti₀ (by positivity)
    norm_num
  have c2 : (10 : ℝ) ^ (38 : ℝ) < 2 ^ (128 : ℝ) := by norm_num
  unfold powf10
  simp only
  rw [if_neg (by linarith), if_neg (by linarith)]
  exact ⟨_, rfl, by positivity⟩

/-- C36, sensor size: exactly the positive finite sizes are accepted (on a sensor with pixels), and the pitch is then the
size divided by the number of pixels. -/
theorem C36_sensor_size_partial {n : Nat} (c : Config n) (hx : 0 < c.resX) (hy : 0 < c.resY) (w h : XF) :
    ((setSensorSize c w h).threw = false ↔ (∃ a : ℝ, w = .fin a ∧ 0 < a) ∧ ∃ b : ℝ, h = .fin b ∧ 0 < b) ∧
    (∀ a b : ℝ, 0 < a → 0 < b → setSensorSize c (.fin a) (.fin b) =
      ok { c with pitchX := .fin (a / c.resX), pitchY := .fin (b / c.resY) }) := by
  have key : ∀ a b : ℝ, 0 < a → 0 < b → setSensorSize c (.fin a) (.fin b) =
      ok { c with pitchX := .fin (a / c.resX), pitchY := .fin (b / c.resY) } := by
    intro a b ha hb
    have hx' : (0 : ℝ) < c.resX := by exact_mod_cast hx
    have hy' : (0 : ℝ) < c.resY := by exact_mod_cast hy
    have h1 := div_pos ha hx'
    have h2 := div_pos hb hy'
    unfold setSensorSize setPixelPitch
    rw [if_neg (by simp [XF.le, XF.isInf, XF.isNan]; exact ⟨ha, hb⟩)]
    simp only [XF.div, hx'.ne', hy'.ne', if_false]
    rw [if_neg (by simp [XF.le, XF.isInf, XF.isNan]; exact ⟨h1, h2⟩)]
  refine ⟨⟨fun ht => ?_, ?_⟩, key⟩
  · unfold setSensorSize at ht
    by_cases hc : w.le (.fin 0) ∨ w.isInf ∨ w.isNan ∨ h.le (.fin 0) ∨ h.isInf ∨ h.isNan
    · rw [if_pos hc] at ht; simp [throw] at ht
    · push Not at hc
      obtain ⟨h1, h2, h3, h4, h5, h6⟩ := hc
      exact ⟨(XF.isPos_iff w).2 (by simp [h1, h2, h3]), (XF.isPos_iff h).2 (by simp [h4, h5, h6])⟩
  · rintro ⟨⟨a, rfl, ha⟩, b, rfl, hb⟩
    rw [key a b ha hb]; rfl

/-- A call that does not set the gain more than 760 dB away from the reference level. -/
def Moderate {n : Nat} (c : Config n) : Op n → Prop
  | .gainDb v => ∀ u r : ℝ, c.unityDb = .fin u → v = .fin r → |u - r| ≤ 760
  | _ => True

theorem valid_apply {n : Nat} (c : Config n) (o : Op n) (hv : Valid c) (hm : Moderate c o) : Valid (apply c o).cfg := by
  cases o with
  | resolution x y =>
    simp only [apply, setResolution]
    split_ifs with h
    · exact hv
    · exact { hv with res := ⟨by show 0 ≤ x; omega, by show 0 ≤ y; omega⟩ }
  | pixelPitch x y => exact pitch_ok c x y hv
  | sensorSize w h =>
    simp only [apply, setSensorSize]
    split_ifs
    · exact hv
    · exact pitch_ok c _ _ hv
  | qe q =>
    simp only [apply, setQe]
    split_ifs with h
    · have hq' : ∀ b, ∃ r : ℝ, q b = .fin r ∧ 0 ≤ r ∧ r ≤ 1 := by
        intro b
        obtain ⟨h1, h2, h3⟩ := h b
        cases hq : q b with
        | nan => rw [hq] at h2; simp [XF.isNan] at h2
        | ninf => rw [hq] at h3; simp [XF.isInf] at h3
        | pinf => rw [hq] at h3; simp [XF.isInf] at h3
        | fin r =>
          rw [hq] at h1
          simp only [XF.lt] at h1
          push Not at h1
          exact ⟨r, rfl, h1.1, h1.2⟩
      exact { hv with qe := hq' }
    · exact hv
  | fullWell v =>
    simp only [apply, setFullWell]
    split_ifs with h
    · exact hv
    · exact { hv with fullWell := (XF.isPos_iff v).2 h }
  | readNoise v =>
    simp only [apply, setReadNoise]
    split_ifs with h
    · exact hv
    · exact { hv with readNoise := (XF.isNonneg_iff v).2 h }
  | darkCurrent v =>
    simp only [apply, setDarkCurrent]
    split_ifs with h
    · exact hv
    · exact { hv with darkCurrent := (XF.isNonneg_iff v).2 h }
  | bias v =>
    simp only [apply, setBias]
    split_ifs with h
    · exact hv
    · exact { hv with bias := (XF.isNonneg_iff v).2 h }
  | bitDepth v =>
    simp only [apply, setBitDepth]
    split_ifs with h
    · exact hv
    · exact { hv with bitDepth := by show 0 < v; omega }
  | gain v =>
    simp only [apply, setGain]
    split_ifs with h
    · exact hv
    · exact { hv with gain := (XF.isPos_iff v).2 h }
  | unityDb v =>
    simp only [apply, setUnityDb]
    split_ifs with h
    · exact hv
    · have hu : ∃ r : ℝ, v = .fin r := by cases v <;> simp_all [XF.isInf, XF.isNan]
      exact { hv with unityDb := hu }
  | gainDb v =>
    simp only [apply, setGainDb]
    split_ifs with h
    · exact hv
    · obtain ⟨u, hu⟩ := hv.unityDb
      have hvv : ∃ r : ℝ, v = .fin r := by cases v <;> simp_all [XF.isInf, XF.isNan]
      obtain ⟨r, rfl⟩ := hvv
      have hb := hm u r hu rfl
      have e : (c.unityDb.add (XF.neg (.fin r))).div (.fin 20) = .fin ((u + -r) / 20) := by
        rw [hu]; simp [XF.neg, XF.add, XF.div]
      have hgp : XF.IsPos (powf10 ((c.unityDb.add (XF.neg (.fin r))).div (.fin 20))) := by
        rw [e]
        rw [abs_le] at hb
        apply powf10_pos <;> linarith [hb.1, hb.2]
      exact { hv with gain := hgp }
  | simulateNoise b => exact { hv with }

/-- Histories all of whose calls are moderate. -/
def ModerateRun {n : Nat} (c : Config n) : List (Op n) → Prop
  | [] => True
  | o :: h => Moderate c o ∧ ModerateRun (apply c o).cfg h

theorem valid_run {n : Nat} (c : Config n) (h : List (Op n)) (hv : Valid c) (hm : ModerateRun c h) : Valid (run c h) := by
  induction h generalizing c with
  | nil => exact hv
  | cons o h ih => exact ih _ (valid_apply c o hv hm.1) hm.2

/-- **C36 (partial).** All parameters stay in their documented ranges after every history of calls with any arguments (NaN
and infinities included), as long as no decibel gain is more than 760 dB from the reference. -/
theorem C36_ranges_partial {n : Nat} (qe0 : Fin n → ℝ) (hq : ∀ b, 0 ≤ qe0 b ∧ qe0 b ≤ 1) (h : List (Op n))
    (hm : ModerateRun (Config.default qe0) h) : Valid (run (Config.default qe0) h) :=
  valid_run _ h (valid_default qe0 hq) hm

theorem gainDb_4000 {n : Nat} (qe0 : Fin n → ℝ) : (run (Config.default qe0) [.gainDb (.fin 4000)]).gain = .fin 0 := by
  have e : ((0 : ℝ) + -4000) / 20 = -200 := by norm_num
  simp only [run, List.foldl, apply, setGainDb, Config.default, XF.isInf, XF.isNan, or_self, if_false, ok, XF.neg, XF.add, XF.div]
  rw [if_neg (by norm_num : (20 : ℝ) ≠ 0), e]
  unfold powf10
  simp only
  rw [if_pos]
  rw [Real.rpow_neg (by norm_num), Real.rpow_neg (by norm_num)]
  apply inv_anti₀ (by positivity)
  norm_num

/-- **C36 (violated).** A finite decibel gain is accepted although the resulting gain is zero. -/
theorem C36_violated : ¬ C36_full := by
  intro h
  have h1 := (h 0 (fun b => b.elim0) (fun b => b.elim0) [.gainDb (.fin 4000)]).2.gain
  rw [gainDb_4000] at h1
  obtain ⟨r, hr, hp⟩ := h1
  injection hr with hr
  rw [← hr] at hp
  exact lt_irrefl _ hp

/-- **C36.** Decibel gains read back: within range, `gain_db()` returns what was set. -/
theorem C36_gain_db_reads_back_partial {n : Nat} (c : Config n) (u r : ℝ) (hu : c.unityDb = .fin u) (hb : |u - r| ≤ 760) :
    gainDb (setGainDb c (.fin r)).cfg = .fin r := by
  have e : (c.unityDb.add (XF.neg (.fin r))).div (.fin 20) = .fin ((u + -r) / 20) := by
    rw [hu]; simp [XF.neg, XF.add, XF.div]
  have hc : (setGainDb c (.fin r)).cfg = { c with gain := powf10 (.fin ((u + -r) / 20)) } := by
    simp only [setGainDb, XF.isInf, XF.isNan, or_self, if_false, ok, e]
  rw [abs_le] at hb
  have hp : powf10 (.fin ((u + -r) / 20)) = .fin ((10 : ℝ) ^ ((u + -r) / 20)) := by
    obtain ⟨x, hx, h0⟩ := powf10_pos ((u + -r) / 20) (by linarith [hb.1, hb.2]) (by linarith [hb.1, hb.2])
    unfold powf10 at hx ⊢
    simp only at hx ⊢
    split_ifs at hx ⊢
    · injection hx with hx
      rw [← hx] at h0; exact absurd h0 (lt_irrefl _)
    · rfl
  rw [hc, hp]
  unfold gainDb
  simp only [hu, XF.neg, XF.add]
  rw [Real.logb_rpow (by norm_num) (by norm_num)]
  congr 1
  ring

/-- Non-vacuity: a history with rejected calls. -/
example : ModerateRun (Config.default (fun _ : Fin 3 => (0.2 : ℝ))) [.gain .nan, .bitDepth 0, .gainDb (.fin 6), .fullWell (.fin 9)] := by
  refine ⟨trivial, trivial, ?_, trivial, trivial⟩
  intro u r hu hr
  have h1 : u = 0 := by
    simp [apply, setGain, setBitDepth, ok, throw, Config.default, XF.isNan, XF.isInf, XF.le] at hu
    exact hu.symm
  injection hr with hr
  rw [h1, ← hr]
  norm_num [abs_le]

/-! ## C35 -/

/-- What the digitiser does to a finite number of electrons. -/
noncomputable def response (fw g b M a : ℝ) : ℝ := max 0 (min M (min a fw / g + b)) / M

theorem response_range (fw g b M a : ℝ) (hM : 0 < M) : 0 ≤ response fw g b M a ∧ response fw g b M a ≤ 1 := by
  unfold response
  constructor
  · apply div_nonneg (le_max_left _ _) hM.le
  · rw [div_le_one hM]
    exact max_le hM.le (min_le_left _ _)

theorem response_mono (fw g b M a a' : ℝ) (hg : 0 < g) (hM : 0 < M) (h : a ≤ a') : response fw g b M a ≤ response fw g b M a' := by
  unfold response
  apply div_le_div_of_nonneg_right _ hM.le
  apply max_le_max (le_refl _)
  apply min_le_min (le_refl _)
  have : min a fw ≤ min a' fw := min_le_min h (le_refl _)
  have := div_le_div_of_nonneg_right this hg.le
  linarith

/-- The last three lines of `noise_and_adc`. -/
noncomputable def adc (acc fullWell gain bias : XF) (M : ℝ) : XF :=
  (XF.clamp (((XF.min acc fullWell).div gain).add bias) (.fin 0) (.fin M)).div (.fin M)

theorem adc_fin (a fw g b M : ℝ) (hg : 0 < g) (hM : 0 < M) : adc (.fin a) (.fin fw) (.fin g) (.fin b) M = .fin (response fw g b M a) := by
  unfold adc
  rw [XF.min_fin, XF.div_fin _ _ hg.ne', XF.fin_add, XF.clamp_fin _ _ _ hM.le, XF.div_fin _ _ hM.ne']
  rfl

theorem adc_pinf (fw g b M : ℝ) (hg : 0 < g) (hM : 0 < M) :
    adc .pinf (.fin fw) (.fin g) (.fin b) M = .fin (response fw g b M fw) := by
  unfold adc
  rw [XF.min_pinf, XF.div_fin _ _ hg.ne', XF.fin_add, XF.clamp_fin _ _ _ hM.le, XF.div_fin _ _ hM.ne']
  unfold response
  rw [min_self]

theorem adc_ninf (fw g b M : ℝ) (hg : 0 < g) (hM : 0 < M) : adc .ninf (.fin fw) (.fin g) (.fin b) M = .fin 0 := by
  unfold adc
  rw [XF.min_ninf, XF.div_ninf_pos _ hg, XF.ninf_add_fin, XF.clamp_ninf, XF.div_fin _ _ hM.ne', zero_div]

/-- The number of electrons that reach the digitiser. -/
noncomputable def acc {n : Nat} (c : Config n) (signal dark shot read : XF) : XF :=
  if c.simulateNoise then ((signal.add dark).add shot).add read else signal.add dark

theorem noiseAdc_eq {n : Nat} (c : Config n) (signal dark shot read : XF) (M : ℝ) :
    noiseAdc c signal dark shot read M =
      adc (acc c signal dark shot read) c.fullWell c.gain (if c.simulateNoise then c.bias else .fin 0) M := by
  unfold noiseAdc adc acc
  rfl

theorem maxDn_pos {n : Nat} (c : Config n) (h : 0 < c.bitDepth) : 0 < maxDn c := by
  unfold maxDn
  have : (1 : ℝ) < 2 ^ c.bitDepth := one_lt_zpow₀ (by norm_num) h
  linarith

/-- The bias actually added, for a valid configuration. -/
theorem bias_cases {n : Nat} (c : Config n) (hv : Valid c) :
    ∃ b : ℝ, (if c.simulateNoise then c.bias else .fin 0) = XF.fin b ∧ 0 ≤ b := by
  obtain ⟨b, hb, h0⟩ := hv.bias
  by_cases h : c.simulateNoise = true
  · exact ⟨b, by rw [if_pos h, hb], h0⟩
  · exact ⟨0, by rw [if_neg h], le_refl _⟩

/-- **C35 (partial).** For every configuration with parameters in range, every signal, dark charge and every noise sample
(infinite ones included) that do not add up to NaN, the digitised value is in [0,1]. -/
theorem C35_range_partial {n : Nat} (c : Config n) (hv : Valid c) (signal dark shot read : XF)
    (hn : ¬ (acc c signal dark shot read).isNan) : In01 (noiseAdc c signal dark shot read (maxDn c)) := by
  obtain ⟨fw, hfw, _⟩ := hv.fullWell
  obtain ⟨g, hg, hg0⟩ := hv.gain
  obtain ⟨b, hb, _⟩ := bias_cases c hv
  have hM := maxDn_pos c hv.bitDepth
  rw [noiseAdc_eq, hfw, hg, hb]
  cases ha : acc c signal dark shot read with
  | nan => rw [ha] at hn; simp [XF.isNan] at hn
  | ninf => exact ⟨0, adc_ninf fw g b _ hg0 hM, le_refl _, zero_le_one⟩
  | pinf => exact ⟨_, adc_pinf fw g b _ hg0 hM, response_range fw g b _ _ hM⟩
  | fin a => exact ⟨_, adc_fin a fw g b _ hg0 hM, response_range fw g b _ _ hM⟩

/-- **C35 (partial).** The only way to get a NaN out is a NaN in. -/
theorem C35_nan_partial {n : Nat} (c : Config n) (hv : Valid c) (signal dark shot read : XF) :
    (noiseAdc c signal dark shot read (maxDn c)).isNan ↔ (acc c signal dark shot read).isNan := by
  constructor
  · intro h
    by_contra hn
    obtain ⟨r, hr, _⟩ := C35_range_partial c hv signal dark shot read hn
    rw [hr] at h
    simp [XF.isNan] at h
  · intro h
    rw [noiseAdc_eq]
    cases ha : acc c signal dark shot read with
    | nan =>
      unfold adc
      rw [XF.min_nan, XF.div_nan, XF.nan_add, XF.clamp_nan, XF.div_nan]
      trivial
    | ninf => rw [ha] at h; simp [XF.isNan] at h
    | pinf => rw [ha] at h; simp [XF.isNan] at h
    | fin a => rw [ha] at h; simp [XF.isNan] at h

/-- **C35 (partial).** Without noise more electrons never give a smaller value (signals from -inf to +inf). -/
theorem C35_monotone_partial {n : Nat} (c : Config n) (hv : Valid c) (hn : c.simulateNoise = false) (s s' shot read : XF)
    (h : s.le s') :
    (noiseAdc c s (.fin 0) shot read (maxDn c)).le (noiseAdc c s' (.fin 0) shot read (maxDn c)) := by
  obtain ⟨fw, hfw, _⟩ := hv.fullWell
  obtain ⟨g, hg, hg0⟩ := hv.gain
  have hM := maxDn_pos c hv.bitDepth
  have ha : ∀ s : XF, acc c s (.fin 0) shot read = s := by
    intro s
    unfold acc
    rw [if_neg (by simp [hn])]
    cases s <;> simp [XF.add]
  have hcap : ∀ a, response fw g 0 (maxDn c) a ≤ response fw g 0 (maxDn c) fw := by
    intro a
    have : response fw g 0 (maxDn c) a = response fw g 0 (maxDn c) (min a fw) := by
      unfold response; rw [min_assoc, min_self]
    rw [this]
    exact response_mono fw g 0 _ _ _ hg0 hM (min_le_right _ _)
  rw [noiseAdc_eq, noiseAdc_eq, ha, ha, hfw, hg, if_neg (by simp [hn])]
  cases s with
  | nan => simp [XF.le] at h
  | ninf =>
    rw [adc_ninf fw g 0 _ hg0 hM]
    cases s' with
    | nan => simp [XF.le] at h
    | ninf => rw [adc_ninf fw g 0 _ hg0 hM]; simp [XF.le]
    | pinf => rw [adc_pinf fw g 0 _ hg0 hM]; exact (response_range fw g 0 _ fw hM).1
    | fin a => rw [adc_fin a fw g 0 _ hg0 hM]; exact (response_range fw g 0 _ a hM).1
  | pinf =>
    rw [adc_pinf fw g 0 _ hg0 hM]
    cases s' with
    | nan => simp [XF.le] at h
    | ninf => simp [XF.le] at h
    | pinf => rw [adc_pinf fw g 0 _ hg0 hM]; simp [XF.le]
    | fin a => simp [XF.le] at h
  | fin a =>
    rw [adc_fin a fw g 0 _ hg0 hM]
    cases s' with
    | nan => simp [XF.le] at h
    | ninf => simp [XF.le] at h
    | pinf => rw [adc_pinf fw g 0 _ hg0 hM]; exact hcap a
    | fin a' => rw [adc_fin a' fw g 0 _ hg0 hM]; exact response_mono fw g 0 _ a a' hg0 hM h

/-- **C35 (partial).** Saturation: at or above full well the value no longer depends on the signal, and when the charge
exceeds the converter's range the value is exactly 1. -/
theorem C35_saturates_partial {n : Nat} (c : Config n) (hv : Valid c) (a a' fw g b : ℝ) (shot read : XF)
    (hfw : c.fullWell = .fin fw) (hg : c.gain = .fin g) (hb : (if c.simulateNoise then c.bias else .fin 0) = XF.fin b)
    (s s' d : XF) (h1 : acc c s d shot read = .fin a) (h2 : acc c s' d shot read = .fin a') (ha : fw ≤ a) (ha' : fw ≤ a') :
    noiseAdc c s d shot read (maxDn c) = noiseAdc c s' d shot read (maxDn c) ∧
    (maxDn c ≤ fw / g + b → noiseAdc c s d shot read (maxDn c) = .fin 1) := by
  obtain ⟨g', hg', hg0⟩ := hv.gain
  rw [hg] at hg'
  injection hg' with hg'
  subst hg'
  have hM := maxDn_pos c hv.bitDepth
  rw [noiseAdc_eq, noiseAdc_eq, hfw, hg, hb, h1, h2, adc_fin _ _ _ _ _ hg0 hM, adc_fin _ _ _ _ _ hg0 hM]
  unfold response
  rw [min_eq_right ha, min_eq_right ha']
  refine ⟨rfl, fun h => ?_⟩
  rw [min_eq_left h, max_eq_right hM.le, div_self hM.ne']

theorem total_fin {n : Nat} (f : Fin n → ℝ) : total (fun b => XF.fin (f b)) = .fin (∑ b, f b) := by
  unfold total
  have key : ∀ (l : List ℝ) (a : ℝ), (l.map XF.fin).foldl XF.add (.fin a) = .fin (a + l.sum) := by
    intro l
    induction l with
    | nil => intro a; simp
    | cons x l ih => intro a; simp [XF.add, ih]; ring
  have e : List.ofFn (fun b => XF.fin (f b)) = (List.ofFn f).map XF.fin := by
    rw [List.map_ofFn]; rfl
  rw [e, key, List.sum_ofFn, zero_add]

/-- **C35 (partial).** End to end: without noise, more received power in any spectral bin never gives a darker pixel. -/
theorem C35_pixel_monotone_partial {n : Nat} (c : Config n) (hv : Valid c) (hn : c.simulateNoise = false)
    (energy p p' : Fin n → ℝ) (dt : ℝ) (he : ∀ b, 0 < energy b) (hdt : 0 ≤ dt) (hp : ∀ b, p b ≤ p' b) (shot read : XF) :
    (pixelMono c (fun b => .fin (energy b)) (.fin dt) (fun b => .fin (p b)) shot read).le
      (pixelMono c (fun b => .fin (energy b)) (.fin dt) (fun b => .fin (p' b)) shot read) := by
  choose q hq using hv.qe
  have key : ∀ p : Fin n → ℝ, (total fun b => electrons (.fin (p b)) (.fin dt) (.fin (energy b)) (c.qe b)) =
      .fin (∑ b, p b * dt / energy b * q b) := by
    intro p
    rw [← total_fin]
    congr 1
    funext b
    rw [(hq b).1]
    simp [electrons, XF.mul, XF.div, (he b).ne']
  unfold pixelMono
  have hd : darkE c (.fin dt) = .fin 0 := by unfold darkE; rw [if_neg (by simp [hn])]
  rw [key, key, hd]
  apply C35_monotone_partial c hv hn
  show (∑ b, p b * dt / energy b * q b) ≤ ∑ b, p' b * dt / energy b * q b
  apply Finset.sum_le_sum
  intro b _
  apply mul_le_mul_of_nonneg_right _ (hq b).2.1
  apply div_le_div_of_nonneg_right _ (he b).le
  exact mul_le_mul_of_nonneg_right (hp b) hdt

/-- **C35 (violated).** With the zero gain `set_gain_db` can produce, a dark pixel is digitised to NaN. -/
theorem C35_violated : ¬ C35_full := by
  intro h
  have h1 := h 0 (fun b => b.elim0) (fun b => b.elim0) [.gainDb (.fin 4000), .simulateNoise false] (.fin 0) (.fin 0) (.fin 0) (.fin 0)
  have hg : (run (Config.default (fun b : Fin 0 => b.elim0)) [.gainDb (.fin 4000), .simulateNoise false]).gain = .fin 0 :=
    gainDb_4000 (fun b : Fin 0 => b.elim0)
  have hs : (run (Config.default (fun b : Fin 0 => b.elim0)) [.gainDb (.fin 4000), .simulateNoise false]).simulateNoise = false := rfl
  have hf : (run (Config.default (fun b : Fin 0 => b.elim0)) [.gainDb (.fin 4000), .simulateNoise false]).fullWell = .fin 20000 := by
    simp [run, apply, setGainDb, setSimulateNoise, ok, throw, Config.default, XF.isInf, XF.isNan]
  obtain ⟨r, hr, _⟩ := h1 (by simp [hs, XF.add, XF.isNan])
  rw [noiseAdc_eq, hg, hf] at hr
  have ha : acc (run (Config.default (fun b : Fin 0 => b.elim0)) [.gainDb (.fin 4000), .simulateNoise false]) (.fin 0) (.fin 0)
      (.fin 0) (.fin 0) = .fin 0 := by
    unfold acc; rw [if_neg (by rw [hs]; decide)]; simp [XF.add]
  rw [ha] at hr
  unfold adc at hr
  rw [XF.min_fin, min_eq_left (by norm_num), XF.div_fin_zero, XF.infTimes_zero, XF.nan_add, XF.clamp_nan, XF.div_nan] at hr
  exact absurd hr (by simp)

/-- Non-vacuity: the default sensor has valid parameters and half a full well reads about 8197/4095, i.e. saturates. -/
example : Valid (Config.default (fun _ : Fin 3 => (0.2 : ℝ))) := valid_default _ (fun _ => by norm_num)

end Huira.Sensor
