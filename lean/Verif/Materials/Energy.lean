import Verif.Materials.Unbiased
import Mathlib.Analysis.SpecialFunctions.Integrals.Basic
import Mathlib.MeasureTheory.Integral.IntervalIntegral.Periodic
import Mathlib.Analysis.SpecialFunctions.Complex.Arg
import Mathlib.Analysis.Real.Pi.Bounds
import Mathlib.Analysis.Complex.ExponentialBounds

/-!
# No material reflects more light than falls on it (C100)
-/

set_option linter.unusedSimpArgs false
set_option linter.unusedVariables false

open MeasureTheory Set Real

namespace Huira.Bsdf
open Huira.Sampling V3

variable {n : ℕ}

/-- The fraction of the light of a direction that is reflected (by reciprocity, the light seen along `wo` under uniform unit
illumination): BSDF times cosine over the solid angle of the hemisphere (specification). -/
noncomputable def reflected (k : Kind) (wo : V3) (f : Frame) (p : Params n) (i : Fin n) : ENNReal :=
  ∫⁻ ω, ENNReal.ofReal (k.eval wo (localToWorld (vec ω) f.t f.b f.n) f p i * ω.2.2) ∂solidAngle

/-! ## Integration in spherical coordinates -/

theorem lint {a b : ℝ} (hab : a ≤ b) {g : ℝ → ℝ} (hg : ContinuousOn g (Icc a b)) (h0 : ∀ x ∈ Ioo a b, 0 ≤ g x) :
    ∫⁻ x in Ioo a b, ENNReal.ofReal (g x) = ENNReal.ofReal (∫ x in a..b, g x) := by
  rw [intervalIntegral.integral_of_le hab, integral_Ioc_eq_integral_Ioo]
  rw [ofReal_integral_eq_lintegral_ofReal]
  · exact (hg.integrableOn_Icc).mono_set Ioo_subset_Icc_self
  · exact (ae_restrict_mem measurableSet_Ioo).mono fun x hx => h0 x hx

theorem sphere_lint {F : ℝ × ℝ × ℝ → ENNReal} (hF : Measurable F) :
    ∫⁻ ω, F ω ∂solidAngle = ∫⁻ z in Ioo (0 : ℝ) 1, ∫⁻ φ in Ioo 0 (2 * π), F (sph (z, φ)) := by
  have hsph : Measurable sph := by unfold sph; fun_prop
  unfold solidAngle
  rw [lintegral_map hF hsph]
  exact lintegral_prod (fun a => F (sph a)) (hF.comp hsph).aemeasurable

theorem solid_ae {P : ℝ × ℝ × ℝ → Prop} (hP : MeasurableSet {ω | P ω}) (h : ∀ z ∈ Ioo (0 : ℝ) 1, ∀ φ ∈ Ioo 0 (2 * π), P (sph (z, φ))) :
    ∀ᵐ ω ∂solidAngle, P ω := by
  have hsph : Measurable sph := by unfold sph; fun_prop
  unfold solidAngle
  rw [ae_map_iff hsph.aemeasurable hP, Measure.prod_restrict]
  filter_upwards [ae_restrict_mem (measurableSet_Ioo.prod measurableSet_Ioo)] with u hu
  exact h u.1 hu.1 u.2 hu.2

/-- The integral of `c · cos` over the hemisphere. -/
theorem cos_lint {c : ℝ} (hc : 0 ≤ c) : ∫⁻ ω, ENNReal.ofReal (c * ω.2.2) ∂solidAngle = ENNReal.ofReal (c * π) := by
  rw [sphere_lint (by fun_prop)]
  have h2 : (0 : ℝ) ≤ 2 * π := by have := pi_pos; positivity
  have e : ∀ z ∈ Ioo (0 : ℝ) 1, ∫⁻ φ in Ioo 0 (2 * π), ENNReal.ofReal (c * (sph (z, φ)).2.2) = ENNReal.ofReal (c * z * (2 * π)) := by
    intro z hz
    have := lint h2 (g := fun _ => c * z) continuousOn_const (fun _ _ => mul_nonneg hc hz.1.le)
    simp only [intervalIntegral.integral_const, sub_zero, smul_eq_mul] at this
    rw [show c * z * (2 * π) = 2 * π * (c * z) by ring, ← this]
    rfl
  rw [setLIntegral_congr_fun measurableSet_Ioo e, lint zero_le_one (by fun_prop) (fun x hx => by
    have := hx.1; positivity)]
  congr 1
  have : ∫ x in (0 : ℝ)..1, c * x * (2 * π) = (2 * π * c) * ∫ x in (0 : ℝ)..1, x := by
    rw [← intervalIntegral.integral_const_mul]; congr 1; funext x; ring
  rw [this, integral_id]; ring

/-! ## The geometry in the local frame -/

theorem world_dot {f : Frame} (hf : Orthonormal f.t f.b f.n) (d wo : V3) :
    dot (localToWorld d f.t f.b f.n) wo = dot d (worldToLocal wo f.t f.b f.n) := by
  obtain ⟨h1, h2, h3, h4, h5⟩ := C60_conversions hf d (worldToLocal wo f.t f.b f.n)
  have := (C60_conversions hf wo V3.zero).2.1
  rw [← this, h3, this]

theorem world_n {f : Frame} (hf : Orthonormal f.t f.b f.n) (d : V3) : dot (localToWorld d f.t f.b f.n) f.n = d.z :=
  (C60_conversions hf d V3.zero).2.2.2.2

theorem eval_meas' (k : Kind) (hk : k ≠ .cookTorrance) (wo : V3) (f : Frame) (p : Params n) (i : Fin n) :
    Measurable fun ω : ℝ × ℝ × ℝ => ENNReal.ofReal (k.eval wo (localToWorld (vec ω) f.t f.b f.n) f p i * ω.2.2) := by
  have hx : Measurable fun ω => (localToWorld (vec ω) f.t f.b f.n).x := by simp only [localToWorld, vec, add_x, hmul_x]; fun_prop
  have hy : Measurable fun ω => (localToWorld (vec ω) f.t f.b f.n).y := by simp only [localToWorld, vec, add_y, hmul_y]; fun_prop
  have hz : Measurable fun ω => (localToWorld (vec ω) f.t f.b f.n).z := by simp only [localToWorld, vec, add_z, hmul_z]; fun_prop
  have := eval_meas k hk wo f p i _ hx hy hz
  fun_prop

theorem reflected_eq (k : Kind) (hk : k ≠ .cookTorrance) (wo : V3) (f : Frame) (p : Params n) (i : Fin n) :
    reflected k wo f p i = ∫⁻ z in Ioo (0 : ℝ) 1, ∫⁻ φ in Ioo 0 (2 * π),
      ENNReal.ofReal (k.eval wo (localToWorld (vec (sph (z, φ))) f.t f.b f.n) f p i * z) := by
  unfold reflected
  rw [sphere_lint (eval_meas' k hk wo f p i)]
  rfl

/-! ## Lambertian and Lommel–Seeliger -/

theorem mul_lint_const {c : ℝ} (hc : 0 ≤ c) : ∫⁻ φ in Ioo 0 (2 * π), ENNReal.ofReal c = ENNReal.ofReal (2 * π * c) := by
  have h2 : (0 : ℝ) ≤ 2 * π := by have := pi_pos; positivity
  have := lint h2 (g := fun _ => c) continuousOn_const (fun _ _ => hc)
  simpa using this

/-- **C100.**  A Lambertian surface reflects exactly its albedo, from every direction. -/
theorem C100_lambertian (f : Frame) (hf : Orthonormal f.t f.b f.n) (p : Params n) (i : Fin n) (h0 : 0 ≤ p.albedo i) (wo : V3) :
    reflected .lambertian wo f p i = ENNReal.ofReal (p.albedo i) := by
  have hp := pi_pos
  have h : reflected .lambertian wo f p i = ∫⁻ ω, ENNReal.ofReal (p.albedo i * (1 / π) * ω.2.2) ∂solidAngle := by
    refine lintegral_congr_ae ?_
    have : ∀ᵐ ω ∂solidAngle, 0 < ω.2.2 := solid_ae (measurableSet_lt measurable_const (by fun_prop)) fun z hz _ _ => hz.1
    filter_upwards [this] with ω hω
    simp only [Kind.eval, lambertianEval]
    rw [world_n hf, if_neg (show ¬ (vec ω).z ≤ 0 from not_le.2 hω)]
  rw [h, cos_lint (by positivity)]
  congr 1
  field_simp

/-- **C100.**  A Lommel–Seeliger surface reflects `albedo/2 · (1 − μ log(1 + 1/μ))` seen under the cosine `μ`: never more than half of
its albedo. -/
theorem C100_lommel_seeliger (f : Frame) (hf : Orthonormal f.t f.b f.n) (p : Params n) (i : Fin n) (h0 : 0 ≤ p.albedo i) (wo : V3)
    (ho : 0 < dot wo f.n) :
    reflected .lommelSeeliger wo f p i =
      ENNReal.ofReal (p.albedo i / 2 * (1 - dot wo f.n * log (1 + 1 / dot wo f.n))) ∧
    reflected .lommelSeeliger wo f p i ≤ ENNReal.ofReal (p.albedo i / 2) := by
  have hp := pi_pos
  set c := dot wo f.n with hc
  have e : reflected .lommelSeeliger wo f p i = ENNReal.ofReal (p.albedo i / 2 * (1 - c * log (1 + 1 / c))) := by
    rw [reflected_eq _ (by simp)]
    have e1 : ∀ z ∈ Ioo (0 : ℝ) 1, ∫⁻ φ in Ioo 0 (2 * π),
        ENNReal.ofReal (Kind.lommelSeeliger.eval wo (localToWorld (vec (sph (z, φ))) f.t f.b f.n) f p i * z) =
        ENNReal.ofReal (p.albedo i / 2 * (1 - c / (z + c))) := by
      intro z hz
      have hzc : 0 < z + c := by linarith [hz.1]
      have : ∀ φ, Kind.lommelSeeliger.eval wo (localToWorld (vec (sph (z, φ))) f.t f.b f.n) f p i * z =
          p.albedo i / (4 * π * (z + c)) * z := by
        intro φ
        simp only [Kind.eval, lommelEval]
        rw [world_n hf]
        have hn : ¬ ((vec (sph (z, φ))).z ≤ 0 ∨ dot wo f.n ≤ 0) := by
          push Not; exact ⟨hz.1, ho⟩
        rw [if_neg hn]; rfl
      simp only [this]
      have := hz.1
      rw [mul_lint_const (by positivity)]
      congr 1
      field_simp
      ring
    rw [setLIntegral_congr_fun measurableSet_Ioo e1, lint zero_le_one]
    · congr 1
      have hd : ∀ z ∈ uIcc (0 : ℝ) 1, HasDerivAt (fun z => p.albedo i / 2 * (z - c * log (z + c)))
          (p.albedo i / 2 * (1 - c / (z + c))) z := by
        intro z hz
        rw [uIcc_of_le zero_le_one] at hz
        have hzc : z + c ≠ 0 := by linarith [hz.1]
        have h1 : HasDerivAt (fun z : ℝ => log (z + c)) (1 / (z + c)) z := ((hasDerivAt_id z).add_const c).log hzc
        have := ((hasDerivAt_id z).sub (h1.const_mul c)).const_mul (p.albedo i / 2)
        refine this.congr_deriv ?_
        ring
      rw [intervalIntegral.integral_eq_sub_of_hasDerivAt hd]
      · have hlog : log (1 + 1 / c) = log (1 + c) - log c := by
          rw [← log_div (by linarith) ho.ne']; congr 1; field_simp; ring
        rw [hlog]; ring_nf
      · apply ContinuousOn.intervalIntegrable
        rw [uIcc_of_le zero_le_one]
        refine continuousOn_const.mul (continuousOn_const.sub (continuousOn_const.div (by fun_prop) ?_))
        intro z hz; linarith [hz.1]
    · refine continuousOn_const.mul (continuousOn_const.sub (continuousOn_const.div (by fun_prop) ?_))
      intro z hz; linarith [hz.1]
    · intro z hz
      have : c / (z + c) ≤ 1 := by rw [div_le_one (by linarith [hz.1])]; linarith [hz.1]
      have : 0 ≤ 1 - c / (z + c) := by linarith
      positivity
  refine ⟨e, ?_⟩
  rw [e]
  apply ENNReal.ofReal_le_ofReal
  have : 0 ≤ log (1 + 1 / c) := log_nonneg (by have : 0 < 1 / c := by positivity
                                               linarith)
  have := mul_nonneg ho.le this
  nlinarith

/-! ## The models that reflect too much -/

/-- The standard frame. -/
def stdF : Frame := ⟨⟨1, 0, 0⟩, ⟨0, 1, 0⟩, ⟨0, 0, 1⟩⟩

theorem stdF_orth : Orthonormal stdF.t stdF.b stdF.n := by
  constructor <;> simp [stdF, dot, V3.cross]

theorem stdF_world (d : V3) : localToWorld d stdF.t stdF.b stdF.n = d := by
  ext <;> simp [localToWorld, stdF]

/-- Hapke with isotropic particles, no opposition surge and single-scattering albedo 1 reflects `3/2·log 2 > 1` of the light at normal
incidence. -/
theorem C100_hapke_value (h c : ℝ) :
    reflected (.hapke h 0 0 c) ⟨0, 0, 1⟩ stdF (⟨fun _ => 1, 0, 0⟩ : Params 1) 0 = ENNReal.ofReal (3 / 2 * log 2) := by
  have hp := pi_pos
  rw [reflected_eq _ (by simp)]
  have e1 : ∀ z ∈ Ioo (0 : ℝ) 1, ∫⁻ φ in Ioo 0 (2 * π),
      ENNReal.ofReal ((Kind.hapke h 0 0 c).eval ⟨0, 0, 1⟩ (localToWorld (vec (sph (z, φ))) stdF.t stdF.b stdF.n) stdF
        (⟨fun _ => 1, 0, 0⟩ : Params 1) 0 * z) = ENNReal.ofReal (3 / 2 * (2 * z - 1 + 1 / (z + 1))) := by
    intro z hz
    have hz1 : 0 < z + 1 := by linarith [hz.1]
    have : ∀ φ, (Kind.hapke h 0 0 c).eval ⟨0, 0, 1⟩ (localToWorld (vec (sph (z, φ))) stdF.t stdF.b stdF.n) stdF
        (⟨fun _ => 1, 0, 0⟩ : Params 1) 0 * z = 1 / (4 * π * (z + 1)) * ((1 + 2 * z) * 3) * z := by
      intro φ
      rw [stdF_world]
      have d1 : dot (vec (sph (z, φ))) stdF.n = z := by simp [dot, vec, sph, stdF]
      have d2 : dot (⟨0, 0, 1⟩ : V3) stdF.n = 1 := by simp [dot, stdF]
      simp only [Kind.eval, hapkeEval, d1, d2]
      rw [if_neg (by push Not; exact ⟨hz.1, one_pos⟩)]
      simp [dhg, hg, opposition, hFunction]
      norm_num
    simp only [this]
    have := hz.1
    rw [mul_lint_const (by positivity)]
    congr 1
    field_simp
    ring
  rw [setLIntegral_congr_fun measurableSet_Ioo e1, lint zero_le_one]
  · congr 1
    have hd : ∀ z ∈ uIcc (0 : ℝ) 1, HasDerivAt (fun z => 3 / 2 * (z ^ 2 - z + log (z + 1))) (3 / 2 * (2 * z - 1 + 1 / (z + 1))) z := by
      intro z hz
      rw [uIcc_of_le zero_le_one] at hz
      have hzc : z + 1 ≠ 0 := by linarith [hz.1]
      have h1 : HasDerivAt (fun z : ℝ => log (z + 1)) (1 / (z + 1)) z := ((hasDerivAt_id z).add_const 1).log hzc
      have := (((hasDerivAt_pow 2 z).sub (hasDerivAt_id z)).add h1).const_mul (3 / 2)
      refine this.congr_deriv ?_
      norm_num
    rw [intervalIntegral.integral_eq_sub_of_hasDerivAt hd]
    · norm_num
    · apply ContinuousOn.intervalIntegrable
      rw [uIcc_of_le zero_le_one]
      refine continuousOn_const.mul (ContinuousOn.add (by fun_prop) (continuousOn_const.div (by fun_prop) ?_))
      intro z hz; linarith [hz.1]
  · refine continuousOn_const.mul (ContinuousOn.add (by fun_prop) (continuousOn_const.div (by fun_prop) ?_))
    intro z hz; linarith [hz.1]
  · intro z hz
    have hz1 : 0 < z + 1 := by linarith [hz.1]
    have : 2 * z - 1 + 1 / (z + 1) = z * (2 * z + 1) / (z + 1) := by field_simp; ring
    rw [this]
    have := hz.1
    positivity

theorem smithG1_ge (z : ℝ) (h0 : 0 < z) (h1 : z ≤ 1) : z ≤ smithG1 z 1 := by
  unfold smithG1
  simp only [one_mul]
  have hz2 : 0 < z * z := by positivity
  have a : (1 - z * z) / max (z * z) 1e-8 ≤ (1 - z * z) / (z * z) :=
    div_le_div_of_nonneg_left (by nlinarith) hz2 (le_max_left _ _)
  have b : sqrt (1 + (1 - z * z) / max (z * z) 1e-8) ≤ 1 / z := by
    have : 1 + (1 - z * z) / (z * z) = (1 / z) ^ 2 := by field_simp; ring
    rw [← sqrt_sq (by positivity : (0 : ℝ) ≤ 1 / z), ← this]
    exact sqrt_le_sqrt (by linarith)
  have c : (1 : ℝ) ≤ 1 / z := by rw [le_div_iff₀ h0]; linarith
  rw [le_div_iff₀ (by positivity)]
  have : z * (1 + sqrt (1 + (1 - z * z) / max (z * z) 1e-8)) ≤ z * (1 + 1 / z) := by gcongr
  have e : z * (1 + 1 / z) = z + 1 := by field_simp
  linarith

/-- A white, fully rough dielectric Cook–Torrance surface reflects at least 101 % of the light at normal incidence. -/
theorem C100_cook_value :
    ENNReal.ofReal 1.01 ≤ reflected .cookTorrance ⟨0, 0, 1⟩ stdF (⟨fun _ => 1, 1, 0⟩ : Params 1) 0 := by
  have hp := pi_pos
  have e : ENNReal.ofReal 1.01 = ∫⁻ ω, ENNReal.ofReal (1.01 / π * ω.2.2) ∂solidAngle := by
    rw [cos_lint (by positivity)]; congr 1; field_simp
  rw [e]
  unfold reflected
  refine lintegral_mono_ae ?_
  have : ∀ᵐ ω ∂solidAngle, 0 < ω.2.2 ∧ ω.1 * ω.1 + ω.2.1 * ω.2.1 + ω.2.2 * ω.2.2 = 1 := by
    have m : MeasurableSet {ω : ℝ × ℝ × ℝ | 0 < ω.2.2 ∧ ω.1 * ω.1 + ω.2.1 * ω.2.1 + ω.2.2 * ω.2.2 = 1} := by
      have h2 : Measurable fun ω : ℝ × ℝ × ℝ => ω.2.2 := by fun_prop
      refine MeasurableSet.inter (measurableSet_lt measurable_const h2) ?_
      have : Measurable fun ω : ℝ × ℝ × ℝ => ω.1 * ω.1 + ω.2.1 * ω.2.1 + ω.2.2 * ω.2.2 := by fun_prop
      exact this (measurableSet_singleton 1)
    refine solid_ae m fun z hz φ _ => ⟨hz.1, ?_⟩
    have hs : sqrt (1 - z ^ 2) * sqrt (1 - z ^ 2) = 1 - z ^ 2 := mul_self_sqrt (by nlinarith [hz.1, hz.2])
    have := sin_sq_add_cos_sq φ
    simp only [sph]
    linear_combination (1 - z ^ 2) * this + (cos φ ^ 2 + sin φ ^ 2) * hs
  filter_upwards [this] with ω hω
  obtain ⟨hz, hu⟩ := hω
  apply ENNReal.ofReal_le_ofReal
  rw [stdF_world]
  set z := ω.2.2 with hzd
  have hz1 : z ≤ 1 := by nlinarith [sq_nonneg ω.1, sq_nonneg ω.2.1]
  have d1 : dot stdF.n (vec ω) = z := by simp [dot, vec, stdF, hzd]
  have d2 : dot stdF.n (⟨0, 0, 1⟩ : V3) = 1 := by simp [dot, stdF]
  have c1 : clamp 1 0.01 1 = 1 := by unfold clamp; norm_num
  have c2 : clamp 0 0 1 = 0 := by unfold clamp; norm_num
  simp only [Kind.eval, cookEval, d1, d2, c1, c2]
  rw [if_neg (by push Not; exact ⟨one_pos, hz⟩)]
  set hh := V3.normalize ((⟨0, 0, 1⟩ : V3) + vec ω) with hhd
  have hne : (⟨0, 0, 1⟩ : V3) + vec ω ≠ V3.zero := half_ne (nn := stdF.n) (by rw [d2]; exact one_pos) (by rw [d1]; exact hz)
  have hhu : dot hh hh = 1 := V3.dot_normalize hne
  have oh : max (dot (⟨0, 0, 1⟩ : V3) hh) 0 ≤ 1 := max_le (dot_le_one (by simp [dot]) hhu) zero_le_one
  set o := max (dot (⟨0, 0, 1⟩ : V3) hh) 0
  have s : (0.04 : ℝ) ≤ schlick o (1 * 0 + 0.04 * (1 - 0)) := by
    unfold schlick
    have : 0 ≤ 1 - o := by linarith
    have : 0 ≤ (1 - o) * (1 - o) * ((1 - o) * (1 - o)) * (1 - o) := by positivity
    norm_num
    linarith
  have D : ggxD (max (dot stdF.n hh) 0) (1 * 1 * (1 * 1)) = 1 / π := by unfold ggxD; norm_num
  have G : smithG2 1 z (1 * 1 * (1 * 1)) = smithG1 z 1 := by
    unfold smithG2
    have : smithG1 1 (1 * 1 * (1 * 1)) = 1 := by unfold smithG1; norm_num
    rw [this]; norm_num
  rw [D, G]
  have g := smithG1_ge z hz hz1
  have a : 1 / π * z / (4 * 1 * z) ≤ 1 / π * smithG1 z 1 / (4 * 1 * z) := by gcongr
  have b : 1 / π * z / (4 * 1 * z) = 1 / π / 4 := by field_simp
  have hG0 : 0 ≤ 1 / π / 4 := by positivity
  have m : 0.04 * (1 / π / 4) ≤ schlick o (1 * 0 + 0.04 * (1 - 0)) * (1 / π * smithG1 z 1 / (4 * 1 * z)) :=
    mul_le_mul s (b ▸ a) hG0 (by linarith)
  have : 1.01 / π ≤ 1 * ((1 - 0) * (1 / π)) + schlick o (1 * 0 + 0.04 * (1 - 0)) * (1 / π * smithG1 z 1 / (4 * 1 * z)) := by
    have : 1.01 / π = 1 / π + 0.04 * (1 / π / 4) := by ring
    rw [this]; linarith
  exact mul_le_mul_of_nonneg_right this hz.le

/-! ## Oren–Nayar -/

theorem int_sqrt : ∫ z in (0 : ℝ)..1, sqrt (1 - z ^ 2) = π / 4 := by
  have h := integral_sqrt_one_sub_sq
  have c : Continuous fun z : ℝ => sqrt (1 - z ^ 2) := by fun_prop
  have e : ∫ z in (-1 : ℝ)..0, sqrt (1 - z ^ 2) = ∫ z in (0 : ℝ)..1, sqrt (1 - z ^ 2) := by
    have := intervalIntegral.integral_comp_neg (fun z : ℝ => sqrt (1 - z ^ 2)) (a := 0) (b := 1)
    simp only [neg_zero] at this
    rw [← this]; congr 1; funext z; congr 1; ring
  rw [← intervalIntegral.integral_add_adjacent_intervals (c.intervalIntegrable (-1) 0) (c.intervalIntegrable 0 1), e] at h
  linarith

theorem int_max_cos : ∫ φ in (-(π / 2))..(-(π / 2) + 2 * π), max 0 (cos φ) = 2 := by
  have hp := pi_pos
  have c : Continuous fun φ : ℝ => max 0 (cos φ) := by fun_prop
  rw [← intervalIntegral.integral_add_adjacent_intervals (c.intervalIntegrable _ (π / 2)) (c.intervalIntegrable (π / 2) _)]
  have e1 : ∫ φ in (-(π / 2))..(π / 2), max 0 (cos φ) = ∫ φ in (-(π / 2))..(π / 2), cos φ := by
    refine intervalIntegral.integral_congr fun φ hφ => ?_
    rw [uIcc_of_le (by linarith)] at hφ
    exact max_eq_right (cos_nonneg_of_mem_Icc hφ)
  have e2 : ∫ φ in (π / 2)..(-(π / 2) + 2 * π), max 0 (cos φ) = ∫ φ in (π / 2)..(-(π / 2) + 2 * π), (0 : ℝ) := by
    refine intervalIntegral.integral_congr fun φ hφ => ?_
    rw [uIcc_of_le (by linarith)] at hφ
    exact max_eq_left (cos_nonpos_of_pi_div_two_le_of_le hφ.1 (by linarith [hφ.2]))
  rw [e1, e2, integral_cos]
  simp
  norm_num

/-- The positive half of a wave of amplitude `√(x² + y²)` has integral twice its amplitude. -/
theorem int_wave (x y : ℝ) : ∫ φ in (0 : ℝ)..(2 * π), max 0 (x * cos φ + y * sin φ) = 2 * sqrt (x ^ 2 + y ^ 2) := by
  have e : ∀ φ, max 0 (x * cos φ + y * sin φ) = sqrt (x ^ 2 + y ^ 2) * max 0 (cos (φ - Complex.arg ⟨x, y⟩)) := by
    intro φ
    have hn : ‖(⟨x, y⟩ : ℂ)‖ = sqrt (x ^ 2 + y ^ 2) := by
      rw [Complex.norm_def, Complex.normSq_mk]; congr 1; ring
    have h1 := Complex.norm_mul_cos_arg (⟨x, y⟩ : ℂ)
    have h2 := Complex.norm_mul_sin_arg (⟨x, y⟩ : ℂ)
    rw [hn] at h1 h2
    simp only at h1 h2
    rw [mul_max_of_nonneg _ _ (sqrt_nonneg _), mul_zero, cos_sub]
    congr 1
    linear_combination -(cos φ) * h1 - sin φ * h2
  simp only [e, intervalIntegral.integral_const_mul]
  rw [intervalIntegral.integral_comp_sub_right (fun φ => max 0 (cos φ))]
  have hper : Function.Periodic (fun φ : ℝ => max 0 (cos φ)) (2 * π) := fun φ => by simp [cos_add_two_pi]
  have := hper.intervalIntegral_add_eq (0 - Complex.arg ⟨x, y⟩) (-(π / 2))
  rw [show 2 * π - Complex.arg ⟨x, y⟩ = 0 - Complex.arg ⟨x, y⟩ + 2 * π by ring, this, int_max_cos]
  ring

/-- The two constants of Oren and Nayar's model as functions of the roughness (specification). -/
noncomputable def onA (r : ℝ) : ℝ := 1 - 0.5 * ((r * π / 2) ^ 2 / ((r * π / 2) ^ 2 + 0.33))
/-- See `onA`. -/
noncomputable def onB (r : ℝ) : ℝ := 0.45 * ((r * π / 2) ^ 2 / ((r * π / 2) ^ 2 + 0.09))

theorem onA_pos (r : ℝ) : 0 ≤ onA r := by
  unfold onA
  have : (r * π / 2) ^ 2 / ((r * π / 2) ^ 2 + 0.33) ≤ 1 := by
    rw [div_le_one (by positivity)]; norm_num
  linarith

theorem onB_pos (r : ℝ) : 0 ≤ onB r := by unfold onB; positivity

/-- Oren–Nayar in the local frame: `d` is the product of the horizontal parts. -/
theorem oren_local (f : Frame) (hf : Orthonormal f.t f.b f.n) (p : Params n) (i : Fin n) (wo : V3) (ho : 0 < dot wo f.n)
    (z φ : ℝ) (hz : 0 < z) :
    Kind.orenNayar.eval wo (localToWorld (vec (sph (z, φ))) f.t f.b f.n) f p i =
      p.albedo i * (1 / π) * (onA p.roughness + onB p.roughness *
        (if sqrt (1 - z ^ 2) * (dot wo f.t * cos φ + dot wo f.b * sin φ) > 0 ∧ max z (dot wo f.n) > 1e-6 then
          sqrt (1 - z ^ 2) * (dot wo f.t * cos φ + dot wo f.b * sin φ) / max z (dot wo f.n) else 0)) := by
  simp only [Kind.eval, orenEval]
  rw [world_n hf, world_dot hf]
  have hn : ¬ ((vec (sph (z, φ))).z ≤ 0 ∨ dot wo f.n ≤ 0) := by
    push Not; exact ⟨hz, ho⟩
  rw [if_neg hn]
  have hd : dot (vec (sph (z, φ))) (worldToLocal wo f.t f.b f.n) - (vec (sph (z, φ))).z * dot wo f.n =
      sqrt (1 - z ^ 2) * (dot wo f.t * cos φ + dot wo f.b * sin φ) := by
    simp only [dot, vec, sph, worldToLocal]; ring
  rw [hd]
  have hA : p.roughness * (π / 2) * (p.roughness * (π / 2)) = (p.roughness * π / 2) ^ 2 := by ring
  simp only [hA]
  rfl

theorem local_sq {f : Frame} (hf : Orthonormal f.t f.b f.n) {wo : V3} (hu : dot wo wo = 1) :
    (dot wo f.t) ^ 2 + (dot wo f.b) ^ 2 = 1 - (dot wo f.n) ^ 2 := by
  have h3 := (C60_conversions hf (worldToLocal wo f.t f.b f.n) (worldToLocal wo f.t f.b f.n)).2.2.1
  have := (C60_conversions hf wo V3.zero).2.1
  rw [this, hu] at h3
  simp only [dot, worldToLocal] at h3 ⊢
  linarith

/-- **C100.**  An Oren–Nayar surface never reflects more than `albedo·(A + B·sin θ/2)`, `θ` the angle it is seen under. -/
theorem C100_oren_nayar (f : Frame) (hf : Orthonormal f.t f.b f.n) (p : Params n) (i : Fin n) (h0 : 0 ≤ p.albedo i) (wo : V3)
    (hu : dot wo wo = 1) (ho : 0 < dot wo f.n) :
    reflected .orenNayar wo f p i ≤
      ENNReal.ofReal (p.albedo i * (onA p.roughness + onB p.roughness * sqrt (1 - (dot wo f.n) ^ 2) / 2)) := by
  have hp := pi_pos
  have hA := onA_pos p.roughness
  have hB := onB_pos p.roughness
  set A := onA p.roughness
  set B := onB p.roughness
  have h2 : (0 : ℝ) ≤ 2 * π := by positivity
  rw [reflected_eq _ (by simp)]
  set so := sqrt (1 - (dot wo f.n) ^ 2) with hso
  have e1 : ∀ z ∈ Ioo (0 : ℝ) 1, ∫⁻ φ in Ioo 0 (2 * π),
      ENNReal.ofReal (Kind.orenNayar.eval wo (localToWorld (vec (sph (z, φ))) f.t f.b f.n) f p i * z) ≤
      ENNReal.ofReal (p.albedo i * (1 / π) * (A * z * (2 * π) + B * (sqrt (1 - z ^ 2) * (2 * so)))) := by
    intro z hz
    have hz0 := hz.1
    have hs := sqrt_nonneg (1 - z ^ 2)
    set w : ℝ → ℝ := fun φ => dot wo f.t * cos φ + dot wo f.b * sin φ
    have hc : Continuous w := by fun_prop
    calc _ ≤ ∫⁻ φ in Ioo 0 (2 * π), ENNReal.ofReal (p.albedo i * (1 / π) * (A * z + B * (sqrt (1 - z ^ 2) * max 0 (w φ)))) := by
          refine lintegral_mono fun φ => ENNReal.ofReal_le_ofReal ?_
          rw [oren_local f hf p i wo ho z φ hz0, mul_assoc]
          refine mul_le_mul_of_nonneg_left ?_ (by positivity)
          rw [add_mul, mul_assoc B]
          refine add_le_add le_rfl (mul_le_mul_of_nonneg_left ?_ hB)
          split_ifs with hc
          · have hm : z ≤ max z (dot wo f.n) := le_max_left _ _
            have hm0 : 0 < max z (dot wo f.n) := by linarith
            rw [div_mul_eq_mul_div, div_le_iff₀ hm0]
            have : sqrt (1 - z ^ 2) * w φ ≤ sqrt (1 - z ^ 2) * max 0 (w φ) := mul_le_mul_of_nonneg_left (le_max_right _ _) hs
            exact mul_le_mul this hm hz0.le (mul_nonneg hs (le_max_left _ _))
          · rw [zero_mul]; exact mul_nonneg hs (le_max_left _ _)
      _ = _ := by
          rw [lint h2 (by fun_prop)]
          · congr 1
            have iw : ∫ φ in (0 : ℝ)..(2 * π), sqrt (1 - z ^ 2) * max 0 (w φ) = sqrt (1 - z ^ 2) * (2 * so) := by
              rw [intervalIntegral.integral_const_mul, hso, ← local_sq hf hu, ← int_wave]
            rw [intervalIntegral.integral_const_mul, intervalIntegral.integral_add, intervalIntegral.integral_const_mul B, iw,
              intervalIntegral.integral_const]
            · simp only [sub_zero, smul_eq_mul]; ring
            · exact continuous_const.intervalIntegrable _ _
            · exact Continuous.intervalIntegrable (by fun_prop) _ _
          · intro φ _
            have : 0 ≤ max 0 (w φ) := le_max_left _ _
            positivity
  refine (setLIntegral_mono' measurableSet_Ioo e1).trans (le_of_eq ?_)
  rw [lint zero_le_one (by fun_prop)]
  · congr 1
    rw [intervalIntegral.integral_const_mul, intervalIntegral.integral_add, intervalIntegral.integral_const_mul B,
      intervalIntegral.integral_mul_const, intervalIntegral.integral_mul_const, intervalIntegral.integral_const_mul, int_sqrt, integral_id]
    · field_simp; ring
    · exact Continuous.intervalIntegrable (by fun_prop) _ _
    · exact Continuous.intervalIntegrable (by fun_prop) _ _
  · intro z hz
    have := hz.1
    have := sqrt_nonneg (1 - z ^ 2)
    positivity

/-- **C100.**  Hence a smooth (roughness 0) or rough (at least 0.21) Oren–Nayar surface never reflects more than its albedo. -/
theorem C100_oren_nayar_partial (f : Frame) (hf : Orthonormal f.t f.b f.n) (p : Params n) (i : Fin n) (h0 : 0 ≤ p.albedo i) (wo : V3)
    (hu : dot wo wo = 1) (ho : 0 < dot wo f.n) (hr : p.roughness = 0 ∨ 0.21 ≤ p.roughness) :
    reflected .orenNayar wo f p i ≤ ENNReal.ofReal (p.albedo i) := by
  refine (C100_oren_nayar f hf p i h0 wo hu ho).trans (ENNReal.ofReal_le_ofReal ?_)
  have hs : sqrt (1 - (dot wo f.n) ^ 2) ≤ 1 := by rw [sqrt_le_one]; nlinarith
  have hB := onB_pos p.roughness
  have key : onA p.roughness + onB p.roughness / 2 ≤ 1 := by
    unfold onA onB
    rcases hr with hr | hr
    · rw [hr]; norm_num
    · have hpi := pi_gt_d2
      set q := (p.roughness * π / 2) ^ 2 with hq
      have h1 : 0.32 ≤ p.roughness * π / 2 := by nlinarith
      have h2 : 0.107 ≤ q ∨ q < 0.107 := le_or_gt _ _
      have hq2 : 0.32 * 0.32 ≤ q := by rw [hq, sq]; exact mul_le_mul h1 h1 (by norm_num) (by linarith)
      have hq3 : (0.1063637 : ℝ) ≤ q := by
        have h1 : 0.3297 ≤ p.roughness * π / 2 := by nlinarith
        have : 0.3297 * 0.3297 ≤ q := by rw [hq, sq]; exact mul_le_mul h1 h1 (by norm_num) (by linarith)
        norm_num at this ⊢; linarith
      have hq0 : 0 < q := by linarith
      have a : 0.45 * (q / (q + 0.09)) / 2 ≤ 0.5 * (q / (q + 0.33)) := by
        rw [show 0.45 * (q / (q + 0.09)) / 2 = 0.225 * q / (q + 0.09) by ring, show 0.5 * (q / (q + 0.33)) = 0.5 * q / (q + 0.33) by ring,
          div_le_div_iff₀ (by positivity) (by positivity)]
        nlinarith
      linarith
  have : onA p.roughness + onB p.roughness * sqrt (1 - (dot wo f.n) ^ 2) / 2 ≤ 1 := by
    have : onB p.roughness * sqrt (1 - (dot wo f.n) ^ 2) ≤ onB p.roughness * 1 := mul_le_mul_of_nonneg_left hs hB
    linarith
  calc _ ≤ p.albedo i * 1 := mul_le_mul_of_nonneg_left this h0
    _ = _ := mul_one _

theorem int_pow4 : ∫ z in (0 : ℝ)..1, (1 - z) ^ 4 = 1 / 5 := by
  have := intervalIntegral.integral_comp_sub_left (fun z : ℝ => z ^ 4) (a := 0) (b := 1) 1
  rw [this]
  norm_num [integral_pow]

/-- A white Oren–Nayar surface of roughness 0.05 seen under about 77° reflects more light than it receives. -/
theorem C100_oren_nayar_value :
    1 < reflected .orenNayar ⟨40 / 41, 0, 9 / 41⟩ stdF (⟨fun _ => 1, 0.05, 0⟩ : Params 1) 0 := by
  have hp := pi_pos
  have hA := onA_pos 0.05
  have hB := onB_pos 0.05
  have h2 : (0 : ℝ) ≤ 2 * π := by positivity
  rw [reflected_eq _ (by simp)]
  set wo : V3 := ⟨40 / 41, 0, 9 / 41⟩ with hwo
  have w1 : dot wo stdF.t = 40 / 41 := by simp [hwo, dot, stdF]
  have w2 : dot wo stdF.b = 0 := by simp [hwo, dot, stdF]
  have w3 : dot wo stdF.n = 9 / 41 := by simp [hwo, dot, stdF]
  have e1 : ∀ z ∈ Ioo (0 : ℝ) 1,
      ENNReal.ofReal (1 / π * (onA 0.05 * z * (2 * π) + onB 0.05 * (sqrt (1 - z ^ 2) * (1 - (1 - z) ^ 4) * (40 / 41)) * 2)) ≤
      ∫⁻ φ in Ioo 0 (2 * π), ENNReal.ofReal (Kind.orenNayar.eval wo (localToWorld (vec (sph (z, φ))) stdF.t stdF.b stdF.n) stdF
        (⟨fun _ => 1, 0.05, 0⟩ : Params 1) 0 * z) := by
    intro z hz
    have hz0 := hz.1
    have hz1 := hz.2
    have hs : 0 < sqrt (1 - z ^ 2) := sqrt_pos.2 (by nlinarith)
    set s := sqrt (1 - z ^ 2)
    have h4 : 0 ≤ 1 - (1 - z) ^ 4 := by
      have : (1 - z) ^ 4 ≤ 1 := pow_le_one₀ (by linarith) (by linarith)
      linarith
    have hr : 1 - (1 - z) ^ 4 ≤ z / max z (9 / 41) := by
      have hm0 : 0 < max z (9 / 41) := lt_max_of_lt_left hz0
      rcases le_total (9 / 41) z with h | h
      · rw [max_eq_left h, div_self hz0.ne']
        have : 0 ≤ (1 - z) ^ 4 := by positivity
        linarith
      · rw [max_eq_right h]
        have := one_add_mul_le_pow (a := -z) (by linarith) 4
        norm_num at this
        have e : (1 + -z) ^ 4 = (1 - z) ^ 4 := by ring
        rw [e] at this
        rw [le_div_iff₀ (by norm_num)]
        nlinarith
    calc _ = ∫⁻ φ in Ioo 0 (2 * π), ENNReal.ofReal (1 / π * (onA 0.05 * z + onB 0.05 * (s * (1 - (1 - z) ^ 4) * (40 / 41)) * max 0 (cos φ))) := by
          rw [lint h2 (by fun_prop)]
          · congr 1
            have iw : ∫ φ in (0 : ℝ)..(2 * π), max 0 (cos φ) = 2 := by
              have := int_wave 1 0
              simpa using this
            rw [intervalIntegral.integral_const_mul, intervalIntegral.integral_add,
              intervalIntegral.integral_const_mul (onB 0.05 * (s * (1 - (1 - z) ^ 4) * (40 / 41))), iw, intervalIntegral.integral_const]
            · simp only [sub_zero, smul_eq_mul]; ring
            · exact continuous_const.intervalIntegrable _ _
            · exact Continuous.intervalIntegrable (by fun_prop) _ _
          · intro φ _
            have : 0 ≤ max 0 (cos φ) := le_max_left _ _
            positivity
      _ ≤ _ := by
          refine lintegral_mono fun φ => ENNReal.ofReal_le_ofReal ?_
          rw [oren_local stdF stdF_orth _ 0 wo (by rw [w3]; norm_num) z φ hz0, mul_assoc (1 * (1 / π)), w1, w2, w3, one_mul]
          refine mul_le_mul_of_nonneg_left ?_ (by positivity)
          rw [add_mul, mul_assoc (onB _), mul_assoc (onB _)]
          refine add_le_add le_rfl (mul_le_mul_of_nonneg_left ?_ hB)
          have hm : max z (9 / 41) > 1e-6 := lt_max_of_lt_right (by norm_num)
          have hcz : 0 < max z (9 / 41) := by linarith
          change _ ≤ (if s * (40 / 41 * cos φ + 0 * sin φ) > 0 ∧ _ then s * (40 / 41 * cos φ + 0 * sin φ) / max z (9 / 41) else 0) * z
          rcases le_or_gt (cos φ) 0 with hc | hc
          · rw [max_eq_left hc, mul_zero, if_neg, zero_mul]
            rintro ⟨h, _⟩
            have : s * (40 / 41 * cos φ + 0 * sin φ) ≤ 0 := mul_nonpos_of_nonneg_of_nonpos hs.le (by linarith)
            linarith
          · rw [max_eq_right hc.le, if_pos ⟨by have : 0 < 40 / 41 * cos φ + 0 * sin φ := by linarith
                                               positivity, hm⟩]
            calc s * (1 - (1 - z) ^ 4) * (40 / 41) * cos φ = s * (40 / 41) * cos φ * (1 - (1 - z) ^ 4) := by ring
              _ ≤ s * (40 / 41) * cos φ * (z / max z (9 / 41)) := mul_le_mul_of_nonneg_left hr (by positivity)
              _ = _ := by ring
  refine lt_of_lt_of_le ?_ (setLIntegral_mono' measurableSet_Ioo e1)
  rw [lint zero_le_one (by fun_prop)]
  · rw [ENNReal.one_lt_ofReal]
    have hge : ∫ z in (0 : ℝ)..1, 1 / π * (onA 0.05 * z * (2 * π) + onB 0.05 * ((sqrt (1 - z ^ 2) - (1 - z) ^ 4) * (40 / 41)) * 2) ≤
        ∫ z in (0 : ℝ)..1, 1 / π * (onA 0.05 * z * (2 * π) + onB 0.05 * (sqrt (1 - z ^ 2) * (1 - (1 - z) ^ 4) * (40 / 41)) * 2) := by
      refine intervalIntegral.integral_mono_on zero_le_one (Continuous.intervalIntegrable (by fun_prop) _ _)
        (Continuous.intervalIntegrable (by fun_prop) _ _) fun z hz => ?_
      have hs : sqrt (1 - z ^ 2) ≤ 1 := by rw [sqrt_le_one]; nlinarith
      have h4 : 0 ≤ (1 - z) ^ 4 := by positivity
      have : sqrt (1 - z ^ 2) - (1 - z) ^ 4 ≤ sqrt (1 - z ^ 2) * (1 - (1 - z) ^ 4) := by nlinarith
      gcongr
    refine lt_of_lt_of_le ?_ hge
    have hv : ∫ z in (0 : ℝ)..1, 1 / π * (onA 0.05 * z * (2 * π) + onB 0.05 * ((sqrt (1 - z ^ 2) - (1 - z) ^ 4) * (40 / 41)) * 2) =
        onA 0.05 + onB 0.05 * (2 / π) * (40 / 41) * (π / 4 - 1 / 5) := by
      have c1 : Continuous fun z : ℝ => sqrt (1 - z ^ 2) := by fun_prop
      have c2 : Continuous fun z : ℝ => (1 - z) ^ 4 := by fun_prop
      rw [intervalIntegral.integral_const_mul, intervalIntegral.integral_add, intervalIntegral.integral_mul_const,
        intervalIntegral.integral_mul_const, intervalIntegral.integral_const_mul, intervalIntegral.integral_const_mul,
        intervalIntegral.integral_mul_const, intervalIntegral.integral_sub (c1.intervalIntegrable _ _) (c2.intervalIntegrable _ _),
        int_sqrt, int_pow4, integral_id]
      · field_simp; ring
      · exact Continuous.intervalIntegrable (by fun_prop) _ _
      · exact Continuous.intervalIntegrable (by fun_prop) _ _
    rw [hv]
    have hpi := pi_gt_d2
    have hpi' := pi_lt_d2
    have k1 : 0.37 ≤ 2 / π * (π / 4 - 1 / 5) := by
      rw [show 2 / π * (π / 4 - 1 / 5) = 1 / 2 - 2 / 5 / π by field_simp; ring]
      have : 2 / 5 / π ≤ 0.13 := by rw [div_le_iff₀ hp]; norm_num; linarith
      linarith
    have q1 : (0.05 * π / 2) ^ 2 ≤ 0.0063 := by nlinarith
    have q2 : 0.0061 ≤ (0.05 * π / 2) ^ 2 := by nlinarith
    have hAv : 0.99063 ≤ onA 0.05 := by
      unfold onA
      set q := (0.05 * π / 2) ^ 2
      have : q / (q + 0.33) ≤ 0.01874 := by rw [div_le_iff₀ (by linarith)]; linarith
      linarith
    have hBv : 0.028 ≤ onB 0.05 := by
      unfold onB
      set q := (0.05 * π / 2) ^ 2
      have : 0.0634 ≤ q / (q + 0.09) := by rw [le_div_iff₀ (by linarith)]; linarith
      linarith
    have : 0.028 * 0.37 ≤ onB 0.05 * (2 / π * (π / 4 - 1 / 5)) := mul_le_mul hBv k1 (by norm_num) hB
    nlinarith
  · intro z hz
    have := hz.1
    have hs := sqrt_nonneg (1 - z ^ 2)
    have h4 : 0 ≤ 1 - (1 - z) ^ 4 := by
      have : (1 - z) ^ 4 ≤ 1 := pow_le_one₀ (by linarith [hz.2]) (by linarith)
      linarith
    positivity

/-! ## McEwen -/

theorem arccos_clamp (t : ℝ) : arccos (clamp t (-1) 1) = arccos t := by
  unfold clamp
  split_ifs with h1 h2
  · rw [arccos_neg_one, arccos_of_le_neg_one h1.le]
  · rw [arccos_one, arccos_of_one_le h2.le]
  · rfl

/-- McEwen's phase weight `e^{-3α/π}` of a cosine. -/
noncomputable def mwBeta (t : ℝ) : ℝ := exp (-arccos t * (3 * (1 / π)))

theorem mwBeta_le (t : ℝ) : mwBeta t ≤ 1 := by
  have := arccos_nonneg t
  have := pi_pos
  unfold mwBeta
  rw [exp_le_one_iff]
  have : 0 ≤ arccos t * (3 * (1 / π)) := by positivity
  linarith

theorem mwBeta_pair (a b : ℝ) (h : 0 ≤ a + b) : 2 / 5 ≤ mwBeta a + mwBeta b := by
  have hp := pi_pos
  have hab : arccos a + arccos b ≤ π := by
    have : arccos b ≤ arccos (-a) := arccos_le_arccos (by linarith)
    rw [arccos_neg] at this
    linarith
  have e : ∀ t, mwBeta t = exp (-arccos t * (3 / 2 * (1 / π))) ^ 2 := by
    intro t; rw [← exp_nat_mul]; unfold mwBeta; congr 1; push_cast; ring
  have h1 : exp (-(3 / 2)) ≤ exp (-arccos a * (3 / 2 * (1 / π))) * exp (-arccos b * (3 / 2 * (1 / π))) := by
    rw [← exp_add, exp_le_exp]
    have : (arccos a + arccos b) * (3 / 2 * (1 / π)) ≤ π * (3 / 2 * (1 / π)) := by gcongr
    have e : π * (3 / 2 * (1 / π)) = 3 / 2 := by field_simp
    linarith
  have h2 : 1 / 5 ≤ exp (-(3 / 2)) := by
    rw [exp_neg, one_div]
    apply inv_anti₀ (exp_pos _)
    have h3 : exp (3 / 2) ^ 2 ≤ 5 ^ 2 := by
      have : exp (3 / 2) ^ 2 = exp 1 ^ 3 := by rw [← exp_nat_mul, ← exp_nat_mul]; congr 1; norm_num
      rw [this]
      have := exp_one_lt_d9
      have h0 := exp_pos 1
      calc exp 1 ^ 3 ≤ 2.7182818286 ^ 3 := by gcongr
        _ ≤ _ := by norm_num
    exact le_of_sq_le_sq h3 (by norm_num)
  rw [e a, e b]
  nlinarith [sq_nonneg (exp (-arccos a * (3 / 2 * (1 / π))) - exp (-arccos b * (3 / 2 * (1 / π))))]

theorem mcewen_local (f : Frame) (hf : Orthonormal f.t f.b f.n) (p : Params n) (i : Fin n) (wo : V3) (ho : 0 < dot wo f.n)
    (z φ : ℝ) (hz : 0 < z) :
    Kind.mcEwen.eval wo (localToWorld (vec (sph (z, φ))) f.t f.b f.n) f p i * z =
      p.albedo i * (1 / π) * (z + mwBeta (z * dot wo f.n + sqrt (1 - z ^ 2) * (dot wo f.t * cos φ + dot wo f.b * sin φ)) *
        (z / (4 * (z + dot wo f.n)) - z)) := by
  have hp := pi_pos
  simp only [Kind.eval, mcEwenEval]
  rw [world_n hf, world_dot hf]
  have hn : ¬ ((vec (sph (z, φ))).z ≤ 0 ∨ dot wo f.n ≤ 0) := by
    push Not; exact ⟨hz, ho⟩
  rw [if_neg hn, arccos_clamp]
  have hd : dot (vec (sph (z, φ))) (worldToLocal wo f.t f.b f.n) =
      z * dot wo f.n + sqrt (1 - z ^ 2) * (dot wo f.t * cos φ + dot wo f.b * sin φ) := by
    simp only [dot, vec, sph, worldToLocal]; ring
  rw [hd]
  change _ = p.albedo i * (1 / π) * (z + exp (-arccos _ * (3 * (1 / π))) * _)
  set E := exp (-arccos (z * dot wo f.n + sqrt (1 - z ^ 2) * (dot wo f.t * cos φ + dot wo f.b * sin φ)) * (3 * (1 / π)))
  have hv : (vec (sph (z, φ))).z = z := rfl
  rw [hv]
  have : z + dot wo f.n ≠ 0 := by linarith
  field_simp
  ring

/-- **C100.**  A McEwen (lunar-Lambert) surface never reflects more than 95 % of its albedo. -/
theorem C100_mcewen (f : Frame) (hf : Orthonormal f.t f.b f.n) (p : Params n) (i : Fin n) (h0 : 0 ≤ p.albedo i) (wo : V3)
    (ho : 0 < dot wo f.n) :
    reflected .mcEwen wo f p i ≤ ENNReal.ofReal (0.95 * p.albedo i) := by
  have hp := pi_pos
  have h2 : (0 : ℝ) ≤ 2 * π := by positivity
  rw [reflected_eq _ (by simp)]
  set co := dot wo f.n
  have e1 : ∀ z ∈ Ioo (0 : ℝ) 1, ∫⁻ φ in Ioo 0 (2 * π),
      ENNReal.ofReal (Kind.mcEwen.eval wo (localToWorld (vec (sph (z, φ))) f.t f.b f.n) f p i * z) ≤
      ENNReal.ofReal (2 * p.albedo i * (z + (max (1 / 4 - z) 0 - 1 / 5 * max (z - 1 / 4) 0))) := by
    intro z hz
    have hz0 := hz.1
    simp only [mcewen_local f hf p i wo ho z _ hz0]
    set w : ℝ → ℝ := fun φ => dot wo f.t * cos φ + dot wo f.b * sin φ with hw
    set K := z / (4 * (z + co)) - z with hK
    have hzc : 0 < z + co := by linarith
    have hK1 : K ≤ 1 / 4 - z := by
      have : z / (4 * (z + co)) ≤ 1 / 4 := by rw [div_le_div_iff₀ (by positivity) (by norm_num)]; linarith
      rw [hK]; linarith
    have hK0 : -z ≤ K := by
      have : 0 ≤ z / (4 * (z + co)) := by positivity
      rw [hK]; linarith
    set g : ℝ → ℝ := fun φ => p.albedo i * (1 / π) * (z + mwBeta (z * co + sqrt (1 - z ^ 2) * w φ) * K) with hg
    have hgc : Continuous g := by
      have : Continuous mwBeta := by
        unfold mwBeta; exact continuous_exp.comp (continuous_arccos.neg.mul continuous_const)
      fun_prop
    have hb0 : ∀ t, 0 ≤ mwBeta t := fun t => (exp_pos _).le
    have hpos : ∀ φ, 0 ≤ g φ := by
      intro φ
      have := mul_le_mul_of_nonneg_left hK0 (hb0 (z * co + sqrt (1 - z ^ 2) * w φ))
      have := mwBeta_le (z * co + sqrt (1 - z ^ 2) * w φ)
      have : 0 ≤ z + mwBeta (z * co + sqrt (1 - z ^ 2) * w φ) * K := by nlinarith
      have : 0 ≤ p.albedo i * (1 / π) := by positivity
      positivity
    rw [lint h2 hgc.continuousOn (fun φ _ => hpos φ)]
    apply ENNReal.ofReal_le_ofReal
    have split : ∫ φ in (0 : ℝ)..(2 * π), g φ = ∫ φ in (0 : ℝ)..π, (g φ + g (φ + π)) := by
      rw [intervalIntegral.integral_add (hgc.intervalIntegrable _ _) (Continuous.intervalIntegrable (by fun_prop) _ _),
        intervalIntegral.integral_comp_add_right, zero_add, ← two_mul,
        intervalIntegral.integral_add_adjacent_intervals (hgc.intervalIntegrable _ _) (hgc.intervalIntegrable _ _)]
    rw [split]
    set h := max (1 / 4 - z) 0 - 1 / 5 * max (z - 1 / 4) 0 with hh
    have hbd : ∀ φ, g φ + g (φ + π) ≤ p.albedo i * (1 / π) * (2 * z + 2 * h) := by
      intro φ
      have hwpi : w (φ + π) = - w φ := by simp only [hw, cos_add_pi, sin_add_pi]; ring
      set a := z * co + sqrt (1 - z ^ 2) * w φ with ha
      set b := z * co + sqrt (1 - z ^ 2) * w (φ + π) with hb
      have hab : 0 ≤ a + b := by
        rw [ha, hb, hwpi]
        have := mul_pos hz0 ho
        change 0 < z * co at this
        linarith
      have h1 := mwBeta_pair a b hab
      have h3 := mwBeta_le a
      have h4 := mwBeta_le b
      have : g φ + g (φ + π) = p.albedo i * (1 / π) * (2 * z + (mwBeta a + mwBeta b) * K) := by
        simp only [hg]; ring
      rw [this]
      refine mul_le_mul_of_nonneg_left (add_le_add le_rfl ?_) (by positivity)
      have hk : (mwBeta a + mwBeta b) * K ≤ (mwBeta a + mwBeta b) * (1 / 4 - z) :=
        mul_le_mul_of_nonneg_left hK1 (add_nonneg (hb0 a) (hb0 b))
      rcases le_total z (1 / 4) with hq | hq
      · rw [hh, max_eq_left (by linarith), max_eq_right (by linarith)]
        nlinarith
      · rw [hh, max_eq_right (by linarith), max_eq_left (by linarith)]
        nlinarith
    calc _ ≤ ∫ φ in (0 : ℝ)..π, p.albedo i * (1 / π) * (2 * z + 2 * h) :=
          intervalIntegral.integral_mono_on hp.le (Continuous.intervalIntegrable (by fun_prop) _ _)
            (continuous_const.intervalIntegrable _ _) fun φ _ => hbd φ
      _ = _ := by
          rw [intervalIntegral.integral_const, smul_eq_mul]; field_simp; ring
  refine (setLIntegral_mono' measurableSet_Ioo e1).trans ?_
  rw [lint zero_le_one (by fun_prop)]
  · apply ENNReal.ofReal_le_ofReal
    rw [intervalIntegral.integral_const_mul]
    have c : Continuous fun z : ℝ => z + (max (1 / 4 - z) 0 - 1 / 5 * max (z - 1 / 4) 0) := by fun_prop
    have : ∫ z in (0 : ℝ)..1, (z + (max (1 / 4 - z) 0 - 1 / 5 * max (z - 1 / 4) 0)) = 19 / 40 := by
      rw [← intervalIntegral.integral_add_adjacent_intervals (c.intervalIntegrable 0 (1 / 4)) (c.intervalIntegrable (1 / 4) 1)]
      have a1 : ∫ z in (0 : ℝ)..(1 / 4), (z + (max (1 / 4 - z) 0 - 1 / 5 * max (z - 1 / 4) 0)) = ∫ z in (0 : ℝ)..(1 / 4), (1 / 4 : ℝ) := by
        refine intervalIntegral.integral_congr fun z hz => ?_
        rw [uIcc_of_le (by norm_num)] at hz
        beta_reduce
        rw [max_eq_left (by linarith [hz.2]), max_eq_right (by linarith [hz.2])]; ring
      have a2 : ∫ z in (1 / 4 : ℝ)..1, (z + (max (1 / 4 - z) 0 - 1 / 5 * max (z - 1 / 4) 0)) = ∫ z in (1 / 4 : ℝ)..1, (4 / 5 * z + 1 / 20) := by
        refine intervalIntegral.integral_congr fun z hz => ?_
        rw [uIcc_of_le (by norm_num)] at hz
        beta_reduce
        rw [max_eq_right (by linarith [hz.1]), max_eq_left (by linarith [hz.1])]; ring
      rw [a1, a2, intervalIntegral.integral_add (Continuous.intervalIntegrable (by fun_prop) _ _) (continuous_const.intervalIntegrable _ _),
        intervalIntegral.integral_const_mul, integral_id]
      norm_num
    rw [this]
    linarith
  · intro z hz
    have := hz.1
    have : 0 ≤ z + (max (1 / 4 - z) 0 - 1 / 5 * max (z - 1 / 4) 0) := by
      rcases le_total z (1 / 4) with hq | hq
      · rw [max_eq_left (by linarith), max_eq_right (by linarith)]; linarith
      · rw [max_eq_right (by linarith), max_eq_left (by linarith)]; linarith
    positivity

/-! ## The claim -/

/-- **C100, the full claim**: with parameters in range no model reflects more light than it receives, seen from any direction above the
surface. -/
def C100_full : Prop := ∀ (k : Kind) (f : Frame), Orthonormal f.t f.b f.n → ∀ (p : Params 1), Physical k p →
  (0 ≤ p.roughness ∧ p.roughness ≤ 1) → (0 ≤ p.metallic ∧ p.metallic ≤ 1) → ∀ wo, dot wo wo = 1 → 0 < dot wo f.n →
    reflected k wo f p 0 ≤ 1

/-- It fails for Hapke, for Oren–Nayar and for Cook–Torrance. -/
theorem C100_violated : ¬ C100_full ∧
    (¬ ∀ (p : Params 1), Physical (.hapke 1 0 0 0) p → reflected (.hapke 1 0 0 0) ⟨0, 0, 1⟩ stdF p 0 ≤ 1) ∧
    (¬ ∀ (p : Params 1), Physical .orenNayar p → reflected .orenNayar ⟨40 / 41, 0, 9 / 41⟩ stdF p 0 ≤ 1) ∧
    (¬ ∀ (p : Params 1), Physical .cookTorrance p → reflected .cookTorrance ⟨0, 0, 1⟩ stdF p 0 ≤ 1) := by
  have ph : ∀ k : Kind, (∀ h B0 b c, k ≠ .hapke h B0 b c) → ∀ p : Params 1, p.albedo = (fun _ => 1) → Physical k p := by
    intro k hk p hp
    exact ⟨fun i => by rw [hp]; norm_num, fun h B0 b c e => absurd e (hk h B0 b c)⟩
  have c : 1 < reflected .cookTorrance ⟨0, 0, 1⟩ stdF (⟨fun _ => 1, 1, 0⟩ : Params 1) 0 :=
    lt_of_lt_of_le (by rw [ENNReal.one_lt_ofReal]; norm_num) C100_cook_value
  refine ⟨fun h => ?_, fun h => ?_, fun h => ?_, fun h => ?_⟩
  · have := h .cookTorrance stdF stdF_orth ⟨fun _ => 1, 1, 0⟩ (ph _ (by simp) _ rfl) (by norm_num) (by norm_num) ⟨0, 0, 1⟩ (by simp [dot])
      (by simp [dot, stdF])
    exact absurd c (not_lt.2 this)
  · have := h ⟨fun _ => 1, 0, 0⟩ ⟨fun _ => by norm_num, fun _ _ _ _ e => by
      rw [Kind.hapke.injEq] at e; obtain ⟨rfl, rfl, rfl, rfl⟩ := e; norm_num⟩
    rw [C100_hapke_value] at this
    refine absurd this (not_le.2 ?_)
    rw [ENNReal.one_lt_ofReal]
    have := log_two_gt_d9
    norm_num at this ⊢
    linarith
  · exact absurd C100_oren_nayar_value (not_lt.2 (h _ (ph _ (by simp) _ rfl)))
  · exact absurd c (not_lt.2 (h _ (ph _ (by simp) _ rfl)))

/-- The hypotheses of the positive results are met, for instance by a rough grey surface seen obliquely. -/
example : reflected .mcEwen ⟨3 / 5, 0, 4 / 5⟩ stdF (⟨fun _ => 0.5, 0.3, 0⟩ : Params 1) 0 ≤ ENNReal.ofReal 0.475 ∧
    reflected .orenNayar ⟨3 / 5, 0, 4 / 5⟩ stdF (⟨fun _ => 0.5, 0.3, 0⟩ : Params 1) 0 ≤ ENNReal.ofReal 0.5 := by
  refine ⟨(C100_mcewen stdF stdF_orth _ 0 (by norm_num) _ (by simp [dot, stdF])).trans (ENNReal.ofReal_le_ofReal (by norm_num)), ?_⟩
  exact C100_oren_nayar_partial stdF stdF_orth _ 0 (by norm_num) _ (by norm_num [dot]) (by simp [dot, stdF]) (.inr (by norm_num))

end Huira.Bsdf
