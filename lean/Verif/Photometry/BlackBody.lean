import Verif.Photometry.PhysicsProps
import Verif.Render.LightModel
import Mathlib.MeasureTheory.Integral.IntervalIntegral.TrapezoidalRule
import Mathlib.MeasureTheory.Integral.IntegralEqImproper
import Mathlib.Analysis.SpecialFunctions.Gamma.Basic
import Mathlib.Analysis.SpecialFunctions.Gaussian.GaussianIntegral
import Mathlib.NumberTheory.ZetaValues
import Mathlib.Analysis.Real.Pi.Bounds
import Mathlib.Analysis.Calculus.IteratedDeriv.Lemmas
import Mathlib.Topology.Algebra.Order.LiminfLimsup
/-!
# C138: black bodies obey the laws of thermal radiation

`black_body` (`include/huira_impl/core/physics.ipp` 79-92) adds trapezoids under Planck's law.  Against the laws of physics: the bins
approach the exact integrals as the square of the number of steps, radiation of all wavelengths adds up to the law of Stefan and
Boltzmann, spectra of different temperatures are related by Wien's displacement law.  `Scene::new_sun_light`
(`include/huira_impl/scene/scene.ipp` 357-369) makes a sphere of the sun's radius with such a spectrum.
-/
set_option linter.unusedSimpArgs false
namespace Huira.Phot

noncomputable section
open Real MeasureTheory Set

/-! ## Specification -/

/-- The constant of Stefan and Boltzmann. -/
def sigma : ℝ := 2 * π ^ 5 * kBoltz ^ 4 / (15 * hPlanck ^ 3 * cLight ^ 2)

/-- The radiance between two wavelengths, by Planck's law. -/
def bandRadiance (temp : ℝ) (bin : ℝ × ℝ) : ℝ := ∫ l in bin.1..bin.2, planck temp l

/-! ## Trapezoids -/

theorem integrate_range (x f : ℕ → ℝ) : ∀ N : ℕ, integrate ((List.range (N + 1)).map x) ((List.range (N + 1)).map f) =
    ∑ i ∈ Finset.range N, (1 / 2) * (f i + f (i + 1)) * (x (i + 1) - x i) := by
  intro N
  induction N generalizing x f with
  | zero => simp [integrate]
  | succ N ih =>
    have h := ih (fun i => x (i + 1)) (fun i => f (i + 1))
    have e : ∀ g : ℕ → ℝ, (List.range (N + 1 + 1)).map g = g 0 :: (List.range (N + 1)).map fun i => g (i + 1) := by
      intro g
      rw [List.range_succ_eq_map, List.map_cons, List.map_map]
      rfl
    have e' : ∀ g : ℕ → ℝ, ∃ l, (List.range (N + 1)).map g = g 0 :: l := by
      intro g
      rw [List.range_succ_eq_map, List.map_cons]
      exact ⟨_, rfl⟩
    rw [e x, e f]
    obtain ⟨lx, hx⟩ := e' fun i => x (i + 1)
    obtain ⟨lf, hf⟩ := e' fun i => f (i + 1)
    rw [hx, hf] at h ⊢
    rw [integrate, h, Finset.sum_range_succ' _ N]
    simp only [zero_add]
    ring

/-- The code's sum is the trapezoidal rule. -/
theorem blackBodyBin_trap (temp : ℝ) (N : ℕ) (hN : 0 < N) (bin : ℝ × ℝ) :
    blackBodyBin temp (N + 1) bin = trapezoidal_integral (planck temp) N bin.1 bin.2 := by
  have hN' : (N : ℝ) ≠ 0 := by positivity
  have hb : bin.2 = bin.1 + N * ((bin.2 - bin.1) / N) := by field_simp; ring
  have h := sum_trapezoidal_integral_adjacent_intervals (f := planck temp) (a := bin.1) (h := (bin.2 - bin.1) / N) hN
  rw [← hb] at h
  rw [← h]
  unfold blackBodyBin linspace
  rw [List.map_map, integrate_range]
  apply Finset.sum_congr rfl
  intro i _
  simp only [trapezoidal_integral_one, Function.comp]
  push_cast
  have : (N : ℝ) + 1 - 1 = N := by ring
  rw [this]
  ring

theorem planck_contDiff {temp : ℝ} (ht : 0 < temp) {s : Set ℝ} (hs : ∀ l ∈ s, 0 < l) : ContDiffOn ℝ 2 (planck temp) s := by
  obtain ⟨h1, h2, h3, _⟩ := consts_pos
  unfold planck
  intro l hl
  have hl0 := hs l hl
  apply ContDiffAt.contDiffWithinAt
  have he : 1 < exp (hPlanck * cLight / kBoltz / (l * temp)) := by rw [one_lt_exp_iff]; positivity
  apply ContDiffAt.div
  · exact contDiffAt_const.div (contDiffAt_id.pow 5) (by positivity)
  · apply ContDiffAt.sub _ contDiffAt_const
    apply ContDiffAt.exp
    exact contDiffAt_const.div (contDiffAt_id.mul contDiffAt_const) (by positivity)
  · linarith

/-! ## C138 -/

/-- **C138 (Planck's law).** The radiance computed for a bin with `N + 1` wavelengths differs from the integral of Planck's law over
the bin by at most a constant over `N²`; so it converges. -/
theorem C138_planck (temp : ℝ) (ht : 0 < temp) (bin : ℝ × ℝ) (h0 : 0 < bin.1) (h1 : bin.1 ≤ bin.2) :
    ∃ C : ℝ, 0 ≤ C ∧ ∀ N : ℕ, 0 < N → |blackBodyBin temp (N + 1) bin - bandRadiance temp bin| ≤ C / (N : ℝ) ^ 2 := by
  rcases h1.eq_or_lt with h | hlt
  · refine ⟨0, le_refl _, fun N hN => ?_⟩
    rw [blackBodyBin_trap temp N hN, bandRadiance, ← h]
    simp
  have hc := planck_contDiff ht (s := uIcc bin.1 bin.2) (fun l hl => by
    rw [uIcc_of_le h1] at hl
    exact h0.trans_le hl.1)
  have hcont : ContinuousOn (iteratedDerivWithin 2 (planck temp) (uIcc bin.1 bin.2)) (uIcc bin.1 bin.2) :=
    hc.continuousOn_iteratedDerivWithin le_rfl (uniqueDiffOn_uIcc hlt.ne)
  obtain ⟨M, hM⟩ := isCompact_uIcc.exists_bound_of_continuousOn hcont
  have hM' : ∀ x, |iteratedDerivWithin 2 (planck temp) (uIcc bin.1 bin.2) x| ≤ |M| := by
    intro x
    by_cases hx : x ∈ uIcc bin.1 bin.2
    · exact (hM x hx).trans (le_abs_self M)
    · rw [iteratedDerivWithin_succ, derivWithin_zero_of_notMem_closure (by rw [IsClosed.closure_eq (by unfold uIcc; exact isClosed_Icc)]; exact hx), abs_zero]
      exact abs_nonneg M
  refine ⟨|bin.2 - bin.1| ^ 3 * |M| / 12, by positivity, fun N hN => ?_⟩
  rw [blackBodyBin_trap temp N hN]
  have := trapezoidal_error_le_of_c2 hc hM' hN
  unfold trapezoidal_error at this
  unfold bandRadiance
  refine this.trans (le_of_eq ?_)
  have : (N : ℝ) ≠ 0 := by positivity
  field_simp

theorem C138_limit (temp : ℝ) (ht : 0 < temp) (bin : ℝ × ℝ) (h0 : 0 < bin.1) (h1 : bin.1 ≤ bin.2) :
    Filter.Tendsto (fun steps => blackBodyBin temp steps bin) Filter.atTop (nhds (bandRadiance temp bin)) := by
  obtain ⟨C, hC, h⟩ := C138_planck temp ht bin h0 h1
  rw [← Filter.tendsto_add_atTop_iff_nat 1, tendsto_iff_norm_sub_tendsto_zero]
  have hz : Filter.Tendsto (fun N : ℕ => C / (N : ℝ) ^ 2) Filter.atTop (nhds 0) := by
    apply Filter.Tendsto.div_atTop tendsto_const_nhds
    exact (Filter.tendsto_pow_atTop (by norm_num)).comp tendsto_natCast_atTop_atTop
  refine squeeze_zero' (Filter.Eventually.of_forall fun _ => norm_nonneg _) ?_ hz
  filter_upwards [Filter.eventually_gt_atTop 0] with N hN
  exact h N hN

/-- One step gives nothing at all: `black_body` needs two wavelengths to make a trapezoid. -/
theorem C138_one_step (temp : ℝ) (bin : ℝ × ℝ) : blackBodyBin temp 1 bin = 0 := by
  simp [blackBodyBin, linspace, integrate]

/-! ### Wien -/

theorem planck_scale (temp s l : ℝ) (hs : 0 < s) : planck (s * temp) (l / s) = s ^ 5 * planck temp l := by
  unfold planck
  have h : l / s * (s * temp) = l * temp := by field_simp
  rw [h]
  by_cases hl : l = 0
  · simp [hl]
  · field_simp

theorem integrate_map_scale (g : ℝ → ℝ) (a b : ℝ) : ∀ xs : List ℝ, integrate (xs.map (a * ·)) (xs.map fun x => b * g x) = a * b * integrate xs (xs.map g)
  | [] => by simp [integrate]
  | [_] => by simp [integrate]
  | x :: y :: xs => by
    have := integrate_map_scale g a b (y :: xs)
    simp only [List.map_cons, integrate] at this ⊢
    rw [this]
    ring

/-- **C138 (Wien's displacement law).** Heating a body by a factor `s` moves its spectrum to wavelengths shorter by that factor and
raises the radiance of the moved bins by `s⁴`; the computed values obey this exactly, for every number of steps. -/
theorem C138_displacement (temp s : ℝ) (hs : 0 < s) (steps : ℕ) (bin : ℝ × ℝ) :
    blackBodyBin (s * temp) steps (bin.1 / s, bin.2 / s) = s ^ 4 * blackBodyBin temp steps bin := by
  unfold blackBodyBin
  have hl : linspace (bin.1 / s) (bin.2 / s) steps = (linspace bin.1 bin.2 steps).map (s⁻¹ * ·) := by
    unfold linspace
    rw [List.map_map]
    apply List.map_congr_left
    intro i _
    simp only [Function.comp]
    by_cases hd : (steps : ℝ) - 1 = 0
    · simp only [hd, div_zero, mul_zero, add_zero]; field_simp
    · field_simp
  have hf : (fun x => planck (s * temp) (s⁻¹ * x)) = fun x => s ^ 5 * planck temp x := by
    funext x
    rw [← planck_scale temp s x hs]
    congr 1
    field_simp
  simp only [hl, List.map_map, Function.comp_def]
  rw [hf, integrate_map_scale]
  field_simp

/-- The wavelength of the maximum moves with the inverse of the temperature. -/
theorem C138_peak (temp s peak : ℝ) (hs : 0 < s) (h : ∀ l, 0 < l → planck temp l ≤ planck temp peak) (l : ℝ) (hl : 0 < l) :
    planck (s * temp) l ≤ planck (s * temp) (peak / s) := by
  have e : l = (s * l) / s := by field_simp
  rw [e, planck_scale temp s _ hs, planck_scale temp s _ hs]
  exact mul_le_mul_of_nonneg_left (h (s * l) (by positivity)) (by positivity)

/-! ### Stefan and Boltzmann -/

theorem bose {α : ℝ} (ha : 0 < α) : ∫ x in Ioi (0 : ℝ), x ^ 3 / (exp (α * x) - 1) = π ^ 4 / (15 * α ^ 4) := by
  let F : ℕ → ℝ → ℝ := fun n x => x ^ (3 : ℝ) * exp (-(((n : ℝ) + 1) * α * x))
  have hpos : ∀ n : ℕ, 0 < ((n : ℝ) + 1) * α := fun n => by positivity
  have hint : ∀ n, ∫ x in Ioi (0 : ℝ), F n x = 6 / α ^ 4 * (1 / ((n : ℝ) + 1) ^ 4) := by
    intro n
    have := integral_rpow_mul_exp_neg_mul_Ioi (a := 4) (r := ((n : ℝ) + 1) * α) (by norm_num) (hpos n)
    have h3 : (4 : ℝ) - 1 = 3 := by norm_num
    rw [h3] at this
    show ∫ x in Ioi (0 : ℝ), x ^ (3 : ℝ) * exp (-(((n : ℝ) + 1) * α * x)) = _
    rw [this]
    have hG : Real.Gamma 4 = 6 := by
      have := Real.Gamma_nat_eq_factorial 3
      rw [show ((3 : ℕ) : ℝ) + 1 = 4 by norm_num] at this
      rw [this]
      norm_num [Nat.factorial]
    have h4 : ((1 / (((n : ℝ) + 1) * α)) : ℝ) ^ (4 : ℝ) = (1 / (((n : ℝ) + 1) * α)) ^ 4 := by
      rw [← Real.rpow_natCast]; norm_num
    rw [hG, h4]
    field_simp
  have hFi : ∀ n, IntegrableOn (F n) (Ioi 0) := by
    intro n
    have := integrableOn_rpow_mul_exp_neg_mul_rpow (p := 1) (s := 3) (b := ((n : ℝ) + 1) * α) (by norm_num) one_pos (hpos n)
    refine this.congr_fun ?_ measurableSet_Ioi
    intro x _
    simp [F]
  have hnorm : ∀ n, ∫ x in Ioi (0 : ℝ), ‖F n x‖ = 6 / α ^ 4 * (1 / ((n : ℝ) + 1) ^ 4) := by
    intro n
    rw [← hint n]
    apply setIntegral_congr_fun measurableSet_Ioi
    intro x hx
    have : (0 : ℝ) < x := hx
    simp only [F, norm_eq_abs]
    rw [abs_of_nonneg (by positivity)]
  have hz : HasSum (fun n : ℕ => (1 : ℝ) / ((n : ℝ) + 1) ^ 4) (π ^ 4 / 90) := by
    have := hasSum_zeta_four
    rw [← hasSum_nat_add_iff' 1] at this
    simpa using this
  have hsum := hasSum_integral_of_summable_integral_norm (μ := volume.restrict (Ioi 0)) (F := F) hFi (by
    simp only [hnorm]
    exact (hz.mul_left _).summable)
  have hval : HasSum (fun n : ℕ => ∫ x in Ioi (0 : ℝ), F n x) (6 / α ^ 4 * (π ^ 4 / 90)) := by
    simp only [hint]
    exact hz.mul_left _
  have htot := hsum.unique hval
  have hpt : ∫ x in Ioi (0 : ℝ), (∑' n, F n x) = ∫ x in Ioi (0 : ℝ), x ^ 3 / (exp (α * x) - 1) := by
    apply setIntegral_congr_fun measurableSet_Ioi
    intro x hx
    have hx0 : (0 : ℝ) < x := hx
    have hq0 : 0 ≤ exp (-(α * x)) := (exp_pos _).le
    have hq1 : exp (-(α * x)) < 1 := by rw [exp_lt_one_iff]; have := mul_pos ha hx0; linarith
    have hgeo := (hasSum_geometric_of_lt_one hq0 hq1).mul_left (x ^ (3 : ℝ) * exp (-(α * x)))
    have hF : (fun n => F n x) = fun n : ℕ => x ^ (3 : ℝ) * exp (-(α * x)) * exp (-(α * x)) ^ n := by
      funext n
      simp only [F]
      rw [← exp_nat_mul, mul_assoc (x ^ (3 : ℝ)), ← exp_add]
      congr 2
      ring
    simp only [hF]
    rw [hgeo.tsum_eq]
    have he : 1 < exp (α * x) := by rw [one_lt_exp_iff]; exact mul_pos ha hx0
    have h3 : x ^ (3 : ℝ) = x ^ 3 := by rw [← Real.rpow_natCast]; norm_num
    rw [h3, exp_neg]
    have h1 : exp (α * x) - 1 ≠ 0 := by linarith
    have h2 : (1 - (exp (α * x))⁻¹) ≠ 0 := by
      have : (exp (α * x))⁻¹ < 1 := inv_lt_one_of_one_lt₀ he
      linarith
    have h5 := (exp_pos (α * x)).ne'
    field_simp
  rw [← hpt, htot]
  field_simp
  norm_num

/-- **C138 (the law of Stefan and Boltzmann).** The radiance of all wavelengths together, by the code's Planck function and
constants, is `σ T⁴ / π`, and `σ` is 5.670e-8 W m⁻² K⁻⁴. -/
theorem C138_stefan_boltzmann (temp : ℝ) (ht : 0 < temp) : ∫ l in Ioi (0 : ℝ), planck temp l = sigma * temp ^ 4 / π := by
  obtain ⟨h1, h2, h3, _⟩ := consts_pos
  have hsub := integral_comp_rpow_Ioi (fun l => planck temp l) (p := -1) (by norm_num)
  rw [← hsub]
  have : ∫ x in Ioi (0 : ℝ), (|(-1 : ℝ)| * x ^ ((-1 : ℝ) - 1)) • planck temp (x ^ (-1 : ℝ)) =
      ∫ x in Ioi (0 : ℝ), (2 * hPlanck * cLight * cLight) * (x ^ 3 / (exp (hPlanck * cLight / kBoltz / temp * x) - 1)) := by
    apply setIntegral_congr_fun measurableSet_Ioi
    intro x hx
    have hx0 : (0 : ℝ) < x := hx
    have e1 : x ^ ((-1 : ℝ) - 1) = (x ^ 2)⁻¹ := by
      rw [show (-1 : ℝ) - 1 = -(2 : ℝ) by norm_num, Real.rpow_neg hx0.le, ← Real.rpow_natCast]; norm_num
    have e2 : x ^ (-1 : ℝ) = x⁻¹ := Real.rpow_neg_one x
    simp only [e1, e2, smul_eq_mul, abs_neg, abs_one, one_mul]
    unfold planck
    have e3 : hPlanck * cLight / kBoltz / (x⁻¹ * temp) = hPlanck * cLight / kBoltz / temp * x := by field_simp
    rw [e3]
    have he : 1 < exp (hPlanck * cLight / kBoltz / temp * x) := by rw [one_lt_exp_iff]; positivity
    have : exp (hPlanck * cLight / kBoltz / temp * x) - 1 ≠ 0 := by linarith
    field_simp
  rw [this, integral_const_mul, bose (by positivity)]
  unfold sigma
  have := pi_pos
  field_simp

theorem C138_sigma : 5.670e-8 < sigma ∧ sigma < 5.671e-8 := by
  have l := pi_gt_d6
  have u := pi_lt_d6
  have hp := pi_pos
  unfold sigma hPlanck cLight kBoltz
  constructor
  · rw [lt_div_iff₀ (by norm_num)]
    have : (3.141592 : ℝ) ^ 5 < π ^ 5 := pow_lt_pow_left₀ l (by norm_num) (by norm_num)
    norm_num at this ⊢
    linarith
  · rw [div_lt_iff₀ (by norm_num)]
    have : π ^ 5 < (3.141593 : ℝ) ^ 5 := pow_lt_pow_left₀ u hp.le (by norm_num)
    norm_num at this ⊢
    linarith

theorem planck_integrable {temp : ℝ} (ht : 0 < temp) : IntegrableOn (planck temp) (Ioi 0) := by
  by_contra h
  have h0 := integral_undef h
  rw [C138_stefan_boltzmann temp ht] at h0
  obtain ⟨h1, h2, h3, _⟩ := consts_pos
  have := pi_pos
  have : 0 < sigma * temp ^ 4 / π := by unfold sigma; positivity
  linarith

/-- **C138 (no bins hold more than everything).** Bins that do not overlap hold together at most the whole of the radiation. -/
theorem C138_bins {n : ℕ} (bins : Fin n → ℝ × ℝ) (hb : ∀ i, 0 < (bins i).1 ∧ (bins i).1 ≤ (bins i).2)
    (hd : ∀ i j, i ≠ j → (bins i).2 ≤ (bins j).1 ∨ (bins j).2 ≤ (bins i).1) (temp : ℝ) (ht : 0 < temp) :
    ∑ i, bandRadiance temp (bins i) ≤ sigma * temp ^ 4 / π := by
  have hio := planck_integrable ht
  have hsub : ∀ i, Ioc (bins i).1 (bins i).2 ⊆ Ioi 0 := fun i x hx => (hb i).1.trans hx.1
  have e : ∑ i, bandRadiance temp (bins i) = ∫ l in ⋃ i, Ioc (bins i).1 (bins i).2, planck temp l := by
    rw [integral_iUnion_fintype (fun i => measurableSet_Ioc) _ (fun i => hio.mono_set (hsub i))]
    · apply Finset.sum_congr rfl
      intro i _
      rw [bandRadiance, intervalIntegral.integral_of_le (hb i).2]
    · intro i j hij
      rw [Function.onFun, Set.disjoint_left]
      intro x hx hy
      rcases hd i j hij with h | h
      · exact absurd hy.1 (not_lt.2 (hx.2.trans h))
      · exact absurd hx.1 (not_lt.2 (hy.2.trans h))
  rw [e, ← C138_stefan_boltzmann temp ht]
  apply setIntegral_mono_set hio
  · exact (ae_restrict_mem measurableSet_Ioi).mono fun l hl => (planck_pos ht hl).le
  · exact (iUnion_subset hsub).eventuallyLE

/-- Bins that share their borders: the sum is the radiance of the whole band. -/
theorem C138_adjacent (edges : ℕ → ℝ) (n : ℕ) (h0 : 0 < edges 0) (hm : Monotone edges) (temp : ℝ) (ht : 0 < temp) :
    ∑ i ∈ Finset.range n, bandRadiance temp (edges i, edges (i + 1)) = bandRadiance temp (edges 0, edges n) := by
  unfold bandRadiance
  apply intervalIntegral.sum_integral_adjacent_intervals
  intro k _
  rw [intervalIntegrable_iff_integrableOn_Ioc_of_le (hm (Nat.le_succ k))]
  exact (planck_integrable ht).mono_set fun x hx => (h0.trans_le (hm (Nat.zero_le k))).trans hx.1

/-! ### The sun -/

/-- `Scene::new_sun_light` (`scene.ipp` 357-369): radius and radiance of the light. -/
def sunLight {n : ℕ} (bins : Fin n → ℝ × ℝ) : ℝ × (Fin n → ℝ) := (6.957e8, blackBody bins 5800 1000)

/-- The same with the bins integrated exactly. -/
def sunExact {n : ℕ} (bins : Fin n → ℝ × ℝ) : Fin n → ℝ := fun i => bandRadiance 5800 (bins i)

/-- **C138 (the sun).** At the distance of the earth the sun's disc of `new_sun_light`, with its bins integrated exactly, gives less
than 1388 W/m² in any set of bins that do not overlap. -/
theorem C138_sun {n : ℕ} (bins : Fin n → ℝ × ℝ) (hb : ∀ i, 0 < (bins i).1 ∧ (bins i).1 ≤ (bins i).2)
    (hd : ∀ i j, i ≠ j → (bins i).2 ≤ (bins j).1 ∨ (bins j).2 ≤ (bins i).1) (c p : V3) (h : V3.dot (c - p) (c - p) = au ^ 2) :
    ∑ i, Light.irradianceAt (sunLight bins).1 (sunExact bins i) c p < 1388 := by
  have hau : ¬ V3.dot (c - p) (c - p) ≤ (6.957e8 : ℝ) * 6.957e8 := by rw [h]; norm_num [au]
  have e : ∀ i, Light.irradianceAt (sunLight bins).1 (sunExact bins i) c p = bandRadiance 5800 (bins i) * (π * (6.957e8 * 6.957e8 / au ^ 2)) := by
    intro i
    unfold Light.irradianceAt sunLight sunExact
    simp only
    rw [if_neg hau, h]
    ring
  rw [Finset.sum_congr rfl fun i _ => e i, ← Finset.sum_mul]
  have hB := C138_bins bins hb hd 5800 (by norm_num)
  have hp := pi_pos
  have hs := C138_sigma.2
  calc (∑ i, bandRadiance 5800 (bins i)) * (π * (6.957e8 * 6.957e8 / au ^ 2))
      ≤ (sigma * 5800 ^ 4 / π) * (π * (6.957e8 * 6.957e8 / au ^ 2)) := by
        apply mul_le_mul_of_nonneg_right hB; positivity
    _ = sigma * (5800 ^ 4 * (6.957e8 * 6.957e8 / au ^ 2)) := by field_simp
    _ < 1388 := by
        unfold au
        norm_num at hs ⊢
        linarith

/-- Without limits of the band it is the solar constant within two percent: between 1386 and 1388 W/m². -/
theorem C138_solar_constant (c p : V3) (h : V3.dot (c - p) (c - p) = au ^ 2) :
    1386 < Light.irradianceAt (sunLight (n := 0) fun i => i.elim0).1 (∫ l in Ioi (0 : ℝ), planck 5800 l) c p ∧
      Light.irradianceAt (sunLight (n := 0) fun i => i.elim0).1 (∫ l in Ioi (0 : ℝ), planck 5800 l) c p < 1388 := by
  have hau : ¬ V3.dot (c - p) (c - p) ≤ (6.957e8 : ℝ) * 6.957e8 := by rw [h]; norm_num [au]
  have hp := pi_pos
  have e : Light.irradianceAt (sunLight (n := 0) fun i => i.elim0).1 (∫ l in Ioi (0 : ℝ), planck 5800 l) c p =
      sigma * (5800 ^ 4 * (6.957e8 * 6.957e8 / au ^ 2)) := by
    rw [C138_stefan_boltzmann 5800 (by norm_num)]
    unfold Light.irradianceAt sunLight
    simp only
    rw [if_neg hau, h]
    field_simp
  rw [e]
  obtain ⟨hl, hu⟩ := C138_sigma
  unfold au
  norm_num at hl hu ⊢
  constructor <;> linarith

end
end Huira.Phot
