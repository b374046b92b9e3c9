import Verif.Materials.Sphere
/-!
# Solid angle in the coordinates of an image plane

Pure measure theory: the solid angle `sphereAll` in the coordinates `x/z`, `y/z`, and the solid angle of a rectangle.
-/
set_option linter.unusedSimpArgs false
open MeasureTheory Set Real
namespace Huira.Sampling

/-- Slices of space. -/
theorem slices {f : ℝ × ℝ × ℝ → ENNReal} (hf : Measurable f) :
    ∫⁻ x, f x = ∫⁻ z : ℝ, ∫⁻ q : ℝ × ℝ, f (q.1, q.2, z) := by
  rw [Measure.volume_eq_prod, lintegral_prod _ hf.aemeasurable]
  have a : ∀ x : ℝ, ∫⁻ q : ℝ × ℝ, f (x, q) = ∫⁻ z : ℝ, ∫⁻ y : ℝ, f (x, y, z) := by
    intro x
    rw [Measure.volume_eq_prod, lintegral_prod_symm _ (by fun_prop)]
  simp only [a]
  rw [lintegral_lintegral_swap (by
    have : Measurable fun p : (ℝ × ℝ) × ℝ => f (p.1.1, p.2, p.1.2) := by fun_prop
    exact this.lintegral_prod_right'.aemeasurable)]
  refine lintegral_congr fun z => ?_
  rw [Measure.volume_eq_prod, lintegral_prod _ (by fun_prop)]

/-- Stretching the plane. -/
theorem gnomonicMap {h : ℝ × ℝ → ENNReal} (hh : Measurable h) {z : ℝ} (hz : 0 < z) :
    ∫⁻ q, h q = ENNReal.ofReal (z ^ 2) * ∫⁻ q, h (z • q) := by
  rw [← lintegral_map hh (by fun_prop : Measurable fun q : ℝ × ℝ => z • q),
    Measure.map_addHaar_smul _ hz.ne', lintegral_smul_measure, smul_eq_mul, ← mul_assoc]
  simp only [Module.finrank_prod, Module.finrank_self]
  rw [← ENNReal.ofReal_mul (by positivity), abs_of_nonneg (by positivity)]
  have : z ^ 2 * (z ^ (1 + 1))⁻¹ = 1 := by field_simp
  rw [this]; simp

/-- The density of solid angle in the image plane. -/
noncomputable def dens (x y : ℝ) : ℝ := 1 / sqrt (1 + x ^ 2 + y ^ 2) ^ 3

theorem dens_meas : Measurable fun q : ℝ × ℝ => dens q.1 q.2 := by unfold dens; fun_prop

theorem dens_pos (x y : ℝ) : 0 < dens x y := by unfold dens; positivity

/-- **Solid angle in image-plane coordinates.** -/
theorem gnomonic {g : ℝ × ℝ → ENNReal} (hg : Measurable g) :
    ∫⁻ ω, {ω : ℝ × ℝ × ℝ | 0 < ω.2.2}.indicator (fun ω => g (ω.1 / ω.2.2, ω.2.1 / ω.2.2)) ω ∂sphereAll =
      ∫⁻ q : ℝ × ℝ, ENNReal.ofReal (dens q.1 q.2) * g q := by
  have hn := nrm_meas
  set P : Set (ℝ × ℝ × ℝ) := {ω | 0 < ω.2.2} with hP
  have hPm : MeasurableSet P := measurableSet_lt measurable_const (by fun_prop)
  set G : ℝ × ℝ × ℝ → ENNReal := P.indicator (fun ω => g (ω.1 / ω.2.2, ω.2.1 / ω.2.2)) with hG
  have hGm : Measurable G := (hg.comp (by fun_prop)).indicator hPm
  set B : Set (ℝ × ℝ × ℝ) := {y | nrm y < 1} with hB
  have hBm : MeasurableSet B := measurableSet_lt hn measurable_const
  have hfm : Measurable (B.indicator G) := hGm.indicator hBm
  -- in spherical coordinates
  have e1 : ∫⁻ x, B.indicator G x = ENNReal.ofReal (1 / 3) * ∫⁻ ω, G ω ∂sphereAll := by
    rw [polar3 hfm]
    have a : ∀ r ∈ Ioi (0 : ℝ), ENNReal.ofReal (r ^ 2) * ∫⁻ ω, B.indicator G (r • ω) ∂sphereAll =
        (Ioo (0 : ℝ) 1).indicator (fun r => ENNReal.ofReal (r ^ 2)) r * ∫⁻ ω, G ω ∂sphereAll := by
      intro r hr
      have hr0 : 0 < r := hr
      have : ∫⁻ ω, B.indicator G (r • ω) ∂sphereAll = ∫⁻ ω, (if r < 1 then 1 else 0) * G ω ∂sphereAll := by
        refine lintegral_congr_ae ?_
        filter_upwards [sphereAll_unit] with ω hω
        have hg' : G (r • ω) = G ω := by
          simp only [hG, hP]
          by_cases hw : 0 < ω.2.2
          · rw [indicator_of_mem (by simpa using mul_pos hr0 hw), indicator_of_mem (by simpa using hw)]
            simp only [Prod.smul_fst, Prod.smul_snd, smul_eq_mul, mul_div_mul_left _ _ hr0.ne']
          · rw [indicator_of_notMem, indicator_of_notMem (by simpa using hw)]
            simp only [mem_setOf_eq, Prod.smul_snd, smul_eq_mul, not_lt]
            exact mul_nonpos_of_nonneg_of_nonpos hr0.le (not_lt.1 hw)
        by_cases h1 : r < 1
        · rw [indicator_of_mem (by simp [hB, nrm_smul r hr0.le, hω, h1]), if_pos h1, one_mul, hg']
        · rw [indicator_of_notMem (by simpa [hB, nrm_smul r hr0.le, hω] using h1), if_neg h1, zero_mul]
      rw [this]
      by_cases h1 : r < 1
      · simp only [if_pos h1, one_mul]
        rw [indicator_of_mem (show r ∈ Ioo (0 : ℝ) 1 from ⟨hr0, h1⟩)]
      · simp only [if_neg h1, zero_mul, lintegral_zero, mul_zero]
        rw [indicator_of_notMem (fun h : r ∈ Ioo (0 : ℝ) 1 => h1 h.2), zero_mul]
    rw [setLIntegral_congr_fun measurableSet_Ioi a, lintegral_mul_const _ (by
      exact (by fun_prop : Measurable fun r : ℝ => ENNReal.ofReal (r ^ 2)).indicator measurableSet_Ioo)]
    congr 1
    rw [setLIntegral_indicator measurableSet_Ioo, inter_eq_left.2 (fun x hx => hx.1), lint_sq 1 one_pos]
    norm_num
  -- slice by slice
  have e2 : ∫⁻ x, B.indicator G x = ENNReal.ofReal (1 / 3) * ∫⁻ q : ℝ × ℝ, ENNReal.ofReal (dens q.1 q.2) * g q := by
    rw [slices hfm]
    have a : ∀ z : ℝ, ∫⁻ q : ℝ × ℝ, B.indicator G (q.1, q.2, z) =
        ∫⁻ q : ℝ × ℝ, {p : ℝ × ℝ × ℝ | 0 < p.1 ∧ p.1 * sqrt (1 + p.2.1 ^ 2 + p.2.2 ^ 2) < 1}.indicator
          (fun p => ENNReal.ofReal (p.1 ^ 2) * g p.2) (z, q) := by
      intro z
      by_cases hz : 0 < z
      · rw [gnomonicMap (h := fun q => B.indicator G (q.1, q.2, z)) (hfm.comp (by fun_prop)) hz,
          ← lintegral_const_mul' _ _ ENNReal.ofReal_ne_top]
        refine lintegral_congr fun q => ?_
        have hnq : nrm (z * q.1, z * q.2, z) = z * sqrt (1 + q.1 ^ 2 + q.2 ^ 2) := by
          have := nrm_smul z hz.le (q.1, q.2, 1)
          simp only [Prod.smul_mk, smul_eq_mul, mul_one] at this
          rw [this]; unfold nrm; congr 2; ring
        simp only [Function.comp, Prod.smul_fst, Prod.smul_snd, smul_eq_mul]
        by_cases h1 : z * sqrt (1 + q.1 ^ 2 + q.2 ^ 2) < 1
        · rw [indicator_of_mem (by simpa [hB, hnq] using h1), indicator_of_mem (by exact ⟨hz, h1⟩)]
          simp only [hG, hP]
          rw [indicator_of_mem (by simpa using hz)]
          simp only [mul_div_cancel_left₀ _ hz.ne']
        · rw [indicator_of_notMem (by simpa [hB, hnq] using h1), indicator_of_notMem (by rintro ⟨_, h⟩; exact h1 h), mul_zero]
      · have : ∀ q : ℝ × ℝ, B.indicator G (q.1, q.2, z) = 0 := by
          intro q
          have : G (q.1, q.2, z) = 0 := by
            simp only [hG, hP]; exact indicator_of_notMem (by simpa using hz) _
          by_cases h1 : ((q.1, q.2, z) : ℝ × ℝ × ℝ) ∈ B
          · rw [indicator_of_mem h1, this]
          · rw [indicator_of_notMem h1]
        rw [lintegral_congr this, lintegral_zero]
        symm
        rw [lintegral_congr (g := fun _ => 0), lintegral_zero]
        intro q
        exact indicator_of_notMem (by rintro ⟨h, _⟩; exact hz h) _
    simp only [a]
    have hSm : MeasurableSet {p : ℝ × ℝ × ℝ | 0 < p.1 ∧ p.1 * sqrt (1 + p.2.1 ^ 2 + p.2.2 ^ 2) < 1} :=
      (measurableSet_lt measurable_const measurable_fst).inter (measurableSet_lt
        (by fun_prop : Measurable fun p : ℝ × ℝ × ℝ => p.1 * sqrt (1 + p.2.1 ^ 2 + p.2.2 ^ 2)) measurable_const)
    have hFm : Measurable fun p : ℝ × ℝ × ℝ => ENNReal.ofReal (p.1 ^ 2) * g p.2 := by fun_prop
    rw [lintegral_lintegral_swap (f := fun z q => {p : ℝ × ℝ × ℝ | 0 < p.1 ∧
        p.1 * sqrt (1 + p.2.1 ^ 2 + p.2.2 ^ 2) < 1}.indicator (fun p => ENNReal.ofReal (p.1 ^ 2) * g p.2) (z, q))
        (hFm.indicator hSm).aemeasurable,
      ← lintegral_const_mul' _ _ ENNReal.ofReal_ne_top]
    refine lintegral_congr fun q => ?_
    have hs : 0 < sqrt (1 + q.1 ^ 2 + q.2 ^ 2) := sqrt_pos.2 (by positivity)
    have : ∀ z : ℝ, {p : ℝ × ℝ × ℝ | 0 < p.1 ∧ p.1 * sqrt (1 + p.2.1 ^ 2 + p.2.2 ^ 2) < 1}.indicator
          (fun p => ENNReal.ofReal (p.1 ^ 2) * g p.2) (z, q) =
        (Ioo 0 (1 / sqrt (1 + q.1 ^ 2 + q.2 ^ 2))).indicator (fun z => ENNReal.ofReal (z ^ 2)) z * g q := by
      intro z
      by_cases h1 : z ∈ Ioo 0 (1 / sqrt (1 + q.1 ^ 2 + q.2 ^ 2))
      · rw [indicator_of_mem h1, indicator_of_mem (by exact ⟨h1.1, by have := h1.2; rwa [lt_div_iff₀ hs] at this⟩)]
      · rw [indicator_of_notMem h1, indicator_of_notMem (by
          rintro ⟨h2, h3⟩; exact h1 ⟨h2, by rwa [lt_div_iff₀ hs]⟩), zero_mul]
    rw [lintegral_congr this, lintegral_mul_const _ ((by fun_prop : Measurable fun z : ℝ => ENNReal.ofReal (z ^ 2)).indicator
      measurableSet_Ioo), lintegral_indicator measurableSet_Ioo, lint_sq _ (by positivity), ← mul_assoc,
      ← ENNReal.ofReal_mul (by norm_num)]
    congr 2
    unfold dens
    field_simp
  have h3 : ENNReal.ofReal (1 / 3) ≠ 0 := by simp
  have := e1.symm.trans e2
  exact (ENNReal.mul_right_inj h3 ENNReal.ofReal_ne_top).1 this

/-- The solid angle of the directions whose image lies in a set of the plane. -/
theorem solid_plane {R : Set (ℝ × ℝ)} (hR : MeasurableSet R) :
    sphereAll {ω | 0 < ω.2.2 ∧ (ω.1 / ω.2.2, ω.2.1 / ω.2.2) ∈ R} = ∫⁻ q in R, ENNReal.ofReal (dens q.1 q.2) := by
  have hm : Measurable fun ω : ℝ × ℝ × ℝ => (ω.1 / ω.2.2, ω.2.1 / ω.2.2) := by fun_prop
  have hS : MeasurableSet {ω : ℝ × ℝ × ℝ | 0 < ω.2.2 ∧ (ω.1 / ω.2.2, ω.2.1 / ω.2.2) ∈ R} :=
    (measurableSet_lt measurable_const (by fun_prop : Measurable fun ω : ℝ × ℝ × ℝ => ω.2.2)).inter (hm hR)
  have := gnomonic (g := R.indicator fun _ => 1) (measurable_const.indicator hR)
  rw [← lintegral_indicator_one hS]
  refine Eq.trans (lintegral_congr fun ω => ?_) (this.trans ?_)
  · simp only [indicator_apply, mem_setOf_eq]
    by_cases h1 : 0 < ω.2.2 <;> by_cases h2 : (ω.1 / ω.2.2, ω.2.1 / ω.2.2) ∈ R <;> simp [h1, h2]
  · rw [← lintegral_indicator hR]
    refine lintegral_congr fun q => ?_
    by_cases h : q ∈ R
    · rw [indicator_of_mem h, indicator_of_mem h, mul_one]
    · rw [indicator_of_notMem h, indicator_of_notMem h, mul_zero]

/-! ### rectangles -/

/-- Solid angle of the rectangle from the optical axis to `(x, y)`, signed. -/
noncomputable def quad (x y : ℝ) : ℝ := arctan (x * y / sqrt (1 + x ^ 2 + y ^ 2))

theorem hasDeriv_sqrt (a y : ℝ) (ha : 0 < a) : HasDerivAt (fun y => sqrt (a + y ^ 2)) (y / sqrt (a + y ^ 2)) y := by
  have hp : 0 < a + y ^ 2 := by positivity
  have := ((hasDerivAt_pow 2 y).const_add a).sqrt hp.ne'
  convert this using 1
  simp; field_simp

theorem inner_deriv (x y : ℝ) :
    HasDerivAt (fun y => y / ((1 + x ^ 2) * sqrt (1 + x ^ 2 + y ^ 2))) (dens x y) y := by
  have ha : 0 < 1 + x ^ 2 := by positivity
  have hs : 0 < sqrt (1 + x ^ 2 + y ^ 2) := sqrt_pos.2 (by positivity)
  have h2 : sqrt (1 + x ^ 2 + y ^ 2) ^ 2 = 1 + x ^ 2 + y ^ 2 := sq_sqrt (by positivity)
  have := (hasDerivAt_id y).fun_div ((hasDeriv_sqrt (1 + x ^ 2) y ha).const_mul (1 + x ^ 2)) (by positivity)
  refine this.congr_deriv ?_
  unfold dens
  simp only [id]
  field_simp
  rw [h2]; ring

theorem outer_deriv (x y : ℝ) :
    HasDerivAt (fun x => quad x y) (y / ((1 + x ^ 2) * sqrt (1 + x ^ 2 + y ^ 2))) x := by
  have ha : 0 < 1 + y ^ 2 := by positivity
  have hs : 0 < sqrt (1 + y ^ 2 + x ^ 2) := sqrt_pos.2 (by positivity)
  have h2 : sqrt (1 + y ^ 2 + x ^ 2) ^ 2 = 1 + y ^ 2 + x ^ 2 := sq_sqrt (by positivity)
  have e : (fun x => quad x y) = fun x => arctan (x * y / sqrt (1 + y ^ 2 + x ^ 2)) := by
    funext x; unfold quad; congr 3; ring
  rw [e, show 1 + x ^ 2 + y ^ 2 = 1 + y ^ 2 + x ^ 2 by ring]
  have h1 := ((hasDerivAt_id x).mul_const y).fun_div (hasDeriv_sqrt (1 + y ^ 2) x ha) hs.ne'
  refine h1.arctan.congr_deriv ?_
  simp only [id]
  rw [div_pow, h2]
  have hp : 0 < 1 + y ^ 2 + x ^ 2 := by positivity
  have e2 : 1 + (x * y) ^ 2 / (1 + y ^ 2 + x ^ 2) = (1 + x ^ 2) * (1 + y ^ 2) / (1 + y ^ 2 + x ^ 2) := by
    field_simp; ring
  rw [e2]
  have hxx : 0 < 1 + x ^ 2 := by positivity
  field_simp
  rw [h2]; ring

theorem dens_cont : Continuous fun q : ℝ × ℝ => dens q.1 q.2 := by
  unfold dens
  refine continuous_const.div (by fun_prop) fun q => ?_
  have : 0 < sqrt (1 + q.1 ^ 2 + q.2 ^ 2) := sqrt_pos.2 (by positivity)
  positivity

theorem inner_cont (y : ℝ) : Continuous fun x : ℝ => y / ((1 + x ^ 2) * sqrt (1 + x ^ 2 + y ^ 2)) := by
  refine continuous_const.div (by fun_prop) fun x => ?_
  have : 0 < sqrt (1 + x ^ 2 + y ^ 2) := sqrt_pos.2 (by positivity)
  positivity

/-- Twice the fundamental theorem of calculus. -/
theorem dens_rect (x0 x1 y0 y1 : ℝ) :
    ∫ x in x0..x1, ∫ y in y0..y1, dens x y = quad x1 y1 - quad x0 y1 - quad x1 y0 + quad x0 y0 := by
  have h1 : ∀ x : ℝ, ∫ y in y0..y1, dens x y =
      y1 / ((1 + x ^ 2) * sqrt (1 + x ^ 2 + y1 ^ 2)) - y0 / ((1 + x ^ 2) * sqrt (1 + x ^ 2 + y0 ^ 2)) := by
    intro x
    exact intervalIntegral.integral_eq_sub_of_hasDerivAt (fun y _ => inner_deriv x y)
      ((dens_cont.comp (by fun_prop : Continuous fun y : ℝ => (x, y))).intervalIntegrable _ _)
  simp only [h1]
  rw [intervalIntegral.integral_sub ((inner_cont y1).intervalIntegrable _ _) ((inner_cont y0).intervalIntegrable _ _),
    intervalIntegral.integral_eq_sub_of_hasDerivAt (fun x _ => outer_deriv x y1) ((inner_cont y1).intervalIntegrable _ _),
    intervalIntegral.integral_eq_sub_of_hasDerivAt (fun x _ => outer_deriv x y0) ((inner_cont y0).intervalIntegrable _ _)]
  ring

/-- The solid angle of the directions seen through a rectangle of the image plane. -/
theorem solid_rect {x0 x1 y0 y1 : ℝ} (hx : x0 ≤ x1) (hy : y0 ≤ y1) :
    sphereAll {ω | 0 < ω.2.2 ∧ (ω.1 / ω.2.2, ω.2.1 / ω.2.2) ∈ Ico x0 x1 ×ˢ Ico y0 y1} =
      ENNReal.ofReal (quad x1 y1 - quad x0 y1 - quad x1 y0 + quad x0 y0) := by
  rw [solid_plane (measurableSet_Ico.prod measurableSet_Ico), Measure.volume_eq_prod, ← Measure.prod_restrict,
    lintegral_prod _ (by have := dens_meas; fun_prop)]
  have h1 : ∀ x : ℝ, ∫⁻ y in Ico y0 y1, ENNReal.ofReal (dens x y) = ENNReal.ofReal (∫ y in y0..y1, dens x y) := by
    intro x
    rw [setLIntegral_congr Ioo_ae_eq_Ico.symm, Huira.Bsdf.lint (g := fun y => dens x y) hy
      (dens_cont.comp (by fun_prop : Continuous fun y : ℝ => (x, y))).continuousOn (fun y _ => (dens_pos x y).le)]
  simp only [h1]
  rw [setLIntegral_congr Ioo_ae_eq_Ico.symm, Huira.Bsdf.lint hx, dens_rect]
  · have : Continuous fun x : ℝ => ∫ y in y0..y1, dens x y :=
      intervalIntegral.continuous_parametric_intervalIntegral_of_continuous' (f := dens) dens_cont y0 y1
    exact this.continuousOn
  · intro x _
    exact intervalIntegral.integral_nonneg hy fun y _ => (dens_pos x y).le

end Huira.Sampling
