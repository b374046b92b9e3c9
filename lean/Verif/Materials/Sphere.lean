import Verif.Materials.Energy
import Mathlib.Analysis.SpecialFunctions.PolarCoord
import Mathlib.MeasureTheory.Measure.Lebesgue.EqHaar

/-!
# Solid angle on the whole sphere: invariance under rotations, change of variables under stretching and reflection

Pure measure theory on top of Mathlib, used for the visible-normal and Cook–Torrance sampling theorems.
-/

set_option linter.unusedSimpArgs false
set_option linter.unusedVariables false

open MeasureTheory Set Real

namespace Huira.Sampling

/-- Solid angle on the whole unit sphere: `dω = dz dφ` in height and azimuth (specification). -/
noncomputable def sphereAll : Measure (ℝ × ℝ × ℝ) :=
  Measure.map sph ((volume.restrict (Ioo (-1 : ℝ) 1)).prod (volume.restrict (Ioo (0 : ℝ) (2 * π))))

theorem sph_meas : Measurable sph := by unfold sph; fun_prop

theorem sphereAll_lint {F : ℝ × ℝ × ℝ → ENNReal} (hF : Measurable F) :
    ∫⁻ ω, F ω ∂sphereAll = ∫⁻ z in Ioo (-1 : ℝ) 1, ∫⁻ φ in Ioo 0 (2 * π), F (sph (z, φ)) := by
  unfold sphereAll
  rw [lintegral_map hF sph_meas]
  exact lintegral_prod (fun a => F (sph a)) (hF.comp sph_meas).aemeasurable

/-- The upper hemisphere's solid angle is the restriction of the sphere's. -/
theorem solid_restrict : solidAngle = sphereAll.restrict {ω | 0 < ω.2.2} := by
  have hm : MeasurableSet {ω : ℝ × ℝ × ℝ | 0 < ω.2.2} :=
    measurableSet_lt measurable_const (by fun_prop : Measurable fun ω : ℝ × ℝ × ℝ => ω.2.2)
  unfold solidAngle sphereAll
  rw [Measure.restrict_map sph_meas hm]
  congr 1
  rw [Measure.prod_restrict, Measure.prod_restrict, Measure.restrict_restrict (sph_meas hm)]
  congr 1
  ext ⟨z, φ⟩
  simp only [mem_prod, mem_Ioo, mem_inter_iff, mem_preimage, mem_setOf_eq, sph]
  constructor
  · rintro ⟨⟨h1, h2⟩, h3⟩; exact ⟨h1, ⟨by linarith, h2⟩, h3⟩
  · rintro ⟨h1, ⟨h2, h3⟩, h4⟩; exact ⟨⟨h1, h3⟩, h4⟩

theorem periodic_lint (k : ℝ → ENNReal) (hk : ∀ x, k (x + 2 * π) = k x) :
    ∫⁻ φ in Ioo (-π) π, k φ = ∫⁻ φ in Ioo 0 (2 * π), k φ := by
  have hp : (0 : ℝ) < 2 * π := by have := pi_pos; positivity
  have h := (isAddFundamentalDomain_Ioc hp (-π)).setLIntegral_eq (isAddFundamentalDomain_Ioc hp 0) k (by
    rintro ⟨g, hg⟩ x
    obtain ⟨m, rfl⟩ := AddSubgroup.mem_zmultiples_iff.1 hg
    have hper : Function.Periodic k (2 * π) := hk
    have := hper.zsmul m x
    rw [← this]
    congr 1
    show (m • (2 * π)) + x = _
    ring)
  rw [setLIntegral_congr Ioo_ae_eq_Ioc, setLIntegral_congr (Ioo_ae_eq_Ioc (a := (0 : ℝ)))]
  rw [show -π + 2 * π = π by ring, zero_add] at h
  exact h

/-- Polar coordinates in the plane. -/
theorem polar2 {g : ℝ × ℝ → ENNReal} (hg : Measurable g) :
    ∫⁻ p, g p = ∫⁻ r in Ioi (0 : ℝ), ∫⁻ φ in Ioo (-π) π, ENNReal.ofReal r * g (r * cos φ, r * sin φ) := by
  rw [← lintegral_comp_polarCoord_symm g, polarCoord_target, Measure.volume_eq_prod, ← Measure.prod_restrict]
  refine (lintegral_prod _ ?_).trans ?_
  · have : Measurable fun p : ℝ × ℝ => g (polarCoord.symm p) := hg.comp continuous_polarCoord_symm.measurable
    simp only [smul_eq_mul]
    fun_prop
  · rfl

theorem polar2' {g : ℝ × ℝ → ENNReal} (hg : Measurable g) :
    ∫⁻ p, g p = ∫⁻ r in Ioi (0 : ℝ), ∫⁻ φ in Ioo 0 (2 * π), ENNReal.ofReal r * g (r * cos φ, r * sin φ) := by
  rw [polar2 hg]
  refine lintegral_congr fun r => ?_
  exact periodic_lint _ fun x => by rw [cos_add_two_pi, sin_add_two_pi]

theorem cos_sub_lint (G : ℝ × ℝ → ENNReal) :
    ∫⁻ θ in Ioo 0 π, ENNReal.ofReal (sin θ) * G (cos θ, sin θ) = ∫⁻ z in Ioo (-1 : ℝ) 1, G (z, sqrt (1 - z ^ 2)) := by
  have himg : cos '' Ioo 0 π = Ioo (-1) 1 := by
    ext z
    constructor
    · rintro ⟨θ, h, rfl⟩
      have h1 := strictAntiOn_cos (left_mem_Icc.2 pi_pos.le) ⟨h.1.le, h.2.le⟩ h.1
      have h2 := strictAntiOn_cos ⟨h.1.le, h.2.le⟩ (right_mem_Icc.2 pi_pos.le) h.2
      rw [cos_zero] at h1; rw [cos_pi] at h2
      exact ⟨h2, h1⟩
    · intro h
      refine ⟨arccos z, ⟨arccos_pos.2 h.2, ?_⟩, cos_arccos h.1.le h.2.le⟩
      rw [← arccos_neg_one]
      exact arccos_lt_arccos le_rfl h.1 h.2.le
  have e := lintegral_image_eq_lintegral_abs_deriv_mul (s := Ioo 0 π) measurableSet_Ioo
    (fun x _ => (hasDerivAt_cos x).hasDerivWithinAt) (injOn_cos.mono Ioo_subset_Icc_self) fun z => G (z, sqrt (1 - z ^ 2))
  rw [himg] at e
  rw [e]
  refine setLIntegral_congr_fun measurableSet_Ioo fun θ h => ?_
  have hs : 0 ≤ sin θ := sin_nonneg_of_mem_Icc ⟨h.1.le, h.2.le⟩
  beta_reduce
  rw [abs_neg, abs_of_nonneg hs, ← sin_sq, sqrt_sq hs]

/-- Spherical coordinates in space. -/
theorem polar3 {f : ℝ × ℝ × ℝ → ENNReal} (hf : Measurable f) :
    ∫⁻ x, f x = ∫⁻ r in Ioi (0 : ℝ), ENNReal.ofReal (r ^ 2) * ∫⁻ ω, f (r • ω) ∂sphereAll := by
  have e1 : ∫⁻ x, f x = ∫⁻ z : ℝ, ∫⁻ q : ℝ × ℝ, f (q.1, q.2, z) := by
    rw [Measure.volume_eq_prod, lintegral_prod _ hf.aemeasurable]
    have a : ∀ x : ℝ, ∫⁻ q : ℝ × ℝ, f (x, q) = ∫⁻ z : ℝ, ∫⁻ y : ℝ, f (x, y, z) := by
      intro x
      rw [Measure.volume_eq_prod, lintegral_prod_symm _ (by fun_prop)]
    simp only [a]
    rw [lintegral_lintegral_swap (by
      have : Measurable fun p : (ℝ × ℝ) × ℝ => f (p.1.1, p.2, p.1.2) := by fun_prop
      exact this.lintegral_prod_right'.aemeasurable)]
    refine lintegral_congr fun z => ?_
    rw [Measure.volume_eq_prod, lintegral_prod _ (by fun_prop)]
  have e2 : ∀ z : ℝ, ∫⁻ q : ℝ × ℝ, f (q.1, q.2, z) =
      ∫⁻ ρ in Ioi (0 : ℝ), ∫⁻ φ in Ioo 0 (2 * π), ENNReal.ofReal ρ * f (ρ * cos φ, ρ * sin φ, z) := by
    intro z
    exact polar2' (g := fun q => f (q.1, q.2, z)) (by fun_prop)
  rw [e1]
  simp only [e2]
  set K : ℝ × ℝ → ENNReal := fun p => ∫⁻ φ in Ioo 0 (2 * π), ENNReal.ofReal p.2 * f (p.2 * cos φ, p.2 * sin φ, p.1) with hK
  have hKm : Measurable K := by
    have : Measurable fun p : (ℝ × ℝ) × ℝ => ENNReal.ofReal p.1.2 * f (p.1.2 * cos p.2, p.1.2 * sin p.2, p.1.1) := by fun_prop
    exact this.lintegral_prod_right'
  have hind : MeasurableSet {p : ℝ × ℝ | 0 < p.2} := measurableSet_lt measurable_const measurable_snd
  have e3 : ∫⁻ z : ℝ, ∫⁻ ρ in Ioi (0 : ℝ), K (z, ρ) = ∫⁻ p : ℝ × ℝ, {p : ℝ × ℝ | 0 < p.2}.indicator K p := by
    rw [Measure.volume_eq_prod, lintegral_prod _ (hKm.indicator hind).aemeasurable]
    refine lintegral_congr fun z => ?_
    rw [← lintegral_indicator measurableSet_Ioi]
    rfl
  change ∫⁻ z : ℝ, ∫⁻ ρ in Ioi (0 : ℝ), K (z, ρ) = _
  rw [e3, polar2 (hKm.indicator hind)]
  refine setLIntegral_congr_fun measurableSet_Ioi fun r hr => ?_
  have hr0 : 0 < r := hr
  have e4 : ∫⁻ φ in Ioo (-π) π, ENNReal.ofReal r * {p : ℝ × ℝ | 0 < p.2}.indicator K (r * cos φ, r * sin φ) =
      ∫⁻ φ in Ioo 0 π, ENNReal.ofReal r * K (r * cos φ, r * sin φ) := by
    rw [← lintegral_indicator measurableSet_Ioo, ← lintegral_indicator measurableSet_Ioo]
    refine lintegral_congr fun θ => ?_
    by_cases h : θ ∈ Ioo 0 π
    · rw [indicator_of_mem (show θ ∈ Ioo (-π) π from ⟨by linarith [h.1, pi_pos], h.2⟩), indicator_of_mem h, indicator_of_mem]
      exact mul_pos hr0 (sin_pos_of_mem_Ioo h)
    · rw [indicator_of_notMem h]
      by_cases h' : θ ∈ Ioo (-π) π
      · rw [indicator_of_mem h', indicator_of_notMem, mul_zero]
        have : θ ≤ 0 := by by_contra h0; exact h ⟨not_le.1 h0, h'.2⟩
        have := sin_nonpos_of_nonpos_of_neg_pi_le this h'.1.le
        simp only [mem_setOf_eq, not_lt]
        exact mul_nonpos_of_nonneg_of_nonpos hr0.le this
      · rw [indicator_of_notMem h']
  beta_reduce
  rw [e4]
  have e5 := cos_sub_lint fun p => ENNReal.ofReal (r ^ 2) * ∫⁻ φ in Ioo 0 (2 * π), f (r * (p.2 * cos φ), r * (p.2 * sin φ), r * p.1)
  have hfr : Measurable fun ω : ℝ × ℝ × ℝ => f (r • ω) := hf.comp (by fun_prop)
  rw [sphereAll_lint hfr, ← lintegral_const_mul' _ _ ENNReal.ofReal_ne_top]
  refine Eq.trans ?_ (e5.trans ?_)
  · refine setLIntegral_congr_fun measurableSet_Ioo fun θ h => ?_
    have hs : 0 ≤ sin θ := sin_nonneg_of_mem_Icc ⟨h.1.le, h.2.le⟩
    simp only [hK]
    rw [lintegral_const_mul' _ _ ENNReal.ofReal_ne_top, ← mul_assoc, ← ENNReal.ofReal_mul hr0.le]
    rw [← mul_assoc (ENNReal.ofReal (sin θ)), ← ENNReal.ofReal_mul hs]
    congr 1
    · congr 1; ring
    · refine lintegral_congr fun φ => ?_
      congr 1
      refine Prod.ext (by simp; ring) (Prod.ext (by simp; ring) rfl)
  · refine lintegral_congr fun z => ?_
    rfl

/-! ## Linear maps -/

/-- Length of a vector. -/
noncomputable def nrm (x : ℝ × ℝ × ℝ) : ℝ := sqrt (x.1 ^ 2 + x.2.1 ^ 2 + x.2.2 ^ 2)

theorem nrm_nonneg (x : ℝ × ℝ × ℝ) : 0 ≤ nrm x := sqrt_nonneg _

theorem nrm_meas : Measurable nrm := by unfold nrm; fun_prop

theorem nrm_smul (r : ℝ) (hr : 0 ≤ r) (x : ℝ × ℝ × ℝ) : nrm (r • x) = r * nrm x := by
  unfold nrm
  rw [← sqrt_sq hr, ← sqrt_mul (sq_nonneg r), sqrt_sq hr]
  congr 1
  simp only [Prod.smul_fst, Prod.smul_snd, smul_eq_mul]; ring

theorem nrm_sph (z φ : ℝ) (h : z ∈ Icc (-1 : ℝ) 1) : nrm (sph (z, φ)) = 1 := by
  have hs : sqrt (1 - z ^ 2) ^ 2 = 1 - z ^ 2 := sq_sqrt (by nlinarith [h.1, h.2])
  unfold nrm sph
  rw [sqrt_eq_one]
  have := sin_sq_add_cos_sq φ
  simp only [mul_pow]
  linear_combination (cos φ ^ 2 + sin φ ^ 2) * hs + (1 - z ^ 2) * this

theorem nrm_eq_zero {x : ℝ × ℝ × ℝ} (h : nrm x = 0) : x = 0 := by
  unfold nrm at h
  rw [sqrt_eq_zero (by positivity)] at h
  refine Prod.ext ?_ (Prod.ext ?_ ?_)
  · show x.1 = 0; nlinarith [sq_nonneg x.1, sq_nonneg x.2.1, sq_nonneg x.2.2]
  · show x.2.1 = 0; nlinarith [sq_nonneg x.1, sq_nonneg x.2.1, sq_nonneg x.2.2]
  · show x.2.2 = 0; nlinarith [sq_nonneg x.1, sq_nonneg x.2.1, sq_nonneg x.2.2]

theorem sphereAll_ae {P : ℝ × ℝ × ℝ → Prop} (hP : MeasurableSet {ω | P ω})
    (h : ∀ z ∈ Ioo (-1 : ℝ) 1, ∀ φ ∈ Ioo 0 (2 * π), P (sph (z, φ))) : ∀ᵐ ω ∂sphereAll, P ω := by
  unfold sphereAll
  rw [ae_map_iff sph_meas.aemeasurable hP, Measure.prod_restrict]
  filter_upwards [ae_restrict_mem (measurableSet_Ioo.prod measurableSet_Ioo)] with u hu
  exact h u.1 hu.1 u.2 hu.2

theorem sphereAll_unit : ∀ᵐ ω ∂sphereAll, nrm ω = 1 :=
  sphereAll_ae (nrm_meas (measurableSet_singleton 1)) fun z hz φ _ => nrm_sph z φ ⟨hz.1.le, hz.2.le⟩

theorem lint_sq (b : ℝ) (hb : 0 < b) : ∫⁻ r in Ioo 0 b, ENNReal.ofReal (r ^ 2) = ENNReal.ofReal (b ^ 3 / 3) := by
  rw [Huira.Bsdf.lint hb.le (by fun_prop) (fun _ _ => by positivity), integral_pow]
  norm_num

instance : SFinite sphereAll := by unfold sphereAll; infer_instance

/-- The linear map with the given rows. -/
def rows (a b c : ℝ × ℝ × ℝ) : (ℝ × ℝ × ℝ) →ₗ[ℝ] (ℝ × ℝ × ℝ) where
  toFun x := (a.1 * x.1 + a.2.1 * x.2.1 + a.2.2 * x.2.2, b.1 * x.1 + b.2.1 * x.2.1 + b.2.2 * x.2.2,
    c.1 * x.1 + c.2.1 * x.2.1 + c.2.2 * x.2.2)
  map_add' x y := by simp only [Prod.fst_add, Prod.snd_add]; refine Prod.ext (by simp; ring) (Prod.ext (by simp; ring) (by simp; ring))
  map_smul' r x := by
    simp only [Prod.smul_fst, Prod.smul_snd, smul_eq_mul, RingHom.id_apply]
    refine Prod.ext (by simp; ring) (Prod.ext (by simp; ring) (by simp; ring))

/-- Triples as functions. -/
def tri : (ℝ × ℝ × ℝ) ≃ₗ[ℝ] (Fin 3 → ℝ) where
  toFun x := ![x.1, x.2.1, x.2.2]
  invFun f := (f 0, f 1, f 2)
  map_add' x y := by funext i; fin_cases i <;> rfl
  map_smul' r x := by funext i; fin_cases i <;> rfl
  left_inv x := rfl
  right_inv f := by funext i; fin_cases i <;> rfl

theorem rows_det (a b c : ℝ × ℝ × ℝ) : LinearMap.det (rows a b c) =
    a.1 * (b.2.1 * c.2.2 - b.2.2 * c.2.1) - a.2.1 * (b.1 * c.2.2 - b.2.2 * c.1) + a.2.2 * (b.1 * c.2.1 - b.2.1 * c.1) := by
  rw [← LinearMap.det_conj (rows a b c) tri]
  have : (tri : (ℝ × ℝ × ℝ) →ₗ[ℝ] (Fin 3 → ℝ)) ∘ₗ rows a b c ∘ₗ (tri.symm : (Fin 3 → ℝ) →ₗ[ℝ] (ℝ × ℝ × ℝ)) =
      Matrix.toLin' !![a.1, a.2.1, a.2.2; b.1, b.2.1, b.2.2; c.1, c.2.1, c.2.2] := by
    refine LinearMap.ext fun x => ?_
    funext i
    have hs : tri.symm x = (x 0, x 1, x 2) := rfl
    have ht : ∀ y, tri y = ![y.1, y.2.1, y.2.2] := fun _ => rfl
    simp only [LinearMap.comp_apply, LinearEquiv.coe_coe, hs, ht]
    fin_cases i <;> simp [rows, Matrix.toLin'_apply, Matrix.mulVec, dotProduct, Fin.sum_univ_three]
  rw [this, LinearMap.det_toLin', Matrix.det_fin_three]
  simp
  ring

instance : Measure.IsAddHaarMeasure (volume : Measure (ℝ × ℝ × ℝ)) :=
  Measure.prod.instIsAddHaarMeasure _ _

theorem lin_lint (L : (ℝ × ℝ × ℝ) →ₗ[ℝ] (ℝ × ℝ × ℝ)) (hL : Measurable L) (hd : LinearMap.det L ≠ 0) {f : ℝ × ℝ × ℝ → ENNReal}
    (hf : Measurable f) : ∫⁻ x, f (L x) = ENNReal.ofReal |(LinearMap.det L)⁻¹| * ∫⁻ y, f y := by
  rw [← lintegral_map hf hL, Measure.map_linearMap_addHaar_eq_smul_addHaar _ hd, lintegral_smul_measure, smul_eq_mul]

theorem rows_meas (a b c : ℝ × ℝ × ℝ) : Measurable (rows a b c) := by
  change Measurable fun x : ℝ × ℝ × ℝ => (_, _, _)
  fun_prop

/-- The direction of a vector. -/
noncomputable def dirn (x : ℝ × ℝ × ℝ) : ℝ × ℝ × ℝ := (nrm x)⁻¹ • x

theorem dirn_meas : Measurable dirn := by
  have := nrm_meas
  unfold dirn; fun_prop

theorem dirn_smul (r : ℝ) (hr : 0 < r) (x : ℝ × ℝ × ℝ) : dirn (r • x) = dirn x := by
  unfold dirn
  rw [nrm_smul r hr.le, smul_smul]
  congr 1
  rcases eq_or_ne (nrm x) 0 with h | h
  · rw [h]; simp
  · field_simp

theorem dirn_unit {x : ℝ × ℝ × ℝ} (h : nrm x = 1) : dirn x = x := by unfold dirn; rw [h]; simp

/-- **Change of variables** on the sphere under an invertible linear map. -/
theorem lin_sphere (L L' : (ℝ × ℝ × ℝ) →ₗ[ℝ] (ℝ × ℝ × ℝ)) (hL : Measurable L) (hL' : Measurable L') (hd : LinearMap.det L ≠ 0)
    (h1 : ∀ x, L' (L x) = x) (h2 : ∀ x, L (L' x) = x) {g w : ℝ × ℝ × ℝ → ENNReal} (hg : Measurable g) (hw : Measurable w) :
    ∫⁻ ω, w ω * g (dirn (L ω)) ∂sphereAll =
      ∫⁻ h, ENNReal.ofReal (|(LinearMap.det L)⁻¹| / nrm (L' h) ^ 3) * (w (dirn (L' h)) * g h) ∂sphereAll := by
  have hn := nrm_meas
  have hdm := dirn_meas
  set G : ℝ × ℝ × ℝ → ENNReal := fun ω => w (dirn (L' ω)) * g (dirn ω) with hG
  have hGm : Measurable G := by fun_prop
  set B : ℝ × ℝ × ℝ → ENNReal := fun y => {y | nrm (L' y) < 1}.indicator G y with hB
  have hS : MeasurableSet {y | nrm (L' y) < 1} := measurableSet_lt (hn.comp hL') measurable_const
  have hBm : Measurable B := hGm.indicator hS
  have key := lin_lint L hL hd hBm
  have nz : ∀ h, nrm h = 1 → 0 < nrm (L' h) := by
    intro h hh
    rcases eq_or_lt_of_le (nrm_nonneg (L' h)) with e | e
    · have := nrm_eq_zero e.symm
      have h3 := h2 h
      rw [this, map_zero] at h3
      rw [← h3] at hh
      norm_num [nrm] at hh
    · exact e
  -- the right side
  have R : ∫⁻ y, B y = ∫⁻ h, ENNReal.ofReal (1 / (3 * nrm (L' h) ^ 3)) * (w (dirn (L' h)) * g h) ∂sphereAll := by
    rw [polar3 hBm]
    have : ∀ r ∈ Ioi (0 : ℝ), ENNReal.ofReal (r ^ 2) * ∫⁻ ω, B (r • ω) ∂sphereAll =
        ∫⁻ ω, ENNReal.ofReal (r ^ 2) * {y | nrm (L' y) < 1}.indicator (fun _ => (1 : ENNReal)) (r • ω) * G ω ∂sphereAll := by
      intro r hr
      have hr0 : 0 < r := hr
      rw [← lintegral_const_mul' _ _ ENNReal.ofReal_ne_top]
      refine lintegral_congr fun ω => ?_
      rw [mul_assoc]
      congr 1
      simp only [hB, hG]
      by_cases hm : (r • ω) ∈ {y | nrm (L' y) < 1}
      · rw [indicator_of_mem hm, indicator_of_mem hm, one_mul, map_smul, dirn_smul r hr0, dirn_smul r hr0]
      · rw [indicator_of_notMem hm, indicator_of_notMem hm, zero_mul]
    rw [setLIntegral_congr_fun measurableSet_Ioi this, lintegral_lintegral_swap]
    · refine lintegral_congr_ae ?_
      filter_upwards [sphereAll_unit] with ω hω
      have n0 := nz ω hω
      rw [lintegral_mul_const _ (by
        have : Measurable fun r : ℝ => {y | nrm (L' y) < 1}.indicator (fun _ => (1 : ENNReal)) (r • ω) :=
          (measurable_const.indicator hS).comp (by fun_prop)
        fun_prop)]
      congr 1
      · have : ∀ r ∈ Ioi (0 : ℝ), ENNReal.ofReal (r ^ 2) * {y | nrm (L' y) < 1}.indicator (fun _ => (1 : ENNReal)) (r • ω) =
            (Ioo 0 (1 / nrm (L' ω))).indicator (fun r => ENNReal.ofReal (r ^ 2)) r := by
          intro r hr
          have hr0 : 0 < r := hr
          have iff : (r • ω) ∈ {y | nrm (L' y) < 1} ↔ r ∈ Ioo 0 (1 / nrm (L' ω)) := by
            simp only [mem_setOf_eq, map_smul, nrm_smul r hr0.le, mem_Ioo, hr0, true_and, lt_div_iff₀ n0]
          by_cases hm : r ∈ Ioo 0 (1 / nrm (L' ω))
          · rw [indicator_of_mem hm, indicator_of_mem (iff.2 hm), mul_one]
          · rw [indicator_of_notMem hm, indicator_of_notMem (fun h => hm (iff.1 h)), mul_zero]
        rw [setLIntegral_congr_fun measurableSet_Ioi this, lintegral_indicator measurableSet_Ioo,
          Measure.restrict_restrict measurableSet_Ioo, inter_eq_left.2 (fun x hx => hx.1), lint_sq _ (by positivity)]
        congr 1
        field_simp
      · simp only [hG]; rw [dirn_unit hω]
    · have : Measurable fun p : ℝ × ℝ × ℝ × ℝ => {y | nrm (L' y) < 1}.indicator (fun _ => (1 : ENNReal)) (p.1 • p.2) :=
        (measurable_const.indicator hS).comp (by fun_prop)
      have : Measurable fun p : ℝ × ℝ × ℝ × ℝ => ENNReal.ofReal (p.1 ^ 2) *
          {y | nrm (L' y) < 1}.indicator (fun _ => (1 : ENNReal)) (p.1 • p.2) * G p.2 := by fun_prop
      exact this.aemeasurable
  -- the left side
  have Lh : ∫⁻ x, B (L x) = ENNReal.ofReal (1 / 3) * ∫⁻ ω, w ω * g (dirn (L ω)) ∂sphereAll := by
    rw [polar3 (f := fun x => B (L x)) (hBm.comp hL)]
    have : ∀ r ∈ Ioi (0 : ℝ), ENNReal.ofReal (r ^ 2) * ∫⁻ ω, B (L (r • ω)) ∂sphereAll =
        (Ioo (0 : ℝ) 1).indicator (fun r => ENNReal.ofReal (r ^ 2)) r * ∫⁻ ω, w ω * g (dirn (L ω)) ∂sphereAll := by
      intro r hr
      have hr0 : 0 < r := hr
      by_cases hm : r ∈ Ioo (0 : ℝ) 1
      · rw [indicator_of_mem hm]
        congr 1
        refine lintegral_congr_ae ?_
        filter_upwards [sphereAll_unit] with ω hω
        simp only [hB, hG]
        rw [indicator_of_mem, h1, dirn_smul r hr0, dirn_unit hω, map_smul, dirn_smul r hr0]
        simp only [mem_setOf_eq]
        rw [h1, nrm_smul r hr0.le, hω, mul_one]; exact hm.2
      · rw [indicator_of_notMem hm, zero_mul]
        have : ∫⁻ ω, B (L (r • ω)) ∂sphereAll = ∫⁻ ω, 0 ∂sphereAll := by
          refine lintegral_congr_ae ?_
          filter_upwards [sphereAll_unit] with ω hω
          simp only [hB]
          rw [indicator_of_notMem]
          simp only [mem_setOf_eq]
          rw [h1, nrm_smul r hr0.le, hω, mul_one, not_lt]
          by_contra hc
          exact hm ⟨hr0, not_le.1 hc⟩
        rw [this, lintegral_zero, mul_zero]
    rw [setLIntegral_congr_fun measurableSet_Ioi this, lintegral_mul_const _ (by
      exact Measurable.indicator (by fun_prop) measurableSet_Ioo), lintegral_indicator measurableSet_Ioo,
      Measure.restrict_restrict measurableSet_Ioo, inter_eq_left.2 (fun x hx => hx.1), lint_sq _ one_pos]
    norm_num
  rw [R, Lh] at key
  have h3 : ENNReal.ofReal 3 * ENNReal.ofReal (1 / 3) = 1 := by rw [← ENNReal.ofReal_mul (by norm_num)]; norm_num
  calc _ = ENNReal.ofReal 3 * (ENNReal.ofReal (1 / 3) * ∫⁻ ω, w ω * g (dirn (L ω)) ∂sphereAll) := by
        rw [← mul_assoc, h3, one_mul]
    _ = _ := by
        rw [key, ← lintegral_const_mul' _ _ ENNReal.ofReal_ne_top, ← lintegral_const_mul' _ _ ENNReal.ofReal_ne_top]
        refine lintegral_congr fun h => ?_
        rw [← mul_assoc, ← mul_assoc, ← ENNReal.ofReal_mul (by norm_num), ← ENNReal.ofReal_mul (by positivity)]
        congr 2
        field_simp

end Huira.Sampling
