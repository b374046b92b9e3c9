import Verif.Materials.FrameProps
import Mathlib.MeasureTheory.Function.JacobianOneDim
import Mathlib.MeasureTheory.Measure.Prod
import Mathlib.MeasureTheory.Measure.WithDensity
import Mathlib.MeasureTheory.Integral.Lebesgue.Map
import Mathlib.Analysis.SpecialFunctions.Pow.Deriv
import Mathlib.Analysis.SpecialFunctions.Sqrt

/-!
# Hemisphere sampling matches its density (C59)
-/

set_option linter.unusedSimpArgs false
set_option linter.unusedVariables false

open MeasureTheory Set Real

namespace Huira.Sampling

/-- If `g` maps the unit interval bijectively to `J` and `|g'| · p(g) = 1`, then `g` of a uniform number has density `p`
on `J`. -/
theorem density_1d (g g' p : ℝ → ℝ) (J : Set ℝ) (hg : Measurable g) (hinj : InjOn g (Ioo 0 1))
    (himg : g '' Ioo 0 1 = J) (hd : ∀ x ∈ Ioo (0 : ℝ) 1, HasDerivWithinAt g (g' x) (Ioo 0 1) x)
    (h : ∀ x ∈ Ioo (0 : ℝ) 1, |g' x| * p (g x) = 1) :
    Measure.map g (volume.restrict (Ioo 0 1)) =
      (volume.restrict J).withDensity fun z => ENNReal.ofReal (p z) := by
  ext A hA
  rw [Measure.map_apply hg hA, withDensity_apply _ hA, ← lintegral_indicator hA]
  have e := lintegral_image_eq_lintegral_abs_deriv_mul measurableSet_Ioo hd hinj
    (A.indicator fun z => ENNReal.ofReal (p z))
  rw [himg] at e
  rw [e, ← lintegral_indicator_one (hg hA)]
  refine setLIntegral_congr_fun measurableSet_Ioo fun x hx => ?_
  by_cases hxA : g x ∈ A
  · rw [indicator_of_mem (show x ∈ g ⁻¹' A from hxA), indicator_of_mem hxA, ← ENNReal.ofReal_mul (abs_nonneg _), h x hx]
    simp
  · rw [indicator_of_notMem (show x ∉ g ⁻¹' A from hxA), indicator_of_notMem hxA, mul_zero]

/-- The azimuth `2π u` of a uniform number is uniform on the circle. -/
theorem azimuth : Measure.map (fun u : ℝ => 2 * π * u) (volume.restrict (Ioo 0 1)) =
    (volume.restrict (Ioo (0 : ℝ) (2 * π))).withDensity fun _ => ENNReal.ofReal (1 / (2 * π)) := by
  have hpi := pi_pos
  refine density_1d _ (fun _ => 2 * π) (fun _ => 1 / (2 * π)) _ (by fun_prop) ?_ ?_ ?_ ?_
  · intro a _ b _ hab
    exact mul_left_cancel₀ (by positivity) hab
  · ext y
    constructor
    · rintro ⟨x, ⟨h0, h1⟩, rfl⟩
      exact ⟨by positivity, by nlinarith⟩
    · rintro ⟨h0, h1⟩
      refine ⟨y / (2 * π), ⟨by positivity, by rw [div_lt_one (by positivity)]; exact h1⟩, ?_⟩
      field_simp
  · intro x _
    simpa using ((hasDerivAt_id x).const_mul (2 * π)).hasDerivWithinAt
  · intro x _
    rw [abs_of_pos (by positivity)]; field_simp

theorem map_withDensity {α β : Type*} [MeasurableSpace α] [MeasurableSpace β] (m : Measure α) (f : α → β) (hf : Measurable f)
    (q : β → ENNReal) (hq : Measurable q) :
    Measure.map f (m.withDensity fun x => q (f x)) = (Measure.map f m).withDensity q := by
  ext A hA
  rw [Measure.map_apply hf hA, withDensity_apply _ (hf hA), withDensity_apply _ hA, setLIntegral_map hA hq hf]

/-- The direction with height `z` and azimuth `φ`. -/
noncomputable def sph (q : ℝ × ℝ) : ℝ × ℝ × ℝ := (sqrt (1 - q.1 ^ 2) * cos q.2, sqrt (1 - q.1 ^ 2) * sin q.2, q.1)

/-- Solid angle on the upper unit hemisphere: `dω = dz dφ` in height and azimuth. -/
noncomputable def solidAngle : Measure (ℝ × ℝ × ℝ) :=
  Measure.map sph ((volume.restrict (Ioo (0 : ℝ) 1)).prod (volume.restrict (Ioo (0 : ℝ) (2 * π))))

/-- Two independent uniform random numbers. -/
noncomputable def unif : Measure (ℝ × ℝ) := (volume.restrict (Ioo (0 : ℝ) 1)).prod (volume.restrict (Ioo (0 : ℝ) 1))

/-- A vector as a point of the measurable space. -/
def pt (v : V3) : ℝ × ℝ × ℝ := (v.x, v.y, v.z)

/-- A sampling routine whose direction has height `g u1` and azimuth `2π u2` has, with respect to solid angle, any density that
is `p z / 2π` at height `z`. -/
theorem density_2d (s : ℝ → ℝ → V3) (g p : ℝ → ℝ) (hg : Measurable g) (hp : Measurable p)
    (hs : ∀ u1 ∈ Ioo (0 : ℝ) 1, ∀ u2, pt (s u1 u2) = sph (g u1, 2 * π * u2))
    (h1 : Measure.map g (volume.restrict (Ioo 0 1)) =
      (volume.restrict (Ioo (0 : ℝ) 1)).withDensity fun z => ENNReal.ofReal (p z))
    (hp0 : ∀ z ∈ Ioo (0 : ℝ) 1, 0 ≤ p z)
    (q : ℝ × ℝ × ℝ → ℝ) (hq : Measurable q) (hqp : ∀ z φ, q (sph (z, φ)) = p z / (2 * π)) :
    Measure.map (fun u : ℝ × ℝ => pt (s u.1 u.2)) unif = solidAngle.withDensity fun ω => ENNReal.ofReal (q ω) := by
  have hsph : Measurable sph := by unfold sph; fun_prop
  have hpi := pi_pos
  have e1 : Measure.map (fun u : ℝ × ℝ => pt (s u.1 u.2)) unif =
      Measure.map (fun u : ℝ × ℝ => sph (Prod.map g (fun u => 2 * π * u) u)) unif := by
    refine Measure.map_congr ?_
    unfold unif
    rw [Measure.prod_restrict]
    filter_upwards [ae_restrict_mem (measurableSet_Ioo.prod measurableSet_Ioo)] with u hu
    exact hs u.1 hu.1 u.2
  have e2 : Measure.map (fun u : ℝ × ℝ => sph (Prod.map g (fun u => 2 * π * u) u)) unif =
      Measure.map sph (Measure.map (Prod.map g (fun u => 2 * π * u)) unif) := by
    rw [Measure.map_map hsph (hg.prodMap (by fun_prop))]; rfl
  rw [e1, e2, unif, ← Measure.map_prod_map _ _ hg (by fun_prop), h1, azimuth,
    prod_withDensity (by fun_prop) (by fun_prop), solidAngle, ← map_withDensity _ _ hsph _ (by fun_prop)]
  congr 1
  refine withDensity_congr_ae ?_
  rw [Measure.prod_restrict]
  filter_upwards [ae_restrict_mem (measurableSet_Ioo.prod measurableSet_Ioo)] with u hu
  rw [← ENNReal.ofReal_mul (hp0 _ hu.1)]
  congr 1
  rw [show sph u = sph (u.1, u.2) from rfl, hqp]
  ring

/-- The same with an explicit inverse. -/
theorem density_inv (g g' k p : ℝ → ℝ) (hg : Measurable g)
    (h1 : ∀ x ∈ Ioo (0 : ℝ) 1, g x ∈ Ioo (0 : ℝ) 1 ∧ k (g x) = x)
    (h2 : ∀ z ∈ Ioo (0 : ℝ) 1, k z ∈ Ioo (0 : ℝ) 1 ∧ g (k z) = z)
    (hd : ∀ x ∈ Ioo (0 : ℝ) 1, HasDerivAt g (g' x) x) (h : ∀ x ∈ Ioo (0 : ℝ) 1, |g' x| * p (g x) = 1) :
    Measure.map g (volume.restrict (Ioo 0 1)) =
      (volume.restrict (Ioo (0 : ℝ) 1)).withDensity fun z => ENNReal.ofReal (p z) := by
  refine density_1d g g' p _ hg ?_ ?_ (fun x hx => (hd x hx).hasDerivWithinAt) h
  · intro a ha b hb hab
    rw [← (h1 a ha).2, ← (h1 b hb).2, hab]
  · ext z
    constructor
    · rintro ⟨x, hx, rfl⟩; exact (h1 x hx).1
    · intro hz; exact ⟨k z, (h2 z hz).1, (h2 z hz).2⟩

/-- A sampling routine is correct: fed with two independent uniform numbers, its direction has a density with respect to solid
angle on the upper hemisphere, and the number returned with each direction is that density there. -/
def MatchesPdf (s : ℝ → ℝ → Sample) : Prop :=
  ∃ q : ℝ × ℝ × ℝ → ℝ, Measurable q ∧
    (∀ u1 ∈ Ioo (0 : ℝ) 1, ∀ u2, (s u1 u2).pdf = q (pt (s u1 u2).dir)) ∧
    Measure.map (fun u : ℝ × ℝ => pt (s u.1 u.2).dir) unif = solidAngle.withDensity fun ω => ENNReal.ofReal (q ω)

/-- Every sampled direction is a unit vector that is not below the surface. -/
def UpperUnit (s : ℝ → ℝ → Sample) : Prop :=
  ∀ u1, 0 ≤ u1 → u1 < 1 → ∀ u2, V3.dot (s u1 u2).dir (s u1 u2).dir = 1 ∧ 0 ≤ (s u1 u2).dir.z

theorem unit_of (r z phi : ℝ) (h : r * r + z * z = 1) :
    V3.dot ⟨r * cos phi, r * sin phi, z⟩ ⟨r * cos phi, r * sin phi, z⟩ = 1 := by
  simp only [V3.dot]
  linear_combination h + r * r * (sin_sq_add_cos_sq phi)

theorem sqrt_max_mul {x : ℝ} (h : 0 ≤ x) : sqrt (max 0 x) * sqrt (max 0 x) = x := by
  rw [max_eq_right h, mul_self_sqrt h]

/-- **C59** for `uniform_hemisphere`. -/
theorem C59_uniform : UpperUnit uniform ∧ MatchesPdf uniform := by
  have hpi := pi_pos
  constructor
  · intro u1 h0 h1 u2
    refine ⟨unit_of _ _ _ ?_, h0⟩
    rw [sqrt_max_mul (by nlinarith)]; ring
  · refine ⟨fun _ => 1 / (2 * π), by fun_prop, fun _ _ _ => rfl, ?_⟩
    refine density_2d (fun a b => (uniform a b).dir) id (fun _ => 1) measurable_id (by fun_prop) ?_ ?_ (by simp) _ (by fun_prop)
      (fun _ _ => rfl)
    · intro u1 hu u2
      simp only [uniform, pt, sph, id]
      rw [max_eq_right (by nlinarith [hu.1, hu.2]), pow_two]
    · exact density_inv id (fun _ => 1) id _ measurable_id (fun x hx => ⟨hx, rfl⟩) (fun x hx => ⟨hx, rfl⟩)
        (fun x _ => hasDerivAt_id x) (fun x _ => by simp)

/-- The density of `cosine_hemisphere`: cosine over π. -/
theorem cosine_density : Measure.map (fun u : ℝ × ℝ => pt (cosine u.1 u.2).dir) unif =
    solidAngle.withDensity fun ω => ENNReal.ofReal (ω.2.2 * (1 / π)) := by
  have hpi := pi_pos
  refine density_2d (fun a b => (cosine a b).dir) (fun u => sqrt (max 0 (1 - u))) (fun z => 2 * z) (by fun_prop)
    (by fun_prop) ?_ ?_ (fun z hz => by linarith [hz.1]) _ (by fun_prop) (fun z φ => by simp only [sph]; field_simp)
  · intro u1 hu u2
    simp only [cosine, pt, sph]
    have e : 1 - sqrt (max 0 (1 - u1)) ^ 2 = u1 := by
      rw [pow_two, sqrt_max_mul (by linarith [hu.2])]; ring
    rw [e]
  · refine density_inv _ (fun u => -1 / (2 * sqrt (1 - u))) (fun z => 1 - z ^ 2) _ (by fun_prop) ?_ ?_ ?_ ?_
    · intro x hx
      have h1 : 0 < 1 - x := by linarith [hx.2]
      rw [max_eq_right h1.le]
      refine ⟨⟨sqrt_pos.mpr h1, ?_⟩, ?_⟩
      · rw [sqrt_lt' one_pos]; linarith [hx.1]
      · rw [sq_sqrt h1.le]; ring
    · intro z hz
      refine ⟨⟨by nlinarith [hz.1, hz.2], by nlinarith [hz.1]⟩, ?_⟩
      rw [sub_sub_cancel, max_eq_right (sq_nonneg z), sqrt_sq hz.1.le]
    · intro x hx
      have h1 : 0 < 1 - x := by linarith [hx.2]
      have hd : HasDerivAt (fun u : ℝ => sqrt (1 - u)) (-1 / (2 * sqrt (1 - x))) x := by
        have := ((hasDerivAt_id x).const_sub 1).sqrt (by simpa using h1.ne')
        simpa using this
      refine hd.congr_of_eventuallyEq ?_
      filter_upwards [Iio_mem_nhds hx.2] with y hy
      rw [max_eq_right (by linarith [mem_Iio.mp hy])]
    · intro x hx
      have h1 : 0 < 1 - x := by linarith [hx.2]
      have hs := sqrt_pos.mpr h1
      rw [max_eq_right h1.le, neg_div, abs_neg, abs_of_pos (by positivity)]
      field_simp

/-- **C59** for `cosine_hemisphere`. -/
theorem C59_cosine : UpperUnit cosine ∧ MatchesPdf cosine := by
  have hpi := pi_pos
  constructor
  · intro u1 h0 h1 u2
    refine ⟨unit_of _ _ _ ?_, sqrt_nonneg _⟩
    rw [sqrt_max_mul (by linarith), mul_self_sqrt h0]; ring
  · refine ⟨fun ω => ω.2.2 * (1 / π), by fun_prop, fun _ _ _ => rfl, cosine_density⟩

/-- **C59** for `power_cosine_hemisphere`, for every exponent `n ≥ 0`. -/
theorem C59_power_cosine (n : ℝ) (hn : 0 ≤ n) : UpperUnit (powerCosine n) ∧ MatchesPdf (powerCosine n) := by
  have hpi := pi_pos
  have hn1 : 0 < n + 1 := by linarith
  constructor
  · intro u1 h0 h1 u2
    have hz0 : 0 ≤ u1 ^ (1 / (n + 1)) := rpow_nonneg h0 _
    have hz1 : u1 ^ (1 / (n + 1)) ≤ 1 := rpow_le_one h0 h1.le (by positivity)
    refine ⟨unit_of _ _ _ ?_, hz0⟩
    rw [sqrt_max_mul (by nlinarith)]; ring
  · refine ⟨fun ω => (n + 1) / (2 * π) * ω.2.2 ^ n, by fun_prop, fun _ _ _ => rfl, ?_⟩
    refine density_2d (fun a b => (powerCosine n a b).dir) (fun u => u ^ (1 / (n + 1))) (fun z => (n + 1) * z ^ n)
      (by fun_prop) (by fun_prop) ?_ ?_ (fun z hz => by have := rpow_nonneg hz.1.le n; positivity) _ (by fun_prop)
      (fun z φ => by simp only [sph]; ring)
    · intro u1 hu u2
      simp only [powerCosine, pt, sph]
      have hz0 : 0 ≤ u1 ^ (1 / (n + 1)) := rpow_nonneg hu.1.le _
      have hz1 : u1 ^ (1 / (n + 1)) ≤ 1 := rpow_le_one hu.1.le hu.2.le (by positivity)
      rw [max_eq_right (by nlinarith), pow_two]
    · refine density_inv _ (fun u => (1 / (n + 1)) * u ^ (1 / (n + 1) - 1)) (fun z => z ^ (n + 1)) _ (by fun_prop) ?_ ?_ ?_ ?_
      · intro x hx
        refine ⟨⟨rpow_pos_of_pos hx.1 _, rpow_lt_one hx.1.le hx.2 (by positivity)⟩, ?_⟩
        rw [← rpow_mul hx.1.le, one_div_mul_cancel hn1.ne', rpow_one]
      · intro z hz
        refine ⟨⟨rpow_pos_of_pos hz.1 _, rpow_lt_one hz.1.le hz.2 hn1⟩, ?_⟩
        rw [← rpow_mul hz.1.le, mul_one_div_cancel hn1.ne', rpow_one]
      · intro x hx
        exact hasDerivAt_rpow_const (Or.inl hx.1.ne')
      · intro x hx
        have e : (x ^ (1 / (n + 1))) ^ n = x ^ (1 / (n + 1) * n) := by rw [← rpow_mul hx.1.le]
        rw [abs_of_pos (by have := rpow_pos_of_pos hx.1 (1 / (n + 1) - 1); positivity), e]
        have : x ^ (1 / (n + 1) - 1) * x ^ (1 / (n + 1) * n) = 1 := by
          rw [← rpow_add hx.1]
          have : 1 / (n + 1) - 1 + 1 / (n + 1) * n = 0 := by field_simp; ring
          rw [this, rpow_zero]
        calc _ = (1 / (n + 1) * (n + 1)) * (x ^ (1 / (n + 1) - 1) * x ^ (1 / (n + 1) * n)) := by ring
          _ = 1 := by rw [this, one_div_mul_cancel hn1.ne', one_mul]

theorem ggx_alg (a x E : ℝ) (ha : a ≠ 0) (hE0 : E ≠ 0) (hE : E = 1 + (a - 1) * x) :
    1 + (a - 1) * ((1 - x) / E) = a / E ∧ (1 - (1 - x) / E) / (a / E) = x ∧ (1 - x) / E * (a - 1) + 1 = a / E := by
  refine ⟨?_, ?_, ?_⟩ <;> (field_simp; rw [hE]; ring)

/-- **C59** for `ggx_sample_half_vector`: the half vector is a unit vector above the surface with density
`D cos θ`, `D` the Trowbridge–Reitz distribution; the returned number is that density, but never less than 1e-8. -/
theorem C59_ggx_partial (r : ℝ) (hr : 0 < r) :
    UpperUnit (ggx r) ∧
    ∃ q : ℝ × ℝ × ℝ → ℝ, (∀ ω, q ω = (r ^ 4 / (π * (ω.2.2 ^ 2 * (r ^ 4 - 1) + 1) ^ 2)) * ω.2.2) ∧
      (∀ u1 ∈ Ioo (0 : ℝ) 1, ∀ u2, (ggx r u1 u2).pdf = max (q (pt (ggx r u1 u2).dir)) 1e-8) ∧
      Measure.map (fun u : ℝ × ℝ => pt (ggx r u.1 u.2).dir) unif = solidAngle.withDensity fun ω => ENNReal.ofReal (q ω) := by
  have hpi := pi_pos
  obtain ⟨a, ha⟩ : ∃ a, a = r ^ 4 := ⟨_, rfl⟩
  have ha0 : 0 < a := by rw [ha]; positivity
  have ea : r * r * (r * r) = a := by rw [ha]; ring
  have hE : ∀ u : ℝ, 0 ≤ u → u ≤ 1 → 0 < 1 + (a - 1) * u := by
    intro u h0 h1
    rcases eq_or_lt_of_le h0 with h | h
    · rw [← h]; simp
    · nlinarith [mul_pos ha0 h]
  have hc : ∀ u : ℝ, 0 ≤ u → u < 1 → 0 < (1 - u) / (1 + (a - 1) * u) ∧ (1 - u) / (1 + (a - 1) * u) ≤ 1 := by
    intro u h0 h1
    have := hE u h0 h1.le
    refine ⟨div_pos (by linarith) this, ?_⟩
    rw [div_le_one this]; nlinarith
  constructor
  · intro u1 h0 h1 u2
    refine ⟨unit_of _ _ _ ?_, sqrt_nonneg _⟩
    rw [ea]
    have := hc u1 h0 h1
    rw [sqrt_max_mul (by linarith), mul_self_sqrt this.1.le]; ring
  · refine ⟨fun ω => (a / (π * (ω.2.2 ^ 2 * (a - 1) + 1) ^ 2)) * ω.2.2, fun ω => by rw [ha], ?_, ?_⟩
    · intro u1 hu u2
      have := hc u1 hu.1.le hu.2
      simp only [ggx, pt, ea]
      rw [sq_sqrt this.1.le, pow_two, ← mul_assoc]
    · refine density_2d (fun b c => (ggx r b c).dir) (fun u => sqrt ((1 - u) / (1 + (a - 1) * u)))
        (fun z => 2 * a * z / (z ^ 2 * (a - 1) + 1) ^ 2)
        (by fun_prop) (by fun_prop) ?_ ?_ (fun z hz => by have := hz.1; positivity) _ (by fun_prop)
        (fun z φ => by simp only [sph]; field_simp)
      · intro u1 hu u2
        have := hc u1 hu.1.le hu.2
        simp only [ggx, pt, sph, ea]
        rw [sq_sqrt this.1.le, max_eq_right (by linarith)]
      · refine density_inv _ (fun u => (-a / (1 + (a - 1) * u) ^ 2) / (2 * sqrt ((1 - u) / (1 + (a - 1) * u))))
          (fun z => (1 - z ^ 2) / (1 + (a - 1) * z ^ 2)) _ (by fun_prop) ?_ ?_ ?_ ?_
        · intro x hx
          have h1 := hc x hx.1.le hx.2
          have h2 := hE x hx.1.le hx.2.le
          have h2n := h2.ne'
          refine ⟨⟨sqrt_pos.mpr h1.1, ?_⟩, ?_⟩
          · rw [sqrt_lt' one_pos, one_pow, div_lt_one h2]; nlinarith [mul_pos ha0 hx.1]
          · rw [sq_sqrt h1.1.le]
            have h3 := ggx_alg a x _ ha0.ne' h2n rfl
            rw [h3.1, h3.2.1]
        · intro z hz
          have hz2 : 0 < z ^ 2 := by have := hz.1; positivity
          have hz1 : z ^ 2 < 1 := by nlinarith [hz.1, hz.2]
          have h2 := hE (z ^ 2) hz2.le hz1.le
          have h2n := h2.ne'
          refine ⟨⟨div_pos (by linarith) h2, ?_⟩, ?_⟩
          · rw [div_lt_one h2]; nlinarith [mul_pos ha0 hz2]
          · have h3 := ggx_alg a (z ^ 2) _ ha0.ne' h2n rfl
            rw [h3.1, h3.2.1, sqrt_sq hz.1.le]
        · intro x hx
          have h1 := hc x hx.1.le hx.2
          have h2 := hE x hx.1.le hx.2.le
          have h2n := h2.ne'
          have hd : HasDerivAt (fun u : ℝ => (1 - u) / (1 + (a - 1) * u)) (-a / (1 + (a - 1) * x) ^ 2) x := by
            have n1 : HasDerivAt (fun u : ℝ => 1 - u) (-1) x := by simpa using (hasDerivAt_id x).const_sub 1
            have n2 : HasDerivAt (fun u : ℝ => 1 + (a - 1) * u) (a - 1) x := by
              simpa using ((hasDerivAt_id x).const_mul (a - 1)).const_add 1
            refine (n1.div n2 h2.ne').congr_deriv ?_
            congr 1; ring
          exact hd.sqrt h1.1.ne'
        · intro x hx
          have h1 := hc x hx.1.le hx.2
          have h2 := hE x hx.1.le hx.2.le
          have h2n := h2.ne'
          have hs := sqrt_pos.mpr h1.1
          rw [neg_div, neg_div, abs_neg, abs_of_pos (by positivity), sq_sqrt h1.1.le]
          rw [(ggx_alg a x _ ha0.ne' h2n rfl).2.2]
          field_simp

/-- What `sine_hemisphere` really samples: density `3 cos²θ / 2π`, which favours the zenith. -/
theorem C59_sine_actual :
    UpperUnit sine ∧ Measure.map (fun u : ℝ × ℝ => pt (sine u.1 u.2).dir) unif =
      solidAngle.withDensity fun ω => ENNReal.ofReal (3 * ω.2.2 ^ 2 / (2 * π)) := by
  have hpi := pi_pos
  have hcb : ∀ u : ℝ, 0 ≤ u → u ≤ 1 → 0 ≤ (1 - u) ^ ((1 : ℝ) / 3) ∧ (1 - u) ^ ((1 : ℝ) / 3) ≤ 1 := fun u h0 h1 =>
    ⟨rpow_nonneg (by linarith) _, rpow_le_one (by linarith) (by linarith) (by norm_num)⟩
  constructor
  · intro u1 h0 h1 u2
    have := hcb u1 h0 h1.le
    refine ⟨unit_of _ _ _ ?_, this.1⟩
    rw [sqrt_max_mul (by nlinarith)]; ring
  · refine density_2d (fun a b => (sine a b).dir) (fun u => (1 - u) ^ ((1 : ℝ) / 3)) (fun z => 3 * z ^ 2)
      (by fun_prop) (by fun_prop) ?_ ?_ (fun z hz => by positivity) _ (by fun_prop)
      (fun z φ => by simp only [sph])
    · intro u1 hu u2
      have := hcb u1 hu.1.le hu.2.le
      simp only [sine, pt, sph]
      rw [max_eq_right (by nlinarith), pow_two]
    · refine density_inv _ (fun u => -((1 / 3 : ℝ) * (1 - u) ^ ((1 : ℝ) / 3 - 1))) (fun z => 1 - z ^ (3 : ℝ)) _ (by fun_prop)
        ?_ ?_ ?_ ?_
      · intro x hx
        have h1 : 0 < 1 - x := by linarith [hx.2]
        refine ⟨⟨rpow_pos_of_pos h1 _, rpow_lt_one h1.le (by linarith [hx.1]) (by norm_num)⟩, ?_⟩
        rw [← rpow_mul h1.le]; norm_num
      · intro z hz
        have h1 := rpow_pos_of_pos hz.1 3
        have h2 := rpow_lt_one hz.1.le hz.2 (by norm_num : (0 : ℝ) < 3)
        refine ⟨⟨by linarith, by linarith⟩, ?_⟩
        rw [sub_sub_cancel, ← rpow_mul hz.1.le]; norm_num
      · intro x hx
        have h1 : 0 < 1 - x := by linarith [hx.2]
        have n1 : HasDerivAt (fun u : ℝ => 1 - u) (-1) x := by simpa using (hasDerivAt_id x).const_sub 1
        have := n1.rpow_const (p := (1 : ℝ) / 3) (Or.inl h1.ne')
        convert this using 1
        ring
      · intro x hx
        have h1 : 0 < 1 - x := by linarith [hx.2]
        have h2 := rpow_pos_of_pos h1 ((1 : ℝ) / 3 - 1)
        rw [abs_neg, abs_of_pos (by positivity), ← rpow_natCast, ← rpow_mul h1.le]
        have : (1 - x) ^ ((1 : ℝ) / 3 - 1) * (1 - x) ^ ((1 : ℝ) / 3 * ((2 : ℕ) : ℝ)) = 1 := by
          rw [← rpow_add h1]; norm_num
        linear_combination this

/-- **C59 is violated** by `sine_hemisphere`: the number it returns is not the density of what it samples. -/
theorem C59_sine_violated : ¬ MatchesPdf sine := by
  rintro ⟨q, hq, h1, h2⟩
  have hpi := pi_pos
  -- the claimed density never exceeds 2/π²
  have hb : ∀ z ∈ Ioo (0 : ℝ) 1, ∀ φ, q (sph (z, φ)) ≤ 2 / (π * π) := by
    intro z hz φ
    have e3 := rpow_pos_of_pos hz.1 3
    have e4 := rpow_lt_one hz.1.le hz.2 (by norm_num : (0 : ℝ) < 3)
    have hz' : (1 - (1 - z ^ (3 : ℝ))) ^ ((1 : ℝ) / 3) = z := by
      rw [sub_sub_cancel, ← rpow_mul hz.1.le]; norm_num
    have h := h1 (1 - z ^ (3 : ℝ)) ⟨by linarith, by linarith⟩ (φ / (2 * π))
    have hd : pt (sine (1 - z ^ (3 : ℝ)) (φ / (2 * π))).dir = sph (z, φ) := by
      simp only [sine, pt, sph, hz']
      have hz3 : 0 ≤ 1 - z * z := by
        have := mul_lt_one_of_nonneg_of_lt_one_left hz.1.le hz.2 hz.2.le
        linarith
      rw [max_eq_right hz3, pow_two, mul_div_cancel₀ _ (by positivity)]
    rw [hd] at h
    rw [← h]
    simp only [sine, hz']
    apply max_le
    · apply div_le_div_of_nonneg_right _ (by positivity)
      have : sqrt (max 0 (1 - z * z)) ≤ 1 := by
        rw [Real.sqrt_le_one]; exact max_le zero_le_one (by nlinarith [hz.1])
      linarith
    · rw [le_div_iff₀ (by positivity)]
      have := pi_le_four
      nlinarith
  -- compare the two densities where z > 7/8
  have hsph : Measurable sph := by unfold sph; fun_prop
  have hA : MeasurableSet {ω : ℝ × ℝ × ℝ | 7 / 8 < ω.2.2} := measurableSet_lt (by fun_prop) (by fun_prop)
  have hm : solidAngle.withDensity (fun ω => ENNReal.ofReal (q ω)) {ω : ℝ × ℝ × ℝ | 7 / 8 < ω.2.2} =
      solidAngle.withDensity (fun ω => ENNReal.ofReal (3 * ω.2.2 ^ 2 / (2 * π))) {ω : ℝ × ℝ × ℝ | 7 / 8 < ω.2.2} := by
    rw [← h2, C59_sine_actual.2]
  have hpre : sph ⁻¹' {ω : ℝ × ℝ × ℝ | 7 / 8 < ω.2.2} = Ioi (7 / 8) ×ˢ univ := by
    ext u; simp [sph]
  rw [withDensity_apply _ hA, withDensity_apply _ hA, solidAngle, setLIntegral_map hA (by fun_prop) hsph,
    setLIntegral_map hA (by fun_prop) hsph, hpre, Measure.prod_restrict, Measure.restrict_restrict (by measurability)] at hm
  set S : Set (ℝ × ℝ) := Ioi (7 / 8) ×ˢ univ ∩ Ioo 0 1 ×ˢ Ioo 0 (2 * π) with hS
  have hSm : MeasurableSet S := by rw [hS]; measurability
  have hSe : S = Ioo (7 / 8) 1 ×ˢ Ioo 0 (2 * π) := by
    rw [hS]; ext u; simp only [mem_inter_iff, mem_prod, mem_Ioi, mem_univ, mem_Ioo, and_true]
    constructor
    · rintro ⟨a, b, c⟩; exact ⟨⟨a, b.2⟩, c⟩
    · rintro ⟨a, c⟩; exact ⟨a.1, ⟨by linarith [a.1], a.2⟩, c⟩
  have hvol : volume S = ENNReal.ofReal (1 / 8) * ENNReal.ofReal (2 * π) := by
    rw [hSe, Measure.volume_eq_prod, Measure.prod_prod, Real.volume_Ioo, Real.volume_Ioo]
    norm_num
  have hlo : ENNReal.ofReal (3 * (7 / 8) ^ 2 / (2 * π)) * volume S ≤
      ∫⁻ u in S, ENNReal.ofReal (3 * (sph u).2.2 ^ 2 / (2 * π)) := by
    rw [← setLIntegral_const]
    refine setLIntegral_mono' hSm fun u hu => ENNReal.ofReal_le_ofReal ?_
    rw [hSe] at hu
    have : (7 / 8 : ℝ) ^ 2 ≤ (sph u).2.2 ^ 2 := by
      have := hu.1.1
      simp only [sph]; nlinarith
    gcongr
  have hhi : ∫⁻ u in S, ENNReal.ofReal (q (sph u)) ≤ ENNReal.ofReal (2 / (π * π)) * volume S := by
    rw [← setLIntegral_const]
    refine setLIntegral_mono' hSm fun u hu => ENNReal.ofReal_le_ofReal ?_
    exact hb u.1 hu.2.1 u.2
  rw [Measure.volume_eq_prod, hm] at hhi
  rw [← Measure.volume_eq_prod] at hhi
  have hfin := hlo.trans hhi
  rw [hvol, ← ENNReal.ofReal_mul (by norm_num), ← ENNReal.ofReal_mul (by positivity), ← ENNReal.ofReal_mul (by positivity),
    ENNReal.ofReal_le_ofReal_iff (by positivity)] at hfin
  have h4 : 3 * (7 / 8) ^ 2 / (2 * π) * (1 / 8 * (2 * π)) = 147 / 512 := by field_simp; norm_num
  have h5 : 2 / (π * π) * (1 / 8 * (2 * π)) = 1 / (2 * π) := by field_simp; norm_num
  rw [h4, h5, le_div_iff₀ (by positivity)] at hfin
  have := two_le_pi
  nlinarith

end Huira.Sampling
