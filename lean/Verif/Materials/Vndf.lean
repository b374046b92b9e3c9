import Verif.Materials.Sphere

/-!
# The density of visible-normal sampling (C59)
-/

set_option linter.unusedSimpArgs false
set_option linter.unusedVariables false

open MeasureTheory Set Real

namespace Huira.Sampling

/-! ## The disc -/

/-- The unit disc. -/
def disc : Set (ℝ × ℝ) := {p | p.1 ^ 2 + p.2 ^ 2 < 1}

theorem disc_meas : MeasurableSet disc :=
  measurableSet_lt (by fun_prop : Measurable fun p : ℝ × ℝ => p.1 ^ 2 + p.2 ^ 2) measurable_const

theorem lint_swap_z (H : ℝ → ENNReal) :
    ∫⁻ r in Ioo (0 : ℝ) 1, ENNReal.ofReal r * H r = ∫⁻ z in Ioo (0 : ℝ) 1, ENNReal.ofReal z * H (sqrt (1 - z ^ 2)) := by
  have mem : ∀ z ∈ Ioo (0 : ℝ) 1, sqrt (1 - z ^ 2) ∈ Ioo (0 : ℝ) 1 := by
    intro z hz
    refine ⟨sqrt_pos.2 (by nlinarith [hz.1, hz.2]), ?_⟩
    rw [sqrt_lt' one_pos]; nlinarith [hz.1]
  have inv : ∀ z ∈ Ioo (0 : ℝ) 1, sqrt (1 - sqrt (1 - z ^ 2) ^ 2) = z := by
    intro z hz
    rw [sq_sqrt (by nlinarith [hz.1, hz.2])]
    rw [show 1 - (1 - z ^ 2) = z ^ 2 by ring, sqrt_sq hz.1.le]
  have himg : (fun z : ℝ => sqrt (1 - z ^ 2)) '' Ioo 0 1 = Ioo 0 1 := by
    ext y
    constructor
    · rintro ⟨z, hz, rfl⟩; exact mem z hz
    · intro hy; exact ⟨_, mem y hy, inv y hy⟩
  have hinj : InjOn (fun z : ℝ => sqrt (1 - z ^ 2)) (Ioo 0 1) := by
    intro a ha b hb h
    have h' : sqrt (1 - a ^ 2) = sqrt (1 - b ^ 2) := h
    rw [← inv a ha, ← inv b hb, h']
  have hd : ∀ z ∈ Ioo (0 : ℝ) 1, HasDerivWithinAt (fun z : ℝ => sqrt (1 - z ^ 2)) (-z / sqrt (1 - z ^ 2)) (Ioo 0 1) z := by
    intro z hz
    have h0 : 1 - z ^ 2 ≠ 0 := by nlinarith [hz.1, hz.2]
    have := (((hasDerivAt_pow 2 z).const_sub 1).sqrt h0)
    refine (this.congr_deriv ?_).hasDerivWithinAt
    have : sqrt (1 - z ^ 2) ≠ 0 := (mem z hz).1.ne'
    field_simp
    norm_num
  have e := lintegral_image_eq_lintegral_abs_deriv_mul measurableSet_Ioo hd hinj fun r => ENNReal.ofReal r * H r
  rw [himg] at e
  rw [e]
  refine setLIntegral_congr_fun measurableSet_Ioo fun z hz => ?_
  have hs := (mem z hz).1
  beta_reduce
  rw [← mul_assoc, ← ENNReal.ofReal_mul (abs_nonneg _), abs_div, abs_neg, abs_of_pos hz.1, abs_of_pos hs]
  congr 2
  field_simp

/-- Area on the disc is solid angle times cosine on the hemisphere above it. -/
theorem disc_lift {F : ℝ × ℝ × ℝ → ENNReal} (hF : Measurable F) :
    ∫⁻ p in disc, F (p.1, p.2, sqrt (1 - p.1 ^ 2 - p.2 ^ 2)) = ∫⁻ ω, ENNReal.ofReal ω.2.2 * F ω ∂solidAngle := by
  have hm : Measurable fun p : ℝ × ℝ => F (p.1, p.2, sqrt (1 - p.1 ^ 2 - p.2 ^ 2)) := by fun_prop
  rw [← lintegral_indicator disc_meas, polar2' (hm.indicator disc_meas), Huira.Bsdf.sphere_lint (by fun_prop)]
  have e1 : ∀ r ∈ Ioi (0 : ℝ), ∫⁻ φ in Ioo 0 (2 * π), ENNReal.ofReal r *
      disc.indicator (fun p : ℝ × ℝ => F (p.1, p.2, sqrt (1 - p.1 ^ 2 - p.2 ^ 2))) (r * cos φ, r * sin φ) =
      (Ioo (0 : ℝ) 1).indicator (fun r => ENNReal.ofReal r * ∫⁻ φ in Ioo 0 (2 * π), F (r * cos φ, r * sin φ, sqrt (1 - r ^ 2))) r := by
    intro r hr
    have hr0 : 0 < r := hr
    have hsum : ∀ φ, (r * cos φ) ^ 2 + (r * sin φ) ^ 2 = r ^ 2 := by
      intro φ; linear_combination r ^ 2 * sin_sq_add_cos_sq φ
    rw [lintegral_const_mul' _ _ ENNReal.ofReal_ne_top]
    by_cases h : r ∈ Ioo (0 : ℝ) 1
    · rw [indicator_of_mem h]
      congr 1
      refine lintegral_congr fun φ => ?_
      rw [indicator_of_mem]
      · simp only
        rw [show 1 - (r * cos φ) ^ 2 - (r * sin φ) ^ 2 = 1 - r ^ 2 by rw [← hsum φ]; ring]
      · show (r * cos φ) ^ 2 + (r * sin φ) ^ 2 < 1
        rw [hsum]; nlinarith [h.1, h.2]
    · rw [indicator_of_notMem h]
      have : ∀ φ, disc.indicator (fun p : ℝ × ℝ => F (p.1, p.2, sqrt (1 - p.1 ^ 2 - p.2 ^ 2))) (r * cos φ, r * sin φ) = 0 := by
        intro φ
        rw [indicator_of_notMem]
        show ¬ ((r * cos φ) ^ 2 + (r * sin φ) ^ 2 < 1)
        rw [hsum, not_lt]
        have : 1 ≤ r := by by_contra hc; exact h ⟨hr0, not_le.1 hc⟩
        nlinarith
      simp only [this, lintegral_zero, mul_zero]
  rw [setLIntegral_congr_fun measurableSet_Ioi e1, lintegral_indicator measurableSet_Ioo, Measure.restrict_restrict measurableSet_Ioo,
    inter_eq_left.2 (fun x hx => hx.1), lint_swap_z]
  refine setLIntegral_congr_fun measurableSet_Ioo fun z hz => ?_
  beta_reduce
  simp only [sph]
  rw [← lintegral_const_mul' _ _ ENNReal.ofReal_ne_top]
  refine lintegral_congr fun φ => ?_
  congr 4
  rw [sq_sqrt (by nlinarith [hz.1, hz.2]), show 1 - (1 - z ^ 2) = z ^ 2 by ring, sqrt_sq hz.1.le]

/-- The polar map of two uniform numbers is uniform on the disc. -/
theorem unif_disc {H : ℝ × ℝ → ENNReal} (hH : Measurable H) :
    ∫⁻ u, H (sqrt u.1 * cos (2 * π * u.2), sqrt u.1 * sin (2 * π * u.2)) ∂unif = ENNReal.ofReal (1 / π) * ∫⁻ p in disc, H p := by
  have hp := pi_pos
  have hm : Measurable fun u : ℝ × ℝ => pt (cosine u.1 u.2).dir := by
    change Measurable fun u : ℝ × ℝ => (sqrt u.1 * cos (2 * π * u.2), sqrt u.1 * sin (2 * π * u.2), sqrt (max 0 (1 - u.1)))
    fun_prop
  have a := disc_lift (F := fun ω => H (ω.1, ω.2.1)) (by fun_prop)
  simp only [Prod.mk.eta] at a
  have b : ∫⁻ u, H (sqrt u.1 * cos (2 * π * u.2), sqrt u.1 * sin (2 * π * u.2)) ∂unif =
      ∫⁻ ω, H (ω.1, ω.2.1) ∂(Measure.map (fun u : ℝ × ℝ => pt (cosine u.1 u.2).dir) unif) := by
    rw [lintegral_map (by fun_prop) hm]; rfl
  rw [b, cosine_density, lintegral_withDensity_eq_lintegral_mul _ (by fun_prop) (by fun_prop), a,
    ← lintegral_const_mul' _ _ ENNReal.ofReal_ne_top]
  refine lintegral_congr fun ω => ?_
  simp only [Pi.mul_apply]
  rw [← mul_assoc, ← ENNReal.ofReal_mul (by positivity)]
  congr 2
  ring

/-- Integrals over the disc by columns. -/
theorem disc_cols {K : ℝ × ℝ → ENNReal} (hK : Measurable K) :
    ∫⁻ p in disc, K p = ∫⁻ x in Ioo (-1 : ℝ) 1, ∫⁻ y in Ioo (-sqrt (1 - x ^ 2)) (sqrt (1 - x ^ 2)), K (x, y) := by
  rw [← lintegral_indicator disc_meas, Measure.volume_eq_prod, lintegral_prod _ (hK.indicator disc_meas).aemeasurable,
    ← lintegral_indicator measurableSet_Ioo]
  refine lintegral_congr fun x => ?_
  have iff : ∀ y, (x, y) ∈ disc ↔ x ∈ Ioo (-1 : ℝ) 1 ∧ y ∈ Ioo (-sqrt (1 - x ^ 2)) (sqrt (1 - x ^ 2)) := by
    intro y
    show x ^ 2 + y ^ 2 < 1 ↔ _
    rw [mem_Ioo, mem_Ioo, ← abs_lt, ← abs_lt, lt_sqrt (abs_nonneg _), sq_abs, ← sq_lt_one_iff_abs_lt_one]
    constructor
    · intro h; exact ⟨by nlinarith [sq_nonneg y], by linarith⟩
    · rintro ⟨_, h⟩; linarith
  by_cases hx : x ∈ Ioo (-1 : ℝ) 1
  · rw [indicator_of_mem hx, ← lintegral_indicator measurableSet_Ioo]
    refine lintegral_congr fun y => ?_
    by_cases hy : y ∈ Ioo (-sqrt (1 - x ^ 2)) (sqrt (1 - x ^ 2))
    · rw [indicator_of_mem hy, indicator_of_mem ((iff y).2 ⟨hx, hy⟩)]
    · rw [indicator_of_notMem hy, indicator_of_notMem fun h => hy ((iff y).1 h).2]
  · rw [indicator_of_notMem hx]
    have : ∀ y, disc.indicator K (x, y) = 0 := fun y => indicator_of_notMem (fun h => hx ((iff y).1 h).1) _
    simp only [this, lintegral_zero]

/-- The warp of visible-normal sampling maps the disc onto the part of it above the tilted edge. -/
theorem warp_lint (C : ℝ) (hC : -1 < C) (hC1 : C ≤ 1) {H : ℝ × ℝ → ENNReal} (hH : Measurable H) :
    ∫⁻ p in disc, H (p.1, (1 - 0.5 * (1 + C)) * sqrt (1 - p.1 ^ 2) + 0.5 * (1 + C) * p.2) =
      ENNReal.ofReal (2 / (1 + C)) * ∫⁻ p in disc, {p : ℝ × ℝ | -(C * sqrt (1 - p.1 ^ 2)) < p.2}.indicator H p := by
  have hs : 0 < 0.5 * (1 + C) := by linarith
  have hset : MeasurableSet {p : ℝ × ℝ | -(C * sqrt (1 - p.1 ^ 2)) < p.2} := measurableSet_lt (by fun_prop) (by fun_prop)
  rw [disc_cols (K := fun p => H (p.1, (1 - 0.5 * (1 + C)) * sqrt (1 - p.1 ^ 2) + 0.5 * (1 + C) * p.2)) (by fun_prop),
    disc_cols (hH.indicator hset), ← lintegral_const_mul' _ _ ENNReal.ofReal_ne_top]
  refine setLIntegral_congr_fun measurableSet_Ioo fun x hx => ?_
  beta_reduce
  set R := sqrt (1 - x ^ 2) with hR
  have hR0 : 0 < R := sqrt_pos.2 (by nlinarith [hx.1, hx.2])
  have himg : (fun y => (1 - 0.5 * (1 + C)) * R + 0.5 * (1 + C) * y) '' Ioo (-R) R = Ioo (-(C * R)) R := by
    ext t
    constructor
    · rintro ⟨y, ⟨h1, h2⟩, rfl⟩
      constructor
      · have := mul_lt_mul_of_pos_left h1 hs; beta_reduce; linarith
      · have := mul_lt_mul_of_pos_left h2 hs; beta_reduce; linarith
    · rintro ⟨h1, h2⟩
      refine ⟨(t - (1 - 0.5 * (1 + C)) * R) / (0.5 * (1 + C)), ⟨?_, ?_⟩, ?_⟩
      · rw [lt_div_iff₀ hs]; linarith
      · rw [div_lt_iff₀ hs]; linarith
      · have : 1 + C ≠ 0 := by linarith
        beta_reduce; field_simp; ring
  have e := lintegral_image_eq_lintegral_abs_deriv_mul (s := Ioo (-R) R) (f := fun y => (1 - 0.5 * (1 + C)) * R + 0.5 * (1 + C) * y)
    (f' := fun _ => 0.5 * (1 + C)) measurableSet_Ioo
    (fun y _ => (((hasDerivAt_id y).const_mul (0.5 * (1 + C))).const_add ((1 - 0.5 * (1 + C)) * R)).hasDerivWithinAt.congr_deriv (by simp))
    (fun a _ b _ h => mul_left_cancel₀ hs.ne' (add_left_cancel h)) fun t => H (x, t)
  rw [himg, abs_of_pos hs, lintegral_const_mul' _ _ ENNReal.ofReal_ne_top] at e
  have f : ∫⁻ y in Ioo (-R) R, {p : ℝ × ℝ | -(C * sqrt (1 - p.1 ^ 2)) < p.2}.indicator H (x, y) = ∫⁻ t in Ioo (-(C * R)) R, H (x, t) := by
    rw [← lintegral_indicator measurableSet_Ioo, ← lintegral_indicator measurableSet_Ioo]
    refine lintegral_congr fun t => ?_
    by_cases h : t ∈ Ioo (-(C * R)) R
    · rw [indicator_of_mem h, indicator_of_mem, indicator_of_mem]
      · exact h.1
      · exact ⟨by nlinarith [h.1], h.2⟩
    · rw [indicator_of_notMem h]
      by_cases h2 : t ∈ Ioo (-R) R
      · rw [indicator_of_mem h2, indicator_of_notMem]
        intro h3
        exact h ⟨h3, h2.2⟩
      · rw [indicator_of_notMem h2]
  have hC0 : 0 < 1 + C := by linarith
  rw [f, e, ← mul_assoc, ← ENNReal.ofReal_mul (by positivity)]
  have : 2 / (1 + C) * (0.5 * (1 + C)) = 1 := by
    have : 1 + C ≠ 0 := by linarith
    field_simp; norm_num
  rw [this, ENNReal.ofReal_one, one_mul]

/-! ## The frame around the stretched view direction -/

open V3 in
/-- In the generic branch, and at the pole, the two tangents and the stretched view direction are orthonormal. -/
theorem vndf_frame (V : V3) (hV : dot V V = 1) (hb : V.x * V.x + V.y * V.y > 1e-7 ∨ V.x = 0 ∧ V.y = 0) :
    dot (vndfT1 V) (vndfT1 V) = 1 ∧ dot (vndfT1 V) V = 0 ∧ (vndfT1 V).z = 0 ∧
      V.x * (vndfT1 V).y - V.y * (vndfT1 V).x = sqrt (1 - V.z ^ 2) := by
  obtain ⟨x, y, z⟩ := V
  simp only [dot] at hV hb
  unfold vndfT1
  simp only
  rcases hb with hb | ⟨rfl, rfl⟩
  · have hpos : 0 < x * x + y * y := lt_trans (by norm_num) hb
    rw [if_pos hb, show 1 - z ^ 2 = x * x + y * y by linarith]
    set l := sqrt (x * x + y * y) with hl
    have hl0 : 0 < l := sqrt_pos.mpr hpos
    have hll : l * l = x * x + y * y := mul_self_sqrt hpos.le
    simp only [dot, hmul_x, hmul_y, hmul_z]
    refine ⟨?_, by ring, by ring, ?_⟩
    · field_simp; nlinarith
    · field_simp; nlinarith
  · rw [if_neg (by norm_num)]
    simp only [dot]
    refine ⟨by norm_num, by norm_num, by norm_num, ?_⟩
    have : z ^ 2 = 1 := by linarith
    rw [this]; simp

theorem sqrt_max_zero (x : ℝ) : sqrt (max 0 x) = sqrt x := by
  rcases le_total 0 x with h | h
  · rw [max_eq_right h]
  · rw [max_eq_left h, sqrt_zero, sqrt_eq_zero_of_nonpos h]

/-- The tilted edge of the disc is the set of normals seen edge-on by the surface. -/
theorem tilt (C S x y c : ℝ) (hC : 0 < C) (hS : 0 ≤ S) (hCS : S ^ 2 = 1 - C ^ 2) (hc : 0 < c) (h1 : x ^ 2 + y ^ 2 + c ^ 2 = 1) :
    -(C * sqrt (1 - x ^ 2)) < y ↔ 0 < y * S + c * C := by
  set R := sqrt (1 - x ^ 2)
  have hR0 : 0 ≤ R := sqrt_nonneg _
  have hRR : R ^ 2 = y ^ 2 + c ^ 2 := by rw [sq_sqrt (by nlinarith [sq_nonneg y, sq_nonneg c])]; linarith
  have hRp : 0 < R := by
    rcases eq_or_lt_of_le hR0 with h | h
    · rw [← h] at hRR; nlinarith [sq_nonneg y, sq_pos_of_pos hc]
    · exact h
  rcases le_or_gt 0 y with hy | hy
  · have : 0 < C * R := mul_pos hC hRp
    have h2 : 0 ≤ y * S := mul_nonneg hy hS
    have h3 : 0 < c * C := mul_pos hc hC
    exact ⟨fun _ => by linarith, fun _ => by linarith⟩
  · have key : (C * R) ^ 2 - (-y) ^ 2 = (c * C) ^ 2 - (-y * S) ^ 2 := by
      rw [mul_pow, mul_pow, mul_pow, hRR, hCS]; ring
    have a : 0 ≤ C * R := by positivity
    have b : 0 ≤ c * C := by positivity
    have d : 0 ≤ -y * S := mul_nonneg (by linarith) hS
    constructor
    · intro h
      have : (-y) ^ 2 < (C * R) ^ 2 := pow_lt_pow_left₀ (by linarith) (by linarith) (by norm_num)
      have : -y * S < c * C := lt_of_pow_lt_pow_left₀ 2 b (by linarith)
      linarith
    · intro h
      have : (-y * S) ^ 2 < (c * C) ^ 2 := pow_lt_pow_left₀ (by linarith) d (by norm_num)
      have : -y < C * R := lt_of_pow_lt_pow_left₀ 2 a (by linarith)
      linarith

/-- The stretched frame as a linear map, and its inverse. -/
noncomputable def stretch (V T1 : V3) (a : ℝ) : (ℝ × ℝ × ℝ) →ₗ[ℝ] (ℝ × ℝ × ℝ) :=
  rows (a * T1.x, a * (V3.cross V T1).x, a * V.x) (a * T1.y, a * (V3.cross V T1).y, a * V.y) (T1.z, (V3.cross V T1).z, V.z)
/-- See `stretch`. -/
noncomputable def unstretch (V T1 : V3) (a : ℝ) : (ℝ × ℝ × ℝ) →ₗ[ℝ] (ℝ × ℝ × ℝ) :=
  rows (T1.x / a, T1.y / a, T1.z) ((V3.cross V T1).x / a, (V3.cross V T1).y / a, (V3.cross V T1).z) (V.x / a, V.y / a, V.z)

open V3 in
theorem stretch_spec (V T1 : V3) (a : ℝ) (ha : 0 < a) (hV : dot V V = 1) (t11 : dot T1 T1 = 1) (t1v : dot T1 V = 0) (t1z : T1.z = 0) :
    LinearMap.det (stretch V T1 a) = a ^ 2 ∧ (∀ x, unstretch V T1 a (stretch V T1 a x) = x) ∧
    (∀ x, stretch V T1 a (unstretch V T1 a x) = x) ∧
    ∀ h, nrm (unstretch V T1 a h) ^ 2 = (h.1 ^ 2 + h.2.1 ^ 2) / a ^ 2 + h.2.2 ^ 2 := by
  obtain ⟨x, y, z⟩ := V
  obtain ⟨p, q, w⟩ := T1
  simp only at t1z
  subst t1z
  simp only [dot] at hV t11 t1v
  refine ⟨?_, ?_, ?_, ?_⟩
  · rw [stretch, rows_det]
    simp only [cross]
    grind
  · rintro ⟨x1, x2, x3⟩
    simp only [stretch, unstretch, rows, LinearMap.coe_mk, AddHom.coe_mk, cross]
    refine Prod.ext ?_ (Prod.ext ?_ ?_) <;> (simp only; field_simp; grind)
  · rintro ⟨x1, x2, x3⟩
    simp only [stretch, unstretch, rows, LinearMap.coe_mk, AddHom.coe_mk, cross]
    refine Prod.ext ?_ (Prod.ext ?_ ?_) <;> (simp only; field_simp; grind)
  · rintro ⟨x1, x2, x3⟩
    unfold nrm
    rw [sq_sqrt (by positivity)]
    simp only [unstretch, rows, LinearMap.coe_mk, AddHom.coe_mk, cross]
    field_simp
    grind

/-- The algebra of the density. -/
theorem visible_alg (a l m E wz X : ℝ) (ha : 0 < a) (hl : 0 < l) (hm : 0 < m) (hE : 0 < E) (hwz : 0 < wz) (hm2 : m ^ 2 = E / a ^ 2) :
    1 / π * (2 / (1 + wz / l)) * ((a ^ 2)⁻¹ / m ^ 3) * (X / (l * m)) = a ^ 2 / (π * E ^ 2) * (2 / (1 + l / wz)) * X / wz := by
  have hp := pi_pos
  have hm4 : m ^ 4 = E ^ 2 / a ^ 4 := by
    rw [show m ^ 4 = (m ^ 2) ^ 2 by ring, hm2]; field_simp
  have : 1 / π * (2 / (1 + wz / l)) * ((a ^ 2)⁻¹ / m ^ 3) * (X / (l * m)) = 2 / (π * (l + wz)) * (a ^ 2)⁻¹ / m ^ 4 * X := by
    field_simp
  rw [this, hm4]
  field_simp
  ring

theorem pt_normalize (v : V3) : pt (V3.normalize v) = dirn (pt v) := by
  have h : V3.len v = nrm (pt v) := by
    unfold V3.len nrm pt V3.dot; congr 1; simp only; ring
  rw [V3.normalize_eq, h]
  unfold dirn pt
  refine Prod.ext ?_ (Prod.ext ?_ ?_) <;> simp

/-- The density of the visible normals: `D(h)·G₁(wo)·max(0, wo·h)/wo.z` (specification; Heitz 2018, eq. 3). -/
noncomputable def visible (wo : V3) (r : ℝ) (ω : ℝ × ℝ × ℝ) : ℝ :=
  r ^ 4 / (π * (ω.2.2 ^ 2 * (r ^ 4 - 1) + 1) ^ 2) * (2 / (1 + sqrt (1 + r ^ 4 * ((1 - wo.z ^ 2) / wo.z ^ 2)))) *
    max 0 (wo.x * ω.1 + wo.y * ω.2.1 + wo.z * ω.2.2) / wo.z

open V3 in
theorem vndf_lint (wo : V3) (hu : dot wo wo = 1) (hz : 0 < wo.z) (r : ℝ) (hr : 0 < r)
    (hb : (vndfVh wo (r * r)).x * (vndfVh wo (r * r)).x + (vndfVh wo (r * r)).y * (vndfVh wo (r * r)).y > 1e-7 ∨
      (vndfVh wo (r * r)).x = 0 ∧ (vndfVh wo (r * r)).y = 0)
    {F : ℝ × ℝ × ℝ → ENNReal} (hF : Measurable F) :
    ∫⁻ u, F (pt (vndf wo r u.1 u.2).dir) ∂unif = ∫⁻ h, ENNReal.ofReal (visible wo r h) * F h ∂solidAngle := by
  have hp := pi_pos
  have hdm := dirn_meas
  set a := r * r with ha
  have ha0 : 0 < a := by positivity
  have hne : (⟨a * wo.x, a * wo.y, wo.z⟩ : V3) ≠ V3.zero := by
    intro e; have := congrArg V3.z e; simp only [V3.zero] at this; linarith
  set V := vndfVh wo a with hVd
  set l := len (⟨a * wo.x, a * wo.y, wo.z⟩ : V3) with hl
  have hl0 : 0 < l := len_pos hne
  have hll : l ^ 2 = a ^ 2 * (1 - wo.z ^ 2) + wo.z ^ 2 := by
    rw [hl]; unfold len; rw [sq_sqrt (by unfold dot; nlinarith [mul_self_nonneg (a * wo.x), mul_self_nonneg (a * wo.y), mul_self_nonneg wo.z])]
    simp only [dot] at hu ⊢
    linear_combination a ^ 2 * hu
  have hV : dot V V = 1 := dot_normalize hne
  have Vx : V.x = a * wo.x / l := by rw [hVd, vndfVh, normalize_eq, hmul_x, ← hl]; ring
  have Vy : V.y = a * wo.y / l := by rw [hVd, vndfVh, normalize_eq, hmul_y, ← hl]; ring
  have Vz : V.z = wo.z / l := by rw [hVd, vndfVh, normalize_eq, hmul_z, ← hl]; ring
  have hVz : 0 < V.z := by rw [Vz]; positivity
  have hVz1 : V.z ≤ 1 := by simp only [dot] at hV; nlinarith [mul_self_nonneg V.x, mul_self_nonneg V.y]
  obtain ⟨t11, t1v, t1z, t2z⟩ := vndf_frame V hV hb
  set T1 := vndfT1 V with hT1
  set T2 := cross V T1 with hT2
  have T2x : T2.x = V.y * T1.z - V.z * T1.y := rfl
  have T2y : T2.y = V.z * T1.x - V.x * T1.z := rfl
  have T2z : T2.z = V.x * T1.y - V.y * T1.x := rfl
  rw [← T2z] at t2z
  obtain ⟨hdet, h1, h2, hnu⟩ := stretch_spec V T1 a ha0 hV t11 t1v t1z
  have Le : ∀ ω : ℝ × ℝ × ℝ, stretch V T1 a ω = (a * T1.x * ω.1 + a * T2.x * ω.2.1 + a * V.x * ω.2.2,
      a * T1.y * ω.1 + a * T2.y * ω.2.1 + a * V.y * ω.2.2, T1.z * ω.1 + T2.z * ω.2.1 + V.z * ω.2.2) := fun _ => rfl
  have Le' : ∀ h : ℝ × ℝ × ℝ, (unstretch V T1 a h).2.2 = V.x / a * h.1 + V.y / a * h.2.1 + V.z * h.2.2 := fun _ => rfl
  have Lm : Measurable (stretch V T1 a) := rows_meas _ _ _
  have Lm' : Measurable (unstretch V T1 a) := rows_meas _ _ _
  generalize stretch V T1 a = L at *
  generalize unstretch V T1 a = L' at *
  -- the sampled direction as a function of the point on the disc
  set N : ℝ × ℝ × ℝ → V3 := fun ω => ω.1 * T1 + ω.2.1 * T2 + ω.2.2 * V with hN
  set K : ℝ × ℝ × ℝ → ℝ × ℝ × ℝ := fun ω => dirn (a * (N ω).x, a * (N ω).y, max 0 (N ω).z) with hK
  have hNx : Measurable fun ω => (N ω).x := by simp only [hN, add_x, hmul_x]; fun_prop
  have hNy : Measurable fun ω => (N ω).y := by simp only [hN, add_y, hmul_y]; fun_prop
  have hNz : Measurable fun ω => (N ω).z := by simp only [hN, add_z, hmul_z]; fun_prop
  have hKm : Measurable K := by fun_prop
  set H : ℝ × ℝ → ENNReal := fun p => F (K (p.1, p.2, sqrt (1 - p.1 ^ 2 - p.2 ^ 2))) with hH
  have hHm : Measurable H := by fun_prop
  have s1 : ∀ u : ℝ × ℝ, F (pt (vndf wo r u.1 u.2).dir) =
      (fun p : ℝ × ℝ => H (p.1, (1 - 0.5 * (1 + V.z)) * sqrt (1 - p.1 ^ 2) + 0.5 * (1 + V.z) * p.2))
        (sqrt u.1 * cos (2 * π * u.2), sqrt u.1 * sin (2 * π * u.2)) := by
    intro u
    simp only [vndf, hH, hK]
    rw [pt_normalize]
    congr 2
    simp only [← ha, ← hVd, vndfNh, vndfDisc, sqrt_max_zero, ← hT1, ← hT2, hN, ← sq]
    rfl
  simp only [s1]
  rw [unif_disc (H := fun p : ℝ × ℝ => H (p.1, (1 - 0.5 * (1 + V.z)) * sqrt (1 - p.1 ^ 2) + 0.5 * (1 + V.z) * p.2)) (by fun_prop),
    warp_lint V.z (by linarith) hVz1 hHm]
  have hset : MeasurableSet {ω : ℝ × ℝ × ℝ | -(V.z * sqrt (1 - ω.1 ^ 2)) < ω.2.1} := measurableSet_lt (by fun_prop) (by fun_prop)
  have s2 : ∫⁻ p in disc, {p : ℝ × ℝ | -(V.z * sqrt (1 - p.1 ^ 2)) < p.2}.indicator H p =
      ∫⁻ ω, ENNReal.ofReal ω.2.2 * {ω : ℝ × ℝ × ℝ | -(V.z * sqrt (1 - ω.1 ^ 2)) < ω.2.1}.indicator (fun ω => F (K ω)) ω ∂solidAngle := by
    rw [← disc_lift (Measurable.indicator (by fun_prop) hset)]
    rfl
  rw [s2]
  have hup : MeasurableSet {h : ℝ × ℝ × ℝ | 0 < h.2.2} := measurableSet_lt measurable_const (by fun_prop)
  have s3 : ∫⁻ ω, ENNReal.ofReal ω.2.2 * {ω : ℝ × ℝ × ℝ | -(V.z * sqrt (1 - ω.1 ^ 2)) < ω.2.1}.indicator (fun ω => F (K ω)) ω ∂solidAngle =
      ∫⁻ ω, ENNReal.ofReal ω.2.2 * {h : ℝ × ℝ × ℝ | 0 < h.2.2}.indicator F (dirn (L ω)) ∂sphereAll := by
    rw [solid_restrict, ← lintegral_indicator hup]
    refine lintegral_congr_ae ?_
    filter_upwards [sphereAll_unit] with ω hω
    by_cases hz3 : 0 < ω.2.2
    · rw [indicator_of_mem (show ω ∈ {ω : ℝ × ℝ × ℝ | 0 < ω.2.2} from hz3)]
      congr 1
      have hω2 : ω.1 ^ 2 + ω.2.1 ^ 2 + ω.2.2 ^ 2 = 1 := by unfold nrm at hω; rwa [sqrt_eq_one] at hω
      have hti := tilt V.z T2.z ω.1 ω.2.1 ω.2.2 hVz (t2z ▸ sqrt_nonneg _) (by
        rw [t2z, sq_sqrt]; nlinarith) hz3 hω2
      have hLz : (L ω).2.2 = ω.2.1 * T2.z + ω.2.2 * V.z := by
        rw [Le]; simp only [t1z]; ring
      have hNL : (N ω).z = (L ω).2.2 := by rw [hLz]; simp only [hN, add_z, hmul_z, t1z]; ring
      have hdz : 0 < (dirn (L ω)).2.2 ↔ 0 < (L ω).2.2 := by
        unfold dirn
        simp only [Prod.smul_snd, smul_eq_mul]
        constructor
        · intro h
          by_contra hc
          exact absurd h (not_lt.2 (mul_nonpos_of_nonneg_of_nonpos (inv_nonneg.2 (nrm_nonneg _)) (not_lt.1 hc)))
        · intro h
          refine mul_pos (inv_pos.2 ?_) h
          rcases eq_or_lt_of_le (nrm_nonneg (L ω)) with e | e
          · rw [nrm_eq_zero e.symm] at h; simp at h
          · exact e
      by_cases hm : ω ∈ {ω : ℝ × ℝ × ℝ | -(V.z * sqrt (1 - ω.1 ^ 2)) < ω.2.1}
      · have hp3 : 0 < (L ω).2.2 := by rw [hLz]; exact hti.1 hm
        rw [indicator_of_mem hm, indicator_of_mem (show dirn (L ω) ∈ {h : ℝ × ℝ × ℝ | 0 < h.2.2} from hdz.2 hp3)]
        simp only [hK]
        rw [max_eq_right (by rw [hNL]; exact hp3.le), hNL]
        congr 2
        refine Prod.ext ?_ (Prod.ext ?_ rfl)
        · rw [Le]; simp only [hN, add_x, hmul_x]; ring
        · rw [Le]; simp only [hN, add_y, hmul_y]; ring
      · rw [indicator_of_notMem hm, indicator_of_notMem]
        intro hc
        exact hm (hti.2 (hLz ▸ hdz.1 hc))
    · rw [indicator_of_notMem (show ω ∉ {ω : ℝ × ℝ × ℝ | 0 < ω.2.2} from hz3), ENNReal.ofReal_of_nonpos (not_lt.1 hz3), zero_mul]
  rw [s3, lin_sphere L L' Lm Lm' (by rw [hdet]; positivity) h1 h2 (hF.indicator hup)
    (by fun_prop : Measurable fun ω : ℝ × ℝ × ℝ => ENNReal.ofReal ω.2.2), hdet, solid_restrict, ← lintegral_indicator hup,
    ← mul_assoc, ← ENNReal.ofReal_mul (by positivity), ← lintegral_const_mul' _ _ ENNReal.ofReal_ne_top]
  refine lintegral_congr_ae ?_
  filter_upwards [sphereAll_unit] with h hh
  by_cases hm : 0 < h.2.2
  · rw [indicator_of_mem (show h ∈ {h : ℝ × ℝ × ℝ | 0 < h.2.2} from hm), indicator_of_mem (show h ∈ {h : ℝ × ℝ × ℝ | 0 < h.2.2} from hm)]
    have hh2 : h.1 ^ 2 + h.2.1 ^ 2 + h.2.2 ^ 2 = 1 := by unfold nrm at hh; rwa [sqrt_eq_one] at hh
    rw [← mul_assoc, ← mul_assoc, ← ENNReal.ofReal_mul (by have : 0 < 1 + V.z := by linarith
                                                           positivity)]
    rw [← ENNReal.ofReal_mul (by
      have : 0 < 1 + V.z := by linarith
      have := nrm_nonneg (L' h)
      positivity)]
    congr 1
    -- the algebra of the density
    set m := nrm (L' h) with hmd
    have hm2 : m ^ 2 = (h.2.2 ^ 2 * (a ^ 2 - 1) + 1) / a ^ 2 := by
      rw [hmd, hnu]
      have e1 : h.2.2 ^ 2 * (a ^ 2 - 1) + 1 = h.1 ^ 2 + h.2.1 ^ 2 + a ^ 2 * h.2.2 ^ 2 := by linarith
      rw [e1]
      field_simp
    have hE0 : 0 < h.2.2 ^ 2 * (a ^ 2 - 1) + 1 := by
      have e1 : h.2.2 ^ 2 * (a ^ 2 - 1) + 1 = h.1 ^ 2 + h.2.1 ^ 2 + a ^ 2 * h.2.2 ^ 2 := by linarith
      rw [e1]; positivity
    have hm0 : 0 < m := by
      have : 0 < m ^ 2 := by rw [hm2]; positivity
      rcases eq_or_lt_of_le (nrm_nonneg (L' h)) with e | e
      · rw [← hmd] at e; rw [← e] at this; norm_num at this
      · exact e
    have hdirz : (dirn (L' h)).2.2 = (wo.x * h.1 + wo.y * h.2.1 + wo.z * h.2.2) / (l * m) := by
      unfold dirn
      rw [← hmd]
      simp only [Prod.smul_snd, smul_eq_mul, Le', Vx, Vy, Vz]
      field_simp
    have hsq : sqrt (1 + r ^ 4 * ((1 - wo.z ^ 2) / wo.z ^ 2)) = l / wo.z := by
      rw [show 1 + r ^ 4 * ((1 - wo.z ^ 2) / wo.z ^ 2) = (l / wo.z) ^ 2 by
        rw [div_pow, hll, ha]; field_simp; ring]
      exact sqrt_sq (by positivity)
    have r4 : r ^ 4 = a ^ 2 := by rw [ha]; ring
    rw [hdirz]
    unfold visible
    rw [hsq, r4, abs_of_pos (by positivity : 0 < (a ^ 2)⁻¹), Vz]
    set E := h.2.2 ^ 2 * (a ^ 2 - 1) + 1
    set X := wo.x * h.1 + wo.y * h.2.1 + wo.z * h.2.2
    rcases le_or_gt X 0 with hX | hX
    · rw [max_eq_left hX, ENNReal.ofReal_of_nonpos, mul_zero, zero_div, ENNReal.ofReal_zero]
      have : X / (l * m) ≤ 0 := div_nonpos_of_nonpos_of_nonneg hX (by positivity)
      have h0 : 0 ≤ 1 / π * (2 / (1 + wo.z / l)) * ((a ^ 2)⁻¹ / m ^ 3) := by positivity
      exact mul_nonpos_of_nonneg_of_nonpos h0 this
    · rw [max_eq_right hX.le]
      congr 1
      exact visible_alg a l m E wo.z X ha0 hl0 hm0 hE0 hz hm2
  · rw [indicator_of_notMem (show h ∉ {h : ℝ × ℝ × ℝ | 0 < h.2.2} from hm), indicator_of_notMem (show h ∉ {h : ℝ × ℝ × ℝ | 0 < h.2.2} from hm)]
    simp

open V3 in
theorem vndf_meas (wo : V3) (r : ℝ) : Measurable fun u : ℝ × ℝ => pt (vndf wo r u.1 u.2).dir := by
  have hdm := dirn_meas
  have hd1 : Measurable fun u : ℝ × ℝ => (vndfDisc (vndfVh wo (r * r)) u.1 u.2).1 := by
    change Measurable fun u : ℝ × ℝ => sqrt u.1 * cos (2 * π * u.2); fun_prop
  have hd2 : Measurable fun u : ℝ × ℝ => (vndfDisc (vndfVh wo (r * r)) u.1 u.2).2 := by
    change Measurable fun u : ℝ × ℝ => (1 - 0.5 * (1 + (vndfVh wo (r * r)).z)) *
      sqrt (max 0 (1 - sqrt u.1 * cos (2 * π * u.2) * (sqrt u.1 * cos (2 * π * u.2)))) +
      0.5 * (1 + (vndfVh wo (r * r)).z) * (sqrt u.1 * sin (2 * π * u.2))
    fun_prop
  have hx : Measurable fun u : ℝ × ℝ => (vndfNh (vndfVh wo (r * r)) u.1 u.2).x := by
    unfold vndfNh; simp only [add_x, hmul_x]; fun_prop
  have hy : Measurable fun u : ℝ × ℝ => (vndfNh (vndfVh wo (r * r)) u.1 u.2).y := by
    unfold vndfNh; simp only [add_y, hmul_y]; fun_prop
  have hz : Measurable fun u : ℝ × ℝ => (vndfNh (vndfVh wo (r * r)) u.1 u.2).z := by
    unfold vndfNh; simp only [add_z, hmul_z]; fun_prop
  have : (fun u : ℝ × ℝ => pt (vndf wo r u.1 u.2).dir) = fun u : ℝ × ℝ => dirn (r * r * (vndfNh (vndfVh wo (r * r)) u.1 u.2).x,
      r * r * (vndfNh (vndfVh wo (r * r)) u.1 u.2).y, max 0 (vndfNh (vndfVh wo (r * r)) u.1 u.2).z) := by
    funext u
    simp only [vndf]
    rw [pt_normalize]
    rfl
  rw [this]
  fun_prop

open V3 in
/-- **C59** for `ggx_vndf_sample`: for every view direction above the surface and every roughness, the half vector has the density of the
visible normals `D(h)·G₁(wo)·max(0, wo·h)/wo.z`; unless the view is within 0.006° of grazing the returned number is that density, but
never less than 1e-8.  (The stretched view direction must be more than 3·10⁻⁴ rad off the pole, or exactly at the pole; between the two
the routine replaces the first tangent by the x axis.) -/
theorem C59_vndf_partial (wo : V3) (hu : dot wo wo = 1) (hz : 0 < wo.z) (r : ℝ) (hr : 0 < r)
    (hb : (vndfVh wo (r * r)).x * (vndfVh wo (r * r)).x + (vndfVh wo (r * r)).y * (vndfVh wo (r * r)).y > 1e-7 ∨
      (vndfVh wo (r * r)).x = 0 ∧ (vndfVh wo (r * r)).y = 0) :
    ∃ q : ℝ × ℝ × ℝ → ℝ, (∀ ω, q ω = r ^ 4 / (π * (ω.2.2 ^ 2 * (r ^ 4 - 1) + 1) ^ 2) *
        (2 / (1 + sqrt (1 + r ^ 4 * ((1 - wo.z ^ 2) / wo.z ^ 2)))) * max 0 (wo.x * ω.1 + wo.y * ω.2.1 + wo.z * ω.2.2) / wo.z) ∧
      (1e-8 ≤ wo.z ^ 2 → ∀ u1 u2, (vndf wo r u1 u2).pdf = max (q (pt (vndf wo r u1 u2).dir)) 1e-8) ∧
      Measure.map (fun u : ℝ × ℝ => pt (vndf wo r u.1 u.2).dir) unif = solidAngle.withDensity fun ω => ENNReal.ofReal (q ω) := by
  have hqm : Measurable (visible wo r) := by unfold visible; fun_prop
  refine ⟨visible wo r, fun _ => rfl, ?_, ?_⟩
  · intro h8 u1 u2
    have hz8 : 1e-8 ≤ |wo.z| := by
      rw [abs_of_pos hz]
      by_contra hc
      push Not at hc
      nlinarith
    have e0 : (vndf wo r u1 u2).pdf = max (r * r * (r * r) / (π * ((vndf wo r u1 u2).dir.z * (vndf wo r u1 u2).dir.z * (r * r * (r * r) - 1) + 1) *
        ((vndf wo r u1 u2).dir.z * (vndf wo r u1 u2).dir.z * (r * r * (r * r) - 1) + 1)) *
        (1 / (1 + (-1 + sqrt (1 + r * r * (r * r) * ((1 - wo.z * wo.z) / max (wo.z * wo.z) 1e-8))) * 0.5)) *
        max (dot wo (vndf wo r u1 u2).dir) 0 / max |wo.z| 1e-8) 1e-8 := rfl
    have hm8 : max (wo.z * wo.z) 1e-8 = wo.z * wo.z := max_eq_left (by rw [← sq]; exact h8)
    rw [e0, max_eq_left hz8, abs_of_pos hz, hm8, max_comm (dot wo _) 0]
    congr 1
    unfold visible
    have r4 : r * r * (r * r) = r ^ 4 := by ring
    rw [r4, ← sq wo.z]
    have hs := sqrt_nonneg (1 + r ^ 4 * ((1 - wo.z ^ 2) / wo.z ^ 2))
    generalize sqrt (1 + r ^ 4 * ((1 - wo.z ^ 2) / wo.z ^ 2)) = S at *
    have e2 : 1 / (1 + (-1 + S) * 0.5) = 2 / (1 + S) := by
      rw [div_eq_div_iff (by nlinarith) (by linarith)]; ring
    rw [e2]
    simp only [pt, dot]
    congr 3
    rw [sq, sq, mul_assoc π]
  · have hm := vndf_meas wo r
    refine Measure.ext_of_lintegral _ fun F hF => ?_
    rw [lintegral_map hF hm, vndf_lint wo hu hz r hr hb hF, lintegral_withDensity_eq_lintegral_mul _ (by fun_prop) hF]
    rfl

/-- The hypotheses of `C59_vndf_partial` hold, for instance, at the zenith and for an oblique view of a surface of roughness 1. -/
example : Measure.map (fun u : ℝ × ℝ => pt (vndf ⟨3 / 5, 0, 4 / 5⟩ 1 u.1 u.2).dir) unif ≠ 0 ∧
    Measure.map (fun u : ℝ × ℝ => pt (vndf ⟨0, 0, 1⟩ 0.3 u.1 u.2).dir) unif =
      solidAngle.withDensity fun ω => ENNReal.ofReal (visible ⟨0, 0, 1⟩ 0.3 ω) := by
  constructor
  · have hb : vndfVh ⟨3 / 5, 0, 4 / 5⟩ (1 * 1) = ⟨3 / 5, 0, 4 / 5⟩ := by
      have : V3.len ⟨3 / 5, 0, 4 / 5⟩ = 1 := by unfold V3.len V3.dot; norm_num
      simp only [vndfVh, one_mul, V3.normalize_eq, this]
      ext <;> simp
    obtain ⟨q, _, _, h⟩ := C59_vndf_partial ⟨3 / 5, 0, 4 / 5⟩ (by norm_num [V3.dot]) (by norm_num) 1 one_pos (.inl (by
      rw [hb]; norm_num))
    intro hc
    have hm := vndf_meas ⟨3 / 5, 0, 4 / 5⟩ 1
    have : Measure.map (fun u : ℝ × ℝ => pt (vndf ⟨3 / 5, 0, 4 / 5⟩ 1 u.1 u.2).dir) unif univ = 0 := by rw [hc]; rfl
    rw [Measure.map_apply hm MeasurableSet.univ, preimage_univ] at this
    have h1 : unif univ = 1 := by unfold unif; rw [← univ_prod_univ, Measure.prod_prod]; simp
    rw [h1] at this
    exact one_ne_zero this
  · have hb : vndfVh ⟨0, 0, 1⟩ (0.3 * 0.3) = ⟨0, 0, 1⟩ := by
      have : V3.len ⟨0, 0, 1⟩ = 1 := by unfold V3.len V3.dot; norm_num
      simp only [vndfVh, mul_zero, V3.normalize_eq, this]
      ext <;> simp
    obtain ⟨q, hq, _, h⟩ := C59_vndf_partial ⟨0, 0, 1⟩ (by norm_num [V3.dot]) (by norm_num) 0.3 (by norm_num) (.inr (by rw [hb]; simp))
    have : q = visible ⟨0, 0, 1⟩ 0.3 := funext hq
    rw [h, this]

end Huira.Sampling
