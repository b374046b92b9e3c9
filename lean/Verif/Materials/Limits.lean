import Verif.Materials.Energy

/-!
# How the reflectance models depend on their parameters (C101)
-/

set_option linter.unusedSimpArgs false
set_option linter.unusedVariables false

open Set Real

namespace Huira.Bsdf
open Huira.Sampling V3

variable {n : ℕ}

/-- **C101.**  A brighter albedo never makes a surface darker, in any model, for any pair of directions. -/
theorem C101_monotone (k : Kind) (f : Frame) (hn : dot f.n f.n = 1) (p q : Params n) (hp : Physical k p) (hq : Physical k q)
    (hr : p.roughness = q.roughness) (hm : p.metallic = q.metallic) (i : Fin n) (h : p.albedo i ≤ q.albedo i) (wo wi : V3)
    (ho : dot wo wo = 1) (hi : dot wi wi = 1) : k.eval wo wi f p i ≤ k.eval wo wi f q i := by
  have hpi := pi_pos
  have p0 := (hp.albedo i).1
  have q1 := (hq.albedo i).2
  cases k with
  | lambertian => simp only [Kind.eval, lambertianEval]; split_ifs <;> first | exact le_rfl | gcongr
  | lommelSeeliger =>
    simp only [Kind.eval, lommelEval]; split_ifs with c
    · exact le_rfl
    · push Not at c; have := c.1; have := c.2; gcongr
  | mcEwen =>
    simp only [Kind.eval, mcEwenEval]; split_ifs with c
    · exact le_rfl
    · push Not at c
      have c1 := c.1
      have c2 := c.2
      refine mul_le_mul_of_nonneg_right h ?_
      set t := arccos (clamp (dot wi wo) (-1) 1)
      have ht : 0 ≤ t := arccos_nonneg _
      have : exp (-t * (3 * (1 / π))) ≤ 1 := by
        rw [exp_le_one_iff]
        have : 0 ≤ t * (3 * (1 / π)) := by positivity
        linarith
      have : 0 ≤ 1 - exp (-t * (3 * (1 / π))) := by linarith
      have := exp_pos (-t * (3 * (1 / π)))
      positivity
  | orenNayar =>
    simp only [Kind.eval, orenEval, hr]; split_ifs with c d
    · exact le_rfl
    · push Not at c
      refine mul_le_mul_of_nonneg_right (by gcongr) ?_
      have a := onA_pos q.roughness
      have b := onB_pos q.roughness
      unfold onA at a; unfold onB at b
      have e : q.roughness * (π / 2) * (q.roughness * (π / 2)) = (q.roughness * π / 2) ^ 2 := by ring
      rw [e]
      have : 0 ≤ (dot wi wo - dot wi f.n * dot wo f.n) / max (dot wi f.n) (dot wo f.n) :=
        div_nonneg d.1.le (c.1.le.trans (le_max_left _ _))
      positivity
    · push Not at c
      refine mul_le_mul_of_nonneg_right (by gcongr) ?_
      have a := onA_pos q.roughness
      unfold onA at a
      have e : q.roughness * (π / 2) * (q.roughness * (π / 2)) = (q.roughness * π / 2) ^ 2 := by ring
      rw [e, mul_zero, add_zero]
      exact a
  | hapke H B0 b c =>
    obtain ⟨b0, b1, b2, c0, c1⟩ := hp.hapke H B0 b c rfl
    simp only [Kind.eval, hapkeEval]; split_ifs with cc
    · exact le_rfl
    · push Not at cc
      have i0 := cc.1
      have o0 := cc.2
      set x := clamp (dot wi wo) (-1) 1 with hx
      obtain ⟨x0, x1⟩ := clamp_mem (dot wi wo) (-1) 1 (by norm_num)
      have g1 := hg_pos (-b) x (by linarith) (by linarith) x0 x1
      have g2 := hg_pos b x b1 b2 x0 x1
      have hP : 0 ≤ dhg b c x := by
        unfold dhg
        have : 0 ≤ 1 - c := by linarith
        positivity
      have ht : 0 ≤ tan (arccos x * 0.5) := by
        have := arccos_nonneg x
        have := arccos_le_pi x
        exact tan_nonneg_of_nonneg_of_le_pi_div_two (by positivity) (by linarith)
      have hO : 0 ≤ opposition H B0 (tan (arccos x * 0.5)) := by
        unfold opposition
        split_ifs with hh
        · exact le_rfl
        · push Not at hh; positivity
      have mono : ∀ mu, 0 ≤ mu → hFunction mu (p.albedo i) ≤ hFunction mu (q.albedo i) := by
        intro mu hmu
        unfold hFunction
        have s1 : sqrt (1 - q.albedo i) ≤ sqrt (1 - p.albedo i) := sqrt_le_sqrt (by linarith)
        have := sqrt_nonneg (1 - q.albedo i)
        gcongr
      have l1 := one_le_hFunction (dot wi f.n) (p.albedo i) i0.le p0
      have l2 := one_le_hFunction (dot wo f.n) (p.albedo i) o0.le p0
      have m1 := mono _ i0.le
      have m2 := mono _ o0.le
      have hh : hFunction (dot wi f.n) (p.albedo i) * hFunction (dot wo f.n) (p.albedo i) ≤
          hFunction (dot wi f.n) (q.albedo i) * hFunction (dot wo f.n) (q.albedo i) := mul_le_mul m1 m2 (by linarith) (by linarith)
      have h1 : 1 ≤ hFunction (dot wi f.n) (p.albedo i) * hFunction (dot wo f.n) (p.albedo i) := by nlinarith
      refine mul_le_mul (by gcongr) (by linarith) ?_ (by have := hq.albedo i; have := this.1; positivity)
      have : 0 ≤ (1 + opposition H B0 (tan (arccos x * 0.5))) * dhg b c x := by positivity
      linarith
  | cookTorrance =>
    simp only [Kind.eval, cookEval, hr, hm]; split_ifs with cc
    · exact le_rfl
    · push Not at cc
      have o0 := cc.1
      have i0 := cc.2
      obtain ⟨mt0, mt1⟩ := clamp_mem q.metallic 0 1 (by norm_num)
      set m := clamp q.metallic 0 1
      have hm1 : 0 ≤ 1 - m := by linarith
      set hh := V3.normalize (wo + wi) with hhd
      have hne : wo + wi ≠ V3.zero := half_ne (nn := f.n) o0 i0
      have hhu : dot hh hh = 1 := V3.dot_normalize hne
      have oh1 : max (dot wo hh) 0 ≤ 1 := max_le (dot_le_one ho hhu) zero_le_one
      have oh0 : 0 ≤ max (dot wo hh) 0 := le_max_right _ _
      set o := max (dot wo hh) 0
      have nh0 : 0 ≤ max (dot f.n hh) 0 := le_max_right _ _
      have nh1 : max (dot f.n hh) 0 ≤ 1 := max_le (dot_le_one hn hhu) zero_le_one
      have D := (ggxD_pos _ _ nh0 nh1 (alpha2_pos q.roughness)).le
      have G1 := (smithG1_pos (dot f.n wo) _ (alpha2_pos q.roughness).le).le
      have G2 := (smithG1_pos (dot f.n wi) _ (alpha2_pos q.roughness).le).le
      have S : schlick o (p.albedo i * m + 0.04 * (1 - m)) ≤ schlick o (q.albedo i * m + 0.04 * (1 - m)) := by
        unfold schlick
        have t0 : 0 ≤ 1 - o := by linarith
        have t1 : 1 - o ≤ 1 := by linarith
        have e : (1 - o) * (1 - o) * ((1 - o) * (1 - o)) * (1 - o) = (1 - o) ^ 5 := by ring
        have t5 : (1 - o) ^ 5 ≤ 1 := pow_le_one₀ t0 t1
        have := mul_le_mul_of_nonneg_right h mt0
        simp only [e]
        nlinarith
      unfold smithG2
      gcongr
  | null => exact le_rfl

/-! ## Oren–Nayar, McEwen -/

/-- **C101.**  A smooth Oren–Nayar surface is Lambertian. -/
theorem C101_smooth_oren_nayar (f : Frame) (p : Params n) (h : p.roughness = 0) (wo wi : V3) (ho : 0 < dot wo f.n) :
    Kind.orenNayar.eval wo wi f p = Kind.lambertian.eval wo wi f p := by
  funext i
  simp only [Kind.eval, orenEval, lambertianEval, h]
  by_cases c : dot wi f.n ≤ 0
  · rw [if_pos (.inl c), if_pos c]
  · rw [if_neg (by push Not; exact ⟨not_le.1 c, ho⟩), if_neg c]
    norm_num

/-- **C101.**  McEwen's model is the mixture of a Lommel–Seeliger and a Lambertian surface with weight `e^{-3α/π}`, `α` the phase angle:
seen from the light source it is the Lommel–Seeliger surface, and it always lies between the two. -/
theorem C101_mcewen_mixture (f : Frame) (p : Params n) (i : Fin n) (wo wi : V3) (alpha : ℝ) (h0 : 0 ≤ alpha) (h1 : alpha ≤ π)
    (ha : dot wi wo = cos alpha) (ho : 0 < dot wo f.n) :
    Kind.mcEwen.eval wo wi f p i = exp (-3 * alpha / π) * Kind.lommelSeeliger.eval wo wi f p i +
      (1 - exp (-3 * alpha / π)) * Kind.lambertian.eval wo wi f p i := by
  have hpi := pi_pos
  simp only [Kind.eval, mcEwenEval, lambertianEval, lommelEval]
  by_cases c : dot wi f.n ≤ 0
  · rw [if_pos (.inl c), if_pos (.inl c), if_pos c]; ring
  · have c' := not_le.1 c
    rw [if_neg (by push Not; exact ⟨c', ho⟩), if_neg (by push Not; exact ⟨c', ho⟩), if_neg c, arccos_clamp, ha, arccos_cos h0 h1]
    have e : -alpha * (3 * (1 / π)) = -3 * alpha / π := by ring
    rw [e]
    ring

theorem C101_mcewen_zero_phase (f : Frame) (p : Params n) (w : V3) (hw : dot w w = 1) :
    Kind.mcEwen.eval w w f p = Kind.lommelSeeliger.eval w w f p := by
  funext i
  rcases le_or_gt (dot w f.n) 0 with h | h
  · simp only [Kind.eval, mcEwenEval, lommelEval]; rw [if_pos (.inl h), if_pos (.inl h)]
  · have := C101_mcewen_mixture f p i w w 0 le_rfl pi_pos.le (by rw [hw, cos_zero]) h
    rw [this]; simp

/-! ## Hapke -/

/-- Hapke's formula as published: `ω/(4π(μ₀+μ))·((1+B(α))·p(α) + H(μ₀)H(μ) − 1)` with the double Henyey–Greenstein phase function and
the shadow-hiding opposition surge (specification). -/
noncomputable def hapkeFormula (h B0 b c omega mu0 mu alpha : ℝ) : ℝ :=
  omega / (4 * π * (mu0 + mu)) *
    ((1 + B0 / (1 + tan (alpha / 2) / h)) *
        ((1 - c) * (1 - b ^ 2) / (1 + 2 * b * cos alpha + b ^ 2) ^ (3 / 2 : ℝ) + c * (1 - b ^ 2) / (1 - 2 * b * cos alpha + b ^ 2) ^ (3 / 2 : ℝ)) +
      (1 + 2 * mu0) / (1 + 2 * mu0 * sqrt (1 - omega)) * ((1 + 2 * mu) / (1 + 2 * mu * sqrt (1 - omega))) - 1)

/-- **C101.**  The Hapke model computes the published formula. -/
theorem C101_hapke (h B0 b c : ℝ) (hh : 0 < h) (f : Frame) (p : Params n) (i : Fin n) (wo wi : V3) (alpha : ℝ) (h0 : 0 ≤ alpha)
    (h1 : alpha ≤ π) (ha : dot wi wo = cos alpha) (hi : 0 < dot wi f.n) (ho : 0 < dot wo f.n) :
    (Kind.hapke h B0 b c).eval wo wi f p i = hapkeFormula h B0 b c (p.albedo i) (dot wi f.n) (dot wo f.n) alpha := by
  simp only [Kind.eval, hapkeEval]
  rw [if_neg (by push Not; exact ⟨hi, ho⟩), arccos_clamp, ha, arccos_cos h0 h1]
  have cl : clamp (cos alpha) (-1) 1 = cos alpha := by
    unfold clamp
    rw [if_neg (not_lt.2 (neg_one_le_cos alpha)), if_neg (not_lt.2 (cos_le_one alpha))]
  rw [cl]
  unfold hapkeFormula dhg hg opposition hFunction
  rw [if_neg (not_le.2 hh)]
  have e1 : alpha * 0.5 = alpha / 2 := by ring
  have e2 : (1.5 : ℝ) = 3 / 2 := by norm_num
  have e3 : 1 + -b * -b - 2 * -b * cos alpha = 1 + 2 * b * cos alpha + b ^ 2 := by ring
  have e4 : 1 + b * b - 2 * b * cos alpha = 1 - 2 * b * cos alpha + b ^ 2 := by ring
  rw [e1, e2, e3, e4, mul_comm (sqrt _) (2 * dot wi f.n), mul_comm (sqrt _) (2 * dot wo f.n)]
  ring

/-- **C101.**  The opposition surge doubles up single scattering by exactly `1 + B0` at zero phase, and it fades monotonically with the
phase angle, staying between 1 and `1 + B0`: the larger the phase angle, the less a surge amplitude `B0` adds. -/
theorem C101_hapke_surge (h B0 b c : ℝ) (hh : 0 < h) (hB : 0 ≤ B0) (omega mu0 mu : ℝ) :
    hapkeFormula h B0 b c omega mu0 mu 0 - hapkeFormula h 0 b c omega mu0 mu 0 =
        B0 * (hapkeFormula h 1 b c omega mu0 mu 0 - hapkeFormula h 0 b c omega mu0 mu 0) ∧
    (∀ a1 a2, 0 ≤ a1 → a1 ≤ a2 → a2 < π → 1 + B0 / (1 + tan (a2 / 2) / h) ≤ 1 + B0 / (1 + tan (a1 / 2) / h)) ∧
    (∀ a, 0 ≤ a → a < π → 1 ≤ 1 + B0 / (1 + tan (a / 2) / h) ∧ 1 + B0 / (1 + tan (a / 2) / h) ≤ 1 + B0) := by
  have hp := pi_pos
  have tn : ∀ a, 0 ≤ a → a < π → 0 ≤ tan (a / 2) := fun a a0 a1 => tan_nonneg_of_nonneg_of_le_pi_div_two (by linarith) (by linarith)
  refine ⟨?_, ?_, ?_⟩
  · unfold hapkeFormula
    simp only [zero_div, tan_zero, add_zero, div_one]
    ring
  · intro a1 a2 h1 h2 h3
    have t1 := tn a1 h1 (by linarith)
    have : tan (a1 / 2) ≤ tan (a2 / 2) := by
      rcases eq_or_lt_of_le h2 with e | e
      · rw [e]
      · exact (tan_lt_tan_of_nonneg_of_lt_pi_div_two (by linarith) (by linarith) (by linarith)).le
    gcongr
  · intro a h1 h2
    have t1 := tn a h1 h2
    have d0 : 1 ≤ 1 + tan (a / 2) / h := by
      have : 0 ≤ tan (a / 2) / h := by positivity
      linarith
    refine ⟨?_, ?_⟩
    · have : 0 ≤ B0 / (1 + tan (a / 2) / h) := by positivity
      linarith
    · have : B0 / (1 + tan (a / 2) / h) ≤ B0 := div_le_self hB d0
      linarith

/-- A surge of width zero (or less) is no surge. -/
theorem C101_hapke_no_surge (h B0 b c : ℝ) (hh : h ≤ 0) : (Kind.hapke h B0 b c).eval (n := n) = (Kind.hapke 1 0 b c).eval := by
  simp only [Kind.eval]
  funext wo wi f p i
  simp only [hapkeEval, opposition, if_pos hh, zero_div]
  norm_num

/-! ## Cook–Torrance -/

/-- **C101.**  A fully metallic surface has no diffuse part: seen from the light source its reflectance is proportional to the base
colour, and at normal incidence it is `base colour/(4π·roughness⁴)`. -/
theorem C101_metal (f : Frame) (p : Params n) (i : Fin n) (hm : 1 ≤ p.metallic) (w : V3) (hw : dot w w = 1) (hnn : dot f.n f.n = 1)
    (hn : 0 < dot f.n w) :
    ∃ k, 0 < k ∧ (∀ q : Params n, q.roughness = p.roughness → q.metallic = p.metallic → Kind.cookTorrance.eval w w f q i = q.albedo i * k) ∧
      (f.n = w → k = 1 / (4 * π * (clamp p.roughness 0.01 1) ^ 4)) := by
  have hpi := pi_pos
  have cm : clamp p.metallic 0 1 = 1 := by
    unfold clamp; split_ifs with h1 h2
    · linarith
    · rfl
    · linarith
  have hne : w + w ≠ V3.zero := half_ne (nn := f.n) hn hn
  have hnw : V3.normalize (w + w) = w := by
    have e : w + w = (2 : ℝ) * w := by ext <;> simp <;> ring
    have hl : len (w + w) = 2 := by
      rw [e]; unfold len; rw [show dot ((2 : ℝ) * w) ((2 : ℝ) * w) = 2 ^ 2 * dot w w by simp [dot]; ring, hw]; simp
    rw [V3.normalize_eq, hl, e]
    ext <;> simp
  set a2 := clamp p.roughness 0.01 1 * clamp p.roughness 0.01 1 * (clamp p.roughness 0.01 1 * clamp p.roughness 0.01 1) with ha2
  have ha2p : 0 < a2 := alpha2_pos p.roughness
  refine ⟨ggxD (max (dot f.n w) 0) a2 * smithG2 (dot f.n w) (dot f.n w) a2 / (4 * dot f.n w * dot f.n w), ?_, ?_, ?_⟩
  · have : 0 < ggxD (max (dot f.n w) 0) a2 :=
      ggxD_pos _ _ (le_max_right _ _) (max_le (dot_le_one hnn hw) zero_le_one) ha2p
    have := smithG1_pos (dot f.n w) a2 ha2p.le
    unfold smithG2
    positivity
  · intro q hr hmq
    simp only [Kind.eval, cookEval, hr, hmq, cm, hnw]
    rw [if_neg (by push Not; exact ⟨hn, hn⟩), hw]
    unfold schlick
    simp only [max_eq_left zero_le_one]
    ring
  · intro hf
    rw [hf, hw]
    unfold smithG2 smithG1 ggxD
    simp
    rw [ha2]
    field_simp
    norm_num

/-- **C101.**  At the roughness limits: values below 0.01 act as 0.01 and values above 1 as 1, and the same for metallic and [0, 1]. -/
theorem C101_cook_clamped (f : Frame) (p q : Params n) (wo wi : V3) (ha : p.albedo = q.albedo)
    (hr : q.roughness = max 0.01 (min 1 p.roughness)) (hm : q.metallic = max 0 (min 1 p.metallic)) :
    Kind.cookTorrance.eval wo wi f p = Kind.cookTorrance.eval wo wi f q := by
  have c : ∀ x lo hi : ℝ, lo ≤ hi → clamp (max lo (min hi x)) lo hi = clamp x lo hi := by
    intro x lo hi h
    unfold clamp
    rcases lt_or_ge x lo with h1 | h1
    · rw [min_eq_right (by linarith), max_eq_left h1.le, if_neg (lt_irrefl _), if_neg (not_lt.2 h), if_pos h1]
    · rcases lt_or_ge hi x with h2 | h2
      · rw [min_eq_left h2.le, max_eq_right h, if_neg (not_lt.2 h), if_neg (lt_irrefl _), if_neg (not_lt.2 h1), if_pos h2]
      · rw [min_eq_right h2, max_eq_right h1]
  have c1 := c p.roughness 0.01 1 (by norm_num)
  have c2 := c p.metallic 0 1 zero_le_one
  funext i
  simp only [Kind.eval]
  unfold cookEval
  simp only [hr, hm, c1, c2, ha]

open MeasureTheory in
/-- **C101.**  The microfacet distribution is normalised for every roughness: the projected areas of the facets add up to the area of the
surface. -/
theorem C101_ggx_normalised (a : ℝ) (ha : 0 < a) : ∫⁻ ω, ENNReal.ofReal (ggxD ω.2.2 a * ω.2.2) ∂solidAngle = 1 := by
  have hp := pi_pos
  have hm : Measurable fun ω : ℝ × ℝ × ℝ => ENNReal.ofReal (ggxD ω.2.2 a * ω.2.2) := by unfold ggxD; fun_prop
  rw [sphere_lint hm]
  have d0 : ∀ z ∈ Icc (0 : ℝ) 1, 0 < z * z * (a - 1) + 1 := by
    intro z hz
    have : 0 ≤ z * z := mul_self_nonneg z
    have : z * z ≤ 1 := by nlinarith [hz.1, hz.2]
    rcases eq_or_lt_of_le this with h | h
    · rw [h]; linarith
    · nlinarith [mul_nonneg (mul_self_nonneg z) ha.le]
  have e1 : ∀ z ∈ Ioo (0 : ℝ) 1, ∫⁻ φ in Ioo 0 (2 * π), ENNReal.ofReal (ggxD (sph (z, φ)).2.2 a * (sph (z, φ)).2.2) =
      ENNReal.ofReal (2 * a * z / (z * z * (a - 1) + 1) ^ 2) := by
    intro z hz
    have h1 := d0 z ⟨hz.1.le, hz.2.le⟩
    have := hz.1
    simp only [sph, ggxD]
    rw [mul_lint_const (by positivity)]
    congr 1
    field_simp
  rw [setLIntegral_congr_fun measurableSet_Ioo e1, lint zero_le_one]
  · have hd : ∀ z ∈ uIcc (0 : ℝ) 1, HasDerivAt (fun z => a * (z * z) / (z * z * (a - 1) + 1)) (2 * a * z / (z * z * (a - 1) + 1) ^ 2) z := by
      intro z hz
      rw [uIcc_of_le zero_le_one] at hz
      have h1 := (d0 z hz).ne'
      have hzz : HasDerivAt (fun z : ℝ => z * z) (2 * z) z := ((hasDerivAt_id z).mul (hasDerivAt_id z)).congr_deriv (by simp; ring)
      have := (hzz.const_mul a).div ((hzz.mul_const (a - 1)).add_const 1) h1
      refine this.congr_deriv ?_
      congr 1
      ring
    rw [intervalIntegral.integral_eq_sub_of_hasDerivAt hd]
    · have : 1 * (a - 1) + 1 = a := by ring
      simp [this, ha.ne']
    · apply ContinuousOn.intervalIntegrable
      rw [uIcc_of_le zero_le_one]
      exact ContinuousOn.div (by fun_prop) (by fun_prop) fun z hz => (pow_pos (d0 z hz) 2).ne'
  · exact ContinuousOn.div (by fun_prop) (by fun_prop) fun z hz => (pow_pos (d0 z hz) 2).ne'
  · intro z hz
    have := d0 z ⟨hz.1.le, hz.2.le⟩
    have := hz.1
    positivity

/-! ## Concrete cases -/

/-- A grey and a white Hapke surface with a surge, seen obliquely. -/
example : (Kind.hapke 0.05 1 0.2 0.5).eval ⟨3 / 5, 0, 4 / 5⟩ ⟨-3 / 5, 0, 4 / 5⟩ stdF (⟨fun _ => 0.3, 0, 0⟩ : Params 1) 0 ≤
    (Kind.hapke 0.05 1 0.2 0.5).eval ⟨3 / 5, 0, 4 / 5⟩ ⟨-3 / 5, 0, 4 / 5⟩ stdF (⟨fun _ => 0.9, 0, 0⟩ : Params 1) 0 := by
  have ph : ∀ a : ℝ, 0 ≤ a → a ≤ 1 → Physical (.hapke 0.05 1 0.2 0.5) (⟨fun _ => a, 0, 0⟩ : Params 1) := fun a h0 h1 =>
    ⟨fun _ => ⟨h0, h1⟩, fun _ _ _ _ e => by rw [Kind.hapke.injEq] at e; obtain ⟨rfl, rfl, rfl, rfl⟩ := e; norm_num⟩
  exact C101_monotone _ stdF (by simp [stdF, dot]) _ _ (ph 0.3 (by norm_num) (by norm_num)) (ph 0.9 (by norm_num) (by norm_num))
    rfl rfl 0 (by norm_num) _ _ (by norm_num [dot]) (by norm_num [dot])

example : ∃ k : ℝ, Kind.cookTorrance.eval ⟨0, 0, 1⟩ ⟨0, 0, 1⟩ stdF (⟨fun _ => 0.5, 0.5, 1⟩ : Params 1) 0 = 0.5 * k ∧ k = 4 / π := by
  obtain ⟨k, _, h, hk⟩ := C101_metal (n := 1) stdF ⟨fun _ => 0.5, 0.5, 1⟩ 0 le_rfl ⟨0, 0, 1⟩ (by simp [dot]) (by simp [dot, stdF]) (by simp [dot, stdF])
  refine ⟨k, h ⟨fun _ => 0.5, 0.5, 1⟩ rfl rfl, ?_⟩
  have hp := pi_pos
  rw [hk rfl]
  have : clamp (0.5 : ℝ) 0.01 1 = 1 / 2 := by unfold clamp; norm_num
  simp only [this]
  field_simp
  norm_num

end Huira.Bsdf
