import Verif.Camera.AiryEight

/-!
# The asymptotic form is accurate for all arguments from 8 on
-/

set_option linter.unusedSimpArgs false

namespace Huira.Airy

open Real

/-- Second derivative of the asymptotic form. -/
noncomputable def vT'' (x : ℝ) : ℝ :=
  -(1 - 3 / 4 * (x⁻¹) ^ 2) * vT x +
    √0.636619772 * (cos (x - 2.356194491) * rC x⁻¹ - sin (x - 2.356194491) * rS x⁻¹)

theorem cos_shift (x : ℝ) : HasDerivAt (fun x : ℝ => cos (x - 2.356194491)) (-sin (x - 2.356194491)) x := by
  have := (Real.hasDerivAt_cos (x - 2.356194491)).comp x ((hasDerivAt_id x).sub_const 2.356194491)
  simpa [Function.comp_def] using this
theorem sin_shift (x : ℝ) : HasDerivAt (fun x : ℝ => sin (x - 2.356194491)) (cos (x - 2.356194491)) x := by
  have := (Real.hasDerivAt_sin (x - 2.356194491)).comp x ((hasDerivAt_id x).sub_const 2.356194491)
  simpa [Function.comp_def] using this

theorem vT_deriv {x : ℝ} (hx : x ≠ 0) : HasDerivAt vT (vT' x) x := by
  have h := (((cos_shift x).mul (pA_deriv hx)).sub ((sin_shift x).mul (pB_deriv hx))).const_mul (√0.636619772)
  refine h.congr_deriv ?_
  simp only [vT']; ring

theorem vT'_deriv {x : ℝ} (hx : x ≠ 0) : HasDerivAt vT' (vT'' x) x := by
  have h := (((cos_shift x).mul ((pA1_deriv hx).sub (pB_deriv hx))).sub
    ((sin_shift x).mul ((pA_deriv hx).add (pB1_deriv hx)))).const_mul (√0.636619772)
  refine h.congr_deriv ?_
  simp only [vT'', vT, rC, rS, Pi.add_apply, Pi.sub_apply]; ring

theorem uJ_deriv {x : ℝ} (hx : 0 < x) : HasDerivAt uJ (uJ' x) x := by
  have h := (Real.hasDerivAt_sqrt hx.ne').mul (J1_deriv x)
  refine h.congr_deriv ?_
  have hs : √x * √x = x := Real.mul_self_sqrt hx.le
  have hp : 0 < √x := Real.sqrt_pos.2 hx
  have : 1 / (2 * √x) = √x / (2 * x) := by
    rw [div_eq_div_iff (by positivity) (by positivity)]; linear_combination 2 * (-hs)
  rw [uJ', this]; ring

theorem uJ'_deriv {x : ℝ} (hx : 0 < x) : HasDerivAt uJ' (-(1 - 3 / 4 * (x⁻¹) ^ 2) * uJ x) x := by
  have hg : HasDerivAt (fun x => J1' x + J1 x / (2 * x)) (J1'' x + (J1' x * (2 * x) - J1 x * 2) / (2 * x) ^ 2) x := by
    refine (J1'_deriv x).add ?_
    have h2 : HasDerivAt (fun x : ℝ => 2 * x) 2 x := by simpa using (hasDerivAt_id x).const_mul 2
    exact (J1_deriv x).div h2 (by positivity)
  have h := (Real.hasDerivAt_sqrt hx.ne').mul hg
  refine h.congr_deriv ?_
  have hs : √x * √x = x := Real.mul_self_sqrt hx.le
  have hp : 0 < √x := Real.sqrt_pos.2 hx
  have e : 1 / (2 * √x) = √x / (2 * x) := by
    rw [div_eq_div_iff (by positivity) (by positivity)]; linear_combination 2 * (-hs)
  have hb := J1_bessel x
  have hb2 : J1'' x = -(J1' x / x) - (1 - (x⁻¹) ^ 2) * J1 x := by
    field_simp
    linear_combination hb
  rw [e, uJ, hb2]
  field_simp
  ring

/-- The energy of the difference. -/
noncomputable def energy (x : ℝ) : ℝ := (uJ x - vT x) ^ 2 + (uJ' x - vT' x) ^ 2 + 8e-8 ^ 2

theorem energy_deriv {x : ℝ} (hx : 0 < x) :
    HasDerivAt energy (2 * (uJ' x - vT' x) * (3 / 4 * (x⁻¹) ^ 2 * (uJ x - vT x) -
      √0.636619772 * (cos (x - 2.356194491) * rC x⁻¹ - sin (x - 2.356194491) * rS x⁻¹))) x := by
  have h1 := ((uJ_deriv hx).sub (vT_deriv hx.ne')).pow 2
  have h2 := ((uJ'_deriv hx).sub (vT'_deriv hx.ne')).pow 2
  refine ((h1.add h2).add_const _).congr_deriv ?_
  simp only [vT'', Pi.sub_apply]
  push_cast
  ring

theorem residual_bound {x : ℝ} (hx : 8 ≤ x) :
    |√0.636619772 * (cos (x - 2.356194491) * rC x⁻¹ - sin (x - 2.356194491) * rS x⁻¹)| ≤ 5.6e-7 * (x⁻¹) ^ 2 := by
  have h0 : 0 ≤ x⁻¹ := by positivity
  have h1 : x⁻¹ ≤ 1 / 8 := by rw [inv_eq_one_div]; exact one_div_le_one_div_of_le (by norm_num) hx
  have hc := rC_bound h0 h1
  have hs := rS_bound h0 h1
  have hq : √0.636619772 ≤ (0.8 : ℝ) := Real.sqrt_le_iff.2 ⟨by norm_num, by norm_num⟩
  rw [abs_mul, abs_of_nonneg (Real.sqrt_nonneg _)]
  have h2 : |cos (x - 2.356194491) * rC x⁻¹ - sin (x - 2.356194491) * rS x⁻¹| ≤ 2.7e-7 * (x⁻¹) ^ 2 + 4.3e-7 * (x⁻¹) ^ 2 := by
    refine (abs_sub _ _).trans (add_le_add ?_ ?_)
    · rw [abs_mul]
      calc _ ≤ 1 * |rC x⁻¹| := by gcongr; exact abs_cos_le_one _
        _ ≤ _ := by linarith
    · rw [abs_mul]
      calc _ ≤ 1 * |rS x⁻¹| := by gcongr; exact abs_sin_le_one _
        _ ≤ _ := by linarith
  calc _ ≤ 0.8 * (2.7e-7 * (x⁻¹) ^ 2 + 4.3e-7 * (x⁻¹) ^ 2) := mul_le_mul hq h2 (abs_nonneg _) (by norm_num)
    _ = _ := by ring

/-- The weighted energy does not increase. -/
theorem weighted_antitone : AntitoneOn (fun x => energy x * exp (7.75 * x⁻¹)) (Set.Ici 8) := by
  have hd : ∀ x : ℝ, 0 < x → HasDerivAt (fun x => energy x * exp (7.75 * x⁻¹))
      (2 * (uJ' x - vT' x) * (3 / 4 * (x⁻¹) ^ 2 * (uJ x - vT x) -
      √0.636619772 * (cos (x - 2.356194491) * rC x⁻¹ - sin (x - 2.356194491) * rS x⁻¹)) * exp (7.75 * x⁻¹) +
      energy x * (exp (7.75 * x⁻¹) * (7.75 * -(x⁻¹) ^ 2))) x := by
    intro x hx
    have h3 := ((hasDerivAt_inv hx.ne').const_mul 7.75).exp
    refine ((energy_deriv hx).mul h3).congr_deriv ?_
    simp only [inv_pow]
  refine antitoneOn_of_deriv_nonpos (convex_Ici 8) ?_ ?_ ?_
  · intro x hx
    have : (0 : ℝ) < x := by linarith [Set.mem_Ici.1 hx]
    exact (hd x this).continuousAt.continuousWithinAt
  · intro x hx
    rw [interior_Ici, Set.mem_Ioi] at hx
    exact (hd x (by linarith)).differentiableAt.differentiableWithinAt
  · intro x hx
    rw [interior_Ici, Set.mem_Ioi] at hx
    rw [(hd x (by linarith)).deriv]
    have hr := residual_bound hx.le
    set ρ := √0.636619772 * (cos (x - 2.356194491) * rC x⁻¹ - sin (x - 2.356194491) * rS x⁻¹)
    set e := uJ x - vT x with he
    set e' := uJ' x - vT' x with he'
    have hE : energy x = e ^ 2 + e' ^ 2 + 8e-8 ^ 2 := rfl
    set w := x⁻¹
    have hw : 0 ≤ w ^ 2 := sq_nonneg w
    have hx2 : 0 < exp (7.75 * w) := exp_pos _
    have key : 2 * e' * (3 / 4 * w ^ 2 * e - ρ) ≤ 7.75 * w ^ 2 * energy x := by
      have a1 : 2 * e' * e ≤ e ^ 2 + e' ^ 2 := by nlinarith [sq_nonneg (e - e')]
      have a2 : -(2 * e' * ρ) ≤ 2 * |e'| * (5.6e-7 * w ^ 2) := by
        have : |2 * e' * ρ| ≤ 2 * |e'| * (5.6e-7 * w ^ 2) := by
          rw [abs_mul, abs_mul, abs_of_pos (by norm_num : (0:ℝ) < 2)]
          gcongr
        linarith [neg_abs_le (2 * e' * ρ)]
      have a3 : 2 * |e'| * 5.6e-7 ≤ 7 * (e' ^ 2 + 8e-8 ^ 2) := by
        have := sq_nonneg (|e'| - 8e-8)
        have h4 : |e'| ^ 2 = e' ^ 2 := sq_abs e'
        norm_num at this ⊢
        nlinarith
      rw [hE]
      have b1 := mul_le_mul_of_nonneg_left a1 hw
      have b3 := mul_le_mul_of_nonneg_left a3 hw
      have b4 : 0 ≤ w ^ 2 * e ^ 2 := by positivity
      have b5 : 0 ≤ w ^ 2 * (8e-8 : ℝ) ^ 2 := by positivity
      nlinarith
    nlinarith

/-- **The asymptotic form** is within `5e-8` of the Bessel function for every argument from 8 on. -/
theorem tail_error {x : ℝ} (hx : 8 ≤ x) : |uJ x - vT x| ≤ 1.4e-7 := by
  have h := weighted_antitone (Set.mem_Ici.2 le_rfl) (Set.mem_Ici.2 hx) hx
  simp only at h
  have hp : (0 : ℝ) < x := by linarith
  have h1 : 1 ≤ exp (7.75 * x⁻¹) := Real.one_le_exp (by positivity)
  have h2 : exp (7.75 * (8 : ℝ)⁻¹) ≤ 2.7182818286 := by
    refine (Real.exp_le_exp.2 (show (7.75 * (8 : ℝ)⁻¹) ≤ 1 by norm_num)).trans Real.exp_one_lt_d9.le
  have h3 : energy 8 ≤ 6.6e-15 := by
    have a := value_eight
    have b := slope_eight
    have a2 : (uJ 8 - vT 8) ^ 2 ≤ (1 / 10 ^ 8) ^ 2 := by rw [← sq_abs]; gcongr
    have b2 : (uJ' 8 - vT' 8) ^ 2 ≤ (1 / 10 ^ 8) ^ 2 := by rw [← sq_abs]; gcongr
    unfold energy
    norm_num at a2 b2 ⊢
    linarith
  have h0 : 0 ≤ energy x := by unfold energy; positivity
  have h4 : energy x ≤ 6.6e-15 * 2.7182818286 := by
    calc energy x ≤ energy x * exp (7.75 * x⁻¹) := le_mul_of_one_le_right h0 h1
      _ ≤ _ := h
      _ ≤ _ := mul_le_mul h3 h2 (exp_pos _).le (by norm_num)
  have h5 : (uJ x - vT x) ^ 2 ≤ (1.4e-7) ^ 2 := by
    unfold energy at h4
    have := sq_nonneg (uJ' x - vT' x)
    norm_num at h4 ⊢
    linarith
  exact abs_le_of_sq_le_sq h5 (by norm_num)

end Huira.Airy
