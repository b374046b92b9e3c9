import Verif.Camera.AiryTail

/-!
# The two branches of the Bessel function meet at 8

Values and slopes of `√x J₁(x)` and of the asymptotic form at `x = 8`.
-/

set_option linter.unusedSimpArgs false

namespace Huira.Airy

open Real

theorem cos_eight : |cos (8 - 2.356194491) - 0.8024659852972| ≤ 1 / 10 ^ 10 := by
  have hc := Real.hasSum_cos (8 - 2.356194491)
  have h := (tail_le (f := fun k : ℕ => (-1) ^ k * (8 - 2.356194491 : ℝ) ^ (2 * k) / ((2 * k).factorial : ℝ)) 17 fun k hk => ?_).2
  · rw [hc.tsum_eq] at h
    norm_num [Finset.sum_range_succ, Nat.factorial, abs_le] at h ⊢
    constructor <;> linarith [h.1, h.2]
  · rw [abs_div, abs_mul, abs_pow, abs_neg, abs_one, one_pow, one_mul, Nat.abs_cast, abs_of_nonneg (by norm_num),
      abs_div, abs_mul, abs_pow, abs_neg, abs_one, one_pow, one_mul, Nat.abs_cast, abs_of_nonneg (by norm_num),
      show 2 * (k + 1) = 2 * k + 1 + 1 by ring, Nat.factorial_succ, Nat.factorial_succ, pow_succ, pow_succ]
    have h3 : (17 : ℝ) ≤ k := by exact_mod_cast hk
    have hf : (0 : ℝ) < (2 * k).factorial := by positivity
    have hp : (0 : ℝ) ≤ (8 - 2.356194491 : ℝ) ^ (2 * k) := by norm_num
    push_cast
    rw [div_div, div_le_div_iff₀ (by positivity) (by positivity)]
    have : (8 - 2.356194491 : ℝ) * (8 - 2.356194491) * 2 ≤ (2 * k + 1 + 1) * (2 * k + 1) := by norm_num; nlinarith
    have := mul_le_mul_of_nonneg_left this (mul_nonneg hp hf.le)
    linarith

theorem sin_eight : |sin (8 - 2.356194491) + 0.5966978652894| ≤ 1 / 10 ^ 10 := by
  have hc := Real.hasSum_sin (8 - 2.356194491)
  have h := (tail_le (f := fun k : ℕ => (-1) ^ k * (8 - 2.356194491 : ℝ) ^ (2 * k + 1) / ((2 * k + 1).factorial : ℝ)) 17 fun k hk => ?_).2
  · rw [hc.tsum_eq] at h
    norm_num [Finset.sum_range_succ, Nat.factorial, abs_le] at h ⊢
    constructor <;> linarith [h.1, h.2]
  · rw [abs_div, abs_mul, abs_pow, abs_neg, abs_one, one_pow, one_mul, Nat.abs_cast, abs_of_nonneg (by norm_num),
      abs_div, abs_mul, abs_pow, abs_neg, abs_one, one_pow, one_mul, Nat.abs_cast, abs_of_nonneg (by norm_num),
      show 2 * (k + 1) + 1 = 2 * k + 1 + 1 + 1 by ring, Nat.factorial_succ (2 * k + 1 + 1), Nat.factorial_succ (2 * k + 1),
      pow_succ _ (2 * k + 1 + 1), pow_succ _ (2 * k + 1)]
    have h3 : (17 : ℝ) ≤ k := by exact_mod_cast hk
    have hf : (0 : ℝ) < (2 * k + 1).factorial := by positivity
    have hp : (0 : ℝ) ≤ (8 - 2.356194491 : ℝ) ^ (2 * k + 1) := by norm_num
    push_cast
    rw [div_div, div_le_div_iff₀ (by positivity) (by positivity)]
    have : (8 - 2.356194491 : ℝ) * (8 - 2.356194491) * 2 ≤ (2 * k + 1 + 1 + 1) * (2 * k + 1 + 1) := by norm_num; nlinarith
    have := mul_le_mul_of_nonneg_left this (mul_nonneg hp hf.le)
    linarith

theorem jq_eight : |jq 64 - 0.02932954335674| ≤ 2 / 10 ^ 11 := by
  have h := jq_rest (y := 64) (by norm_num) le_rfl
  norm_num [Finset.sum_range_succ, jc, Nat.factorial, abs_le] at h ⊢
  constructor <;> linarith [h.1, h.2]

theorem jq1_eight : |jq1 64 - 0.000882747815813| ≤ 1 / 10 ^ 12 := by
  have h := (tail_le (f := fun k => dcoef jc k * (64 : ℝ) ^ k) 18 fun k hk => ?_).2
  · change |jq1 64 - _| ≤ _ at h
    norm_num [Finset.sum_range_succ, jc, dcoef, Nat.factorial, abs_le] at h ⊢
    constructor <;> linarith [h.1, h.2]
  · simp only [dcoef]
    rw [jc_succ (k + 1), abs_mul, abs_mul, abs_mul, abs_mul, abs_neg, abs_mul, pow_succ, abs_mul]
    have h5 : (18 : ℝ) ≤ k := by exact_mod_cast hk
    push_cast
    rw [abs_of_pos (show (0 : ℝ) < k + 1 + 1 by positivity), abs_of_pos (show (0 : ℝ) < 4 * (k + 1 + 1) * (k + 1 + 2) by positivity),
      abs_of_pos (show (0 : ℝ) < k + 1 by positivity), abs_of_pos (show (0 : ℝ) < 64 by norm_num)]
    have h2 : 64 * 2 ≤ 4 * ((k : ℝ) + 1) * (k + 1 + 2) := by nlinarith
    have h3 : 0 ≤ |jc (k + 1 + 1)| * |(64 : ℝ) ^ k| * (k + 1 + 1) := by positivity
    nlinarith

theorem sqrt_eight : |√8 - 2.8284271247462| ≤ 1 / 10 ^ 12 := by
  rw [abs_le]
  constructor
  · have : (2.8284271247462 - 1 / 10 ^ 12 : ℝ) ≤ √8 := Real.le_sqrt_of_sq_le (by norm_num)
    linarith
  · have : √8 ≤ (2.8284271247462 + 1 / 10 ^ 12 : ℝ) := Real.sqrt_le_iff.2 ⟨by norm_num, by norm_num⟩
    linarith

theorem sqrt_c : |√0.636619772 - 0.7978845605725| ≤ 1 / 10 ^ 12 := by
  rw [abs_le]
  constructor
  · have : (0.7978845605725 - 1 / 10 ^ 12 : ℝ) ≤ √0.636619772 := Real.le_sqrt_of_sq_le (by norm_num)
    linarith
  · have : √0.636619772 ≤ (0.7978845605725 + 1 / 10 ^ 12 : ℝ) := Real.sqrt_le_iff.2 ⟨by norm_num, by norm_num⟩
    linarith

/-- A product of two approximate numbers. -/
theorem mul_approx {x y a b ex ey : ℝ} (hx : |x - a| ≤ ex) (hy : |y - b| ≤ ey) : |x * y - a * b| ≤ |a| * ey + |b| * ex + ex * ey := by
  have e : x * y - a * b = a * (y - b) + b * (x - a) + (x - a) * (y - b) := by ring
  rw [e]
  have h1 : |(x - a) * (y - b)| ≤ ex * ey := by
    rw [abs_mul]; exact mul_le_mul hx hy (abs_nonneg _) ((abs_nonneg _).trans hx)
  have h2 : |a * (y - b)| ≤ |a| * ey := by rw [abs_mul]; exact mul_le_mul_of_nonneg_left hy (abs_nonneg _)
  have h3 : |b * (x - a)| ≤ |b| * ex := by rw [abs_mul]; exact mul_le_mul_of_nonneg_left hx (abs_nonneg _)
  calc _ ≤ |a * (y - b) + b * (x - a)| + |(x - a) * (y - b)| := abs_add_le _ _
    _ ≤ |a * (y - b)| + |b * (x - a)| + |(x - a) * (y - b)| := by linarith [abs_add_le (a * (y - b)) (b * (x - a))]
    _ ≤ _ := by linarith

/-- The asymptotic form, times `√x`, and its slope. -/
noncomputable def vT (x : ℝ) : ℝ := √0.636619772 * (cos (x - 2.356194491) * pA x⁻¹ - sin (x - 2.356194491) * pB x⁻¹)
noncomputable def vT' (x : ℝ) : ℝ :=
  √0.636619772 * (cos (x - 2.356194491) * (pA1 x⁻¹ - pB x⁻¹) - sin (x - 2.356194491) * (pA x⁻¹ + pB1 x⁻¹))

/-- `√x J₁(x)` and its slope. -/
noncomputable def uJ (x : ℝ) : ℝ := √x * J1 x
noncomputable def uJ' (x : ℝ) : ℝ := √x * (J1' x + J1 x / (2 * x))

theorem pA_eight : pA (8 : ℝ)⁻¹ = 1.001798103218195 := by norm_num [pA, tailP]
theorem pA1_eight : pA1 (8 : ℝ)⁻¹ = -0.0004417833206315 := by norm_num [pA1]
theorem pB_eight : pB (8 : ℝ)⁻¹ = 0.046682403559338 := by norm_num [pB, tailQ]
theorem pB1_eight : pB1 (8 : ℝ)⁻¹ = -0.00578890184264975 := by norm_num [pB1]

/-- At 8 the values agree … -/
theorem value_eight : |uJ 8 - vT 8| ≤ 1 / 10 ^ 8 := by
  have e1 : uJ 8 = √8 * (8 * jq 64) := by rw [uJ, J1]; norm_num
  have hj : |8 * jq 64 - 8 * 0.02932954335674| ≤ 16 / 10 ^ 11 := by
    rw [← mul_sub, abs_mul, abs_of_pos (by norm_num : (0:ℝ) < 8)]
    linarith [jq_eight]
  have h1 := mul_approx sqrt_eight hj
  have hc := cos_eight
  have hs := sin_eight
  have h2 : |(cos (8 - 2.356194491) * pA 8⁻¹ - sin (8 - 2.356194491) * pB 8⁻¹) -
      (0.8024659852972 * 1.001798103218195 + 0.5966978652894 * 0.046682403559338)| ≤ 2 / 10 ^ 10 := by
    rw [pA_eight, pB_eight]
    rw [abs_le] at hc hs ⊢
    constructor <;> linarith [hc.1, hc.2, hs.1, hs.2]
  have h3 := mul_approx sqrt_c h2
  rw [e1, vT]
  rw [abs_le] at h1 h3 ⊢
  norm_num [abs_of_pos] at h1 h3 ⊢
  constructor <;> linarith [h1.1, h1.2, h3.1, h3.2]

/-- … and the slopes agree. -/
theorem slope_eight : |uJ' 8 - vT' 8| ≤ 1 / 10 ^ 8 := by
  have e1 : uJ' 8 = √8 * (3 / 2 * jq 64 + 128 * jq1 64) := by
    rw [uJ', J1', J1]; norm_num; ring
  have hj : |3 / 2 * jq 64 + 128 * jq1 64 - (3 / 2 * 0.02932954335674 + 128 * 0.000882747815813)| ≤ 2 / 10 ^ 10 := by
    have a := jq_eight
    have b := jq1_eight
    rw [abs_le] at a b ⊢
    constructor <;> linarith [a.1, a.2, b.1, b.2]
  have h1 := mul_approx sqrt_eight hj
  have hc := cos_eight
  have hs := sin_eight
  have h2 : |(cos (8 - 2.356194491) * (pA1 8⁻¹ - pB 8⁻¹) - sin (8 - 2.356194491) * (pA 8⁻¹ + pB1 8⁻¹)) -
      (0.8024659852972 * (-0.0004417833206315 - 0.046682403559338) + 0.5966978652894 * (1.001798103218195 - 0.00578890184264975))| ≤ 2 / 10 ^ 10 := by
    rw [pA_eight, pB_eight, pA1_eight, pB1_eight]
    rw [abs_le] at hc hs ⊢
    constructor <;> linarith [hc.1, hc.2, hs.1, hs.2]
  have h3 := mul_approx sqrt_c h2
  rw [e1, vT']
  rw [abs_le] at h1 h3 ⊢
  norm_num [abs_of_pos] at h1 h3 ⊢
  constructor <;> linarith [h1.1, h1.2, h3.1, h3.2]

end Huira.Airy
