import Mathlib.Analysis.SpecialFunctions.Integrals.Basic
import Mathlib.MeasureTheory.Integral.DominatedConvergence
import Verif.Camera.Series

/-!
# The diffraction pattern of a circular aperture

The specification of C130: the amplitude of the light diffracted by a circular hole (Fraunhofer's integral over the
hole), and its power series and differential equation.  Nothing here models code.
-/

set_option linter.unusedSimpArgs false

namespace Huira.Airy

open Real MeasureTheory

/-- The amplitude at distance `r` from the axis in the focal plane, of light of wavelength `lam` that passed a circular
hole of diameter `D` and is focused at distance `f`: the average over the hole of the phase factor (its imaginary part
vanishes by symmetry), in polar coordinates `(ρ, φ)` of the hole. -/
noncomputable def fraunhofer (D f lam r : ℝ) : ℝ :=
  (∫ ρ in (0 : ℝ)..(D / 2), ∫ φ in (0 : ℝ)..(2 * π), cos (2 * π / lam * (r / f) * (ρ * sin φ)) * ρ) / (π * (D / 2) ^ 2)

/-- Coefficients of `J₁(x) / x` as a power series in `x²`. -/
noncomputable def jc (k : ℕ) : ℝ := (-1) ^ k / (2 ^ (2 * k + 1) * (k.factorial : ℝ) * ((k + 1).factorial : ℝ))

theorem jc_small : Small jc := by
  intro k
  rw [jc, abs_div, abs_pow, abs_neg, abs_one, one_pow]
  have h1 : (1 : ℝ) ≤ 2 ^ (2 * k + 1) := one_le_pow₀ (by norm_num)
  have h2 : (1 : ℝ) ≤ ((k + 1).factorial : ℝ) := by exact_mod_cast Nat.succ_le_of_lt (Nat.factorial_pos _)
  have h3 : (0 : ℝ) < k.factorial := by positivity
  rw [abs_of_pos (by positivity)]
  apply one_div_le_one_div_of_le h3
  calc (k.factorial : ℝ) = 1 * k.factorial * 1 := by ring
    _ ≤ _ := by gcongr

/-- `J₁(x) / x`, as a function of `x²`. -/
noncomputable def jq (y : ℝ) : ℝ := series jc y

/-- The Bessel function of the first kind of order one, by its power series. -/
noncomputable def J1 (x : ℝ) : ℝ := x * jq (x ^ 2)

/-- Its derivatives in `y`. -/
noncomputable def jq1 (y : ℝ) : ℝ := series (dcoef jc) y
noncomputable def jq2 (y : ℝ) : ℝ := series (dcoef (dcoef jc)) y

theorem jq_deriv (y : ℝ) : HasDerivAt jq (jq1 y) y := jc_small.hasDerivAt y
theorem jq1_deriv (y : ℝ) : HasDerivAt jq1 (jq2 y) y := jc_small.dcoef.hasDerivAt y

theorem jc_succ (k : ℕ) : jc k = -(4 * (k + 1) * (k + 2) * jc (k + 1)) := by
  rw [jc, jc, Nat.factorial_succ (k + 1), Nat.factorial_succ k, show 2 * (k + 1) + 1 = 2 * k + 1 + 2 by ring, pow_add _ (2 * k + 1) 2]
  push_cast
  have : (k.factorial : ℝ) ≠ 0 := by positivity
  have : (k : ℝ) + 1 ≠ 0 := by positivity
  have : (k : ℝ) + 1 + 1 ≠ 0 := by positivity
  field_simp
  ring

/-- The differential equation of the quotient. -/
theorem jq_ode (y : ℝ) : 4 * y * jq2 y + 8 * jq1 y + jq y = 0 := by
  have h0 := jc_small.summable y
  have h1 := jc_small.dcoef.summable y
  have h2 := jc_small.dcoef.dcoef.summable y
  have e2 : y * jq2 y = ∑' k, (k * dcoef jc k) * y ^ k := by
    have hs : Summable fun k : ℕ => ((k : ℝ) * dcoef jc k) * y ^ k := by
      rw [← summable_nat_add_iff 1]
      refine (h2.mul_left y).congr fun k => ?_
      simp only [dcoef]; push_cast; ring
    rw [hs.tsum_eq_zero_add, jq2, series, ← tsum_mul_left]
    simp only [Nat.cast_zero, zero_mul, zero_add]
    exact tsum_congr fun k => by simp only [dcoef]; push_cast; ring
  have hs : Summable fun k : ℕ => ((k : ℝ) * dcoef jc k) * y ^ k := by
    rw [← summable_nat_add_iff 1]
    refine (h2.mul_left y).congr fun k => ?_
    simp only [dcoef]; push_cast; ring
  rw [mul_assoc, e2, jq1, jq, series, series, ← tsum_mul_left, ← tsum_mul_left,
    ← (hs.mul_left 4).tsum_add (h1.mul_left 8), ← ((hs.mul_left 4).add (h1.mul_left 8)).tsum_add h0]
  have : ∀ k : ℕ, 4 * ((k : ℝ) * dcoef jc k * y ^ k) + 8 * (dcoef jc k * y ^ k) + jc k * y ^ k = 0 := by
    intro k
    rw [jc_succ k, dcoef]
    ring
  simp only [this, tsum_zero]

/-- First derivative of the Bessel function. -/
noncomputable def J1' (x : ℝ) : ℝ := jq (x ^ 2) + 2 * x ^ 2 * jq1 (x ^ 2)
/-- Second derivative of the Bessel function. -/
noncomputable def J1'' (x : ℝ) : ℝ := 6 * x * jq1 (x ^ 2) + 4 * x ^ 3 * jq2 (x ^ 2)

theorem J1_deriv (x : ℝ) : HasDerivAt J1 (J1' x) x := by
  have hq := (jq_deriv (x ^ 2)).comp x (hasDerivAt_pow 2 x)
  have := (hasDerivAt_id x).mul hq
  refine this.congr_deriv ?_
  simp only [J1', Function.comp, id]
  push_cast; ring

theorem J1'_deriv (x : ℝ) : HasDerivAt J1' (J1'' x) x := by
  have hq := (jq_deriv (x ^ 2)).comp x (hasDerivAt_pow 2 x)
  have hq1 := (jq1_deriv (x ^ 2)).comp x (hasDerivAt_pow 2 x)
  have := hq.add (((hasDerivAt_pow 2 x).const_mul 2).mul hq1)
  refine this.congr_deriv ?_
  simp only [J1'', Function.comp]
  push_cast; ring

/-- Bessel's differential equation of order one. -/
theorem J1_bessel (x : ℝ) : x ^ 2 * J1'' x + x * J1' x + (x ^ 2 - 1) * J1 x = 0 := by
  have := jq_ode (x ^ 2)
  simp only [J1'', J1', J1]
  linear_combination x ^ 3 * this

/-! ### The integral over the hole -/

theorem sin_product (n : ℕ) : (∏ i ∈ Finset.range n, (2 * (i : ℝ) + 1) / (2 * i + 2)) = ((2 * n).factorial : ℝ) / (4 ^ n * (n.factorial : ℝ) ^ 2) := by
  induction n with
  | zero => simp
  | succ n ih =>
    rw [Finset.prod_range_succ, ih, show 2 * (n + 1) = 2 * n + 1 + 1 by ring, Nat.factorial_succ (2 * n + 1),
      Nat.factorial_succ (2 * n), Nat.factorial_succ n]
    push_cast
    have : (n.factorial : ℝ) ≠ 0 := by positivity
    have : (n : ℝ) + 1 ≠ 0 := by positivity
    field_simp
    ring

theorem sin_even (n : ℕ) : (∫ φ in (0 : ℝ)..(2 * π), sin φ ^ (2 * n)) = 2 * π * (((2 * n).factorial : ℝ) / (4 ^ n * (n.factorial : ℝ) ^ 2)) := by
  have hc : ∀ a b : ℝ, IntervalIntegrable (fun φ => sin φ ^ (2 * n)) volume a b :=
    fun a b => (Continuous.intervalIntegrable (by fun_prop) a b)
  rw [← intervalIntegral.integral_add_adjacent_intervals (hc 0 π) (hc π (2 * π))]
  have e : (∫ φ in π..(2 * π), sin φ ^ (2 * n)) = ∫ φ in (0 : ℝ)..π, sin φ ^ (2 * n) := by
    have := intervalIntegral.integral_comp_add_right (a := 0) (b := π) (fun φ => sin φ ^ (2 * n)) π
    rw [zero_add, ← two_mul] at this
    rw [← this]
    refine intervalIntegral.integral_congr fun φ _ => ?_
    simp only [sin_add_pi]
    rw [pow_mul, pow_mul, neg_sq]
  rw [e, integral_sin_pow_even, sin_product]
  ring

/-- Coefficients of `J₀`. -/
noncomputable def zc (k : ℕ) : ℝ := (-1) ^ k / (4 ^ k * (k.factorial : ℝ) ^ 2)

/-- The integral along a circle of the hole. -/
theorem circle_integral (b : ℝ) : (∫ φ in (0 : ℝ)..(2 * π), cos (b * sin φ)) = 2 * π * series zc (b ^ 2) := by
  let f : ℕ → C(ℝ, ℝ) := fun k => ⟨fun φ => (-1) ^ k * (b * sin φ) ^ (2 * k) / ((2 * k).factorial : ℝ), by fun_prop⟩
  have hsum : Summable fun k => ‖(f k).restrict (⟨Set.uIcc 0 (2 * π), isCompact_uIcc⟩ : TopologicalSpace.Compacts ℝ)‖ := by
    have hg : Summable fun k : ℕ => |b| ^ (2 * k) / ((2 * k).factorial : ℝ) :=
      (Real.summable_pow_div_factorial |b|).comp_injective (i := fun k : ℕ => 2 * k) (fun _ _ h => by simpa using h)
    refine Summable.of_nonneg_of_le (fun k => norm_nonneg _) (fun k => ?_) hg
    refine (ContinuousMap.norm_le _ (by positivity)).2 fun φ => ?_
    simp only [f, ContinuousMap.restrict_apply, ContinuousMap.coe_mk, Real.norm_eq_abs]
    rw [abs_div, abs_mul, abs_pow, abs_neg, abs_one, one_pow, one_mul, abs_pow, abs_mul, Nat.abs_cast]
    have : |sin (φ : ℝ)| ≤ 1 := abs_sin_le_one _
    have h2 : |b| * |sin (φ : ℝ)| ≤ |b| := by nlinarith [abs_nonneg b]
    gcongr
  have h := intervalIntegral.hasSum_intervalIntegral_of_summable_norm hsum
  have e1 : (∫ φ in (0 : ℝ)..(2 * π), ∑' k, f k φ) = ∫ φ in (0 : ℝ)..(2 * π), cos (b * sin φ) := by
    refine intervalIntegral.integral_congr fun φ _ => ?_
    exact (Real.hasSum_cos (b * sin φ)).tsum_eq
  rw [← e1, ← h.tsum_eq, series, ← tsum_mul_left]
  refine tsum_congr fun k => ?_
  have : (∫ φ in (0 : ℝ)..(2 * π), f k φ) = (-1) ^ k * b ^ (2 * k) / ((2 * k).factorial : ℝ) * ∫ φ in (0 : ℝ)..(2 * π), sin φ ^ (2 * k) := by
    rw [← intervalIntegral.integral_const_mul]
    refine intervalIntegral.integral_congr fun φ _ => ?_
    simp only [f, ContinuousMap.coe_mk, mul_pow]
    ring
  rw [this, sin_even, zc]
  have : ((2 * k).factorial : ℝ) ≠ 0 := by positivity
  have : (k.factorial : ℝ) ≠ 0 := by positivity
  rw [← pow_mul]
  field_simp

theorem zc_series (y : ℝ) : series zc y = 2 * jq y + 2 * y * jq1 y := by
  have h0 := jc_small.summable y
  have h1 := jc_small.dcoef.summable y
  have hs : Summable fun k : ℕ => ((k : ℝ) * jc k) * y ^ k := by
    rw [← summable_nat_add_iff 1]
    refine (h1.mul_left y).congr fun k => ?_
    simp only [dcoef]; push_cast; ring
  have e : y * jq1 y = ∑' k : ℕ, ((k : ℝ) * jc k) * y ^ k := by
    rw [hs.tsum_eq_zero_add, jq1, series, ← tsum_mul_left]
    simp only [Nat.cast_zero, zero_mul, zero_add]
    exact tsum_congr fun k => by simp only [dcoef]; push_cast; ring
  rw [mul_assoc, e, jq, series, series, ← tsum_mul_left, ← tsum_mul_left, ← (h0.mul_left 2).tsum_add (hs.mul_left 2)]
  refine tsum_congr fun k => ?_
  have : zc k = 2 * (k + 1) * jc k := by
    rw [zc, jc, Nat.factorial_succ, pow_succ (2 : ℝ) (2 * k), pow_mul (2 : ℝ) 2 k]
    have : (k.factorial : ℝ) ≠ 0 := by positivity
    have : (k : ℝ) + 1 ≠ 0 := by positivity
    push_cast
    field_simp
    norm_num
  rw [this]; ring

/-- The integral over the hole. -/
theorem hole_integral (a R : ℝ) :
    (∫ ρ in (0 : ℝ)..R, ∫ φ in (0 : ℝ)..(2 * π), cos (a * (ρ * sin φ)) * ρ) = 2 * π * R ^ 2 * jq ((a * R) ^ 2) := by
  have inner : ∀ ρ : ℝ, (∫ φ in (0 : ℝ)..(2 * π), cos (a * (ρ * sin φ)) * ρ) = 2 * π * ρ * (2 * jq ((a * ρ) ^ 2) + 2 * (a * ρ) ^ 2 * jq1 ((a * ρ) ^ 2)) := by
    intro ρ
    rw [intervalIntegral.integral_mul_const]
    have := circle_integral (a * ρ)
    simp only [mul_assoc] at this ⊢
    rw [this, zc_series]; ring
  simp only [inner]
  have hd : ∀ ρ : ℝ, HasDerivAt (fun ρ => 2 * π * ρ ^ 2 * jq ((a * ρ) ^ 2))
      (2 * π * ρ * (2 * jq ((a * ρ) ^ 2) + 2 * (a * ρ) ^ 2 * jq1 ((a * ρ) ^ 2))) ρ := by
    intro ρ
    have h1 : HasDerivAt (fun ρ : ℝ => (a * ρ) ^ 2) (2 * (a * ρ) * a) ρ := by
      have := ((hasDerivAt_id ρ).const_mul a).pow 2
      refine this.congr_deriv ?_
      simp
    have h2 := (jq_deriv ((a * ρ) ^ 2)).comp ρ h1
    have h3 := ((hasDerivAt_pow 2 ρ).const_mul (2 * π)).mul h2
    refine h3.congr_deriv ?_
    simp only [Function.comp]
    push_cast
    ring
  have c1 : Continuous jq := continuous_iff_continuousAt.2 fun y => (jq_deriv y).continuousAt
  have c2 : Continuous jq1 := continuous_iff_continuousAt.2 fun y => (jq1_deriv y).continuousAt
  rw [intervalIntegral.integral_eq_sub_of_hasDerivAt (fun ρ _ => hd ρ) (Continuous.intervalIntegrable (by fun_prop) _ _)]
  ring

/-- **Airy's formula**: the amplitude is `2 J₁(x) / x` with `x = π D r / (λ f)`. -/
theorem fraunhofer_eq {D f lam r : ℝ} (hD : D ≠ 0) :
    fraunhofer D f lam r = 2 * jq ((π * D * r / (lam * f)) ^ 2) := by
  rw [fraunhofer, hole_integral]
  have : π * (D / 2) ^ 2 ≠ 0 := by positivity
  rw [div_eq_iff this]
  have e : 2 * π / lam * (r / f) * (D / 2) = π * D * r / (lam * f) := by
    by_cases h : lam = 0
    · simp [h]
    by_cases h' : f = 0
    · simp [h']
    field_simp
  rw [e]; ring

end Huira.Airy
