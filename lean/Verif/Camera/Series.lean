import Mathlib.Analysis.Calculus.SmoothSeries
import Mathlib.Analysis.SpecialFunctions.Exponential
import Mathlib.Analysis.SpecialFunctions.Trigonometric.Series
import Mathlib.Analysis.SpecificLimits.Normed
import Mathlib.Analysis.Calculus.Deriv.Pow

/-!
# Power series with factorially small coefficients

Tools for the Bessel function of C130.  Nothing here models code.
-/

namespace Huira.Airy

/-- Coefficients no larger than `1 / k!`. -/
def Small (c : ℕ → ℝ) : Prop := ∀ k, |c k| ≤ 1 / (k.factorial : ℝ)

/-- The sum of the power series. -/
noncomputable def series (c : ℕ → ℝ) (y : ℝ) : ℝ := ∑' k, c k * y ^ k

/-- The coefficients of the derivative. -/
def dcoef (c : ℕ → ℝ) : ℕ → ℝ := fun k => (k + 1) * c (k + 1)

theorem Small.dcoef {c : ℕ → ℝ} (h : Small c) : Small (dcoef c) := by
  intro k
  have := h (k + 1)
  have hp : (0 : ℝ) < k + 1 := by positivity
  rw [Airy.dcoef, abs_mul, abs_of_pos hp]
  rw [Nat.factorial_succ] at this
  push_cast at this
  have h2 : (0 : ℝ) < k.factorial := by positivity
  rw [le_div_iff₀ h2]
  rw [le_div_iff₀ (by positivity)] at this
  linarith

theorem Small.summable {c : ℕ → ℝ} (h : Small c) (y : ℝ) : Summable fun k => c k * y ^ k := by
  refine Summable.of_norm_bounded (g := fun k => |y| ^ k / (k.factorial : ℝ)) (Real.summable_pow_div_factorial |y|) fun k => ?_
  rw [Real.norm_eq_abs, abs_mul, abs_pow]
  have := mul_le_mul_of_nonneg_right (h k) (pow_nonneg (abs_nonneg y) k)
  calc _ ≤ _ := this
    _ = _ := by ring

theorem Small.hasDerivAt {c : ℕ → ℝ} (h : Small c) (y : ℝ) : HasDerivAt (series c) (series (Airy.dcoef c) y) y := by
  have key : HasDerivAt (fun z => ∑' k, c k * z ^ k) (∑' k, c k * (k * y ^ (k - 1))) y := by
    have hR : (0 : ℝ) < |y| + 1 := by positivity
    have hd : ∀ (k : ℕ) (z : ℝ), HasDerivAt (fun z : ℝ => c k * z ^ k) (c k * (k * z ^ (k - 1))) z :=
      fun k z => (hasDerivAt_pow k z).const_mul (c k)
    have hy : y ∈ Metric.ball (0 : ℝ) (|y| + 1) := by simp [Metric.mem_ball]
    refine hasDerivAt_tsum_of_isPreconnected (t := Metric.ball (0 : ℝ) (|y| + 1)) (y₀ := 0) (y := y)
      (g := fun (k : ℕ) (z : ℝ) => c k * z ^ k) (g' := fun (k : ℕ) (z : ℝ) => c k * (k * z ^ (k - 1)))
      (u := fun k : ℕ => |c k| * (k * (|y| + 1) ^ (k - 1))) ?_ Metric.isOpen_ball
      (convex_ball _ _).isPreconnected (fun k z _ => hd k z) ?_ (Metric.mem_ball_self hR)
      (h.summable 0) hy
    · rw [← summable_nat_add_iff 1]
      refine Summable.of_nonneg_of_le (fun k => by positivity) (fun k => ?_) (Real.summable_pow_div_factorial (|y| + 1))
      have := h.dcoef k
      rw [Airy.dcoef, abs_mul, abs_of_pos (show (0 : ℝ) < k + 1 by positivity)] at this
      push_cast
      have := mul_le_mul_of_nonneg_right this (pow_nonneg hR.le k)
      calc _ = _ := by ring
        _ ≤ _ := this
        _ = _ := by ring
    · intro k z hz
      rw [Real.norm_eq_abs, abs_mul, abs_mul, abs_pow, Nat.abs_cast]
      have hz : |z| ≤ |y| + 1 := by
        rw [mem_ball_zero_iff, Real.norm_eq_abs] at hz; exact hz.le
      gcongr
  have e : (∑' k, c k * (k * y ^ (k - 1))) = series (Airy.dcoef c) y := by
    have hs : Summable fun k : ℕ => c k * ((k : ℝ) * y ^ (k - 1)) := by
      rw [← summable_nat_add_iff 1]
      refine (h.dcoef.summable y).congr fun k => ?_
      simp only [Airy.dcoef]; push_cast; ring
    rw [hs.tsum_eq_zero_add]
    simp only [Nat.cast_zero, zero_mul, mul_zero, zero_add, series]
    exact tsum_congr fun k => by simp only [Airy.dcoef]; push_cast; ring
  rw [← e]
  exact key

/-- When each term is at most half the one before, the rest of the series is at most twice its first term. -/
theorem tail_le {f : ℕ → ℝ} (n : ℕ) (hr : ∀ k ≥ n, |f (k + 1)| ≤ |f k| / 2) :
    Summable f ∧ |(∑' k, f k) - ∑ k ∈ Finset.range n, f k| ≤ 2 * |f n| := by
  have hb : ∀ j, |f (n + j)| ≤ |f n| * (1 / 2) ^ j := by
    intro j
    induction j with
    | zero => simp
    | succ j ih =>
      have := hr (n + j) (by omega)
      rw [show n + (j + 1) = n + j + 1 by omega, pow_succ]
      calc _ ≤ _ := this
        _ ≤ _ := by linarith
  have hg : Summable fun j : ℕ => |f n| * (1 / 2 : ℝ) ^ j :=
    (summable_geometric_of_lt_one (by norm_num) (by norm_num)).mul_left _
  have hs : Summable fun j => f (j + n) :=
    Summable.of_norm_bounded hg fun j => by rw [Real.norm_eq_abs, add_comm j n]; exact hb j
  have hf : Summable f := (summable_nat_add_iff n).1 hs
  refine ⟨hf, ?_⟩
  rw [← hf.sum_add_tsum_nat_add n, add_sub_cancel_left]
  have h1 : |∑' j, f (j + n)| ≤ ∑' j, |f n| * (1 / 2 : ℝ) ^ j := by
    rw [← Real.norm_eq_abs]
    exact tsum_of_norm_bounded hg.hasSum fun j => by rw [Real.norm_eq_abs, add_comm j n]; exact hb j
  rw [tsum_mul_left, tsum_geometric_of_lt_one (by norm_num) (by norm_num)] at h1
  norm_num at h1
  linarith

end Huira.Airy
