import Verif.Camera.Airy
import Verif.Camera.Bessel
import Verif.Camera.PolyBound

/-!
# Accuracy of the Bessel function below 8

The rational approximation against the power series of `J₁(x) / x` on `0 ≤ x < 8`.
-/

set_option linter.unusedSimpArgs false

namespace Huira.Airy

open Real

/-- The numerator times `10^8`. -/
def numZ : List ℤ := [7236261423200000000, -789505923500000000, 24239685310000000, -297261143900000, 1570448260000, -3016036606]
/-- The denominator times `10^8`. -/
def denZ : List ℤ := [14472522844200000000, 230053517800000000, 1858330474000000, 9944743394000, 37699913970, 100000000]

theorem num1_ev (y : ℝ) : num1 y * 10 ^ 8 = ev numZ y := by
  simp only [numZ, ev_cons, ev_nil, num1]; norm_num; ring
theorem den1_ev (y : ℝ) : den1 y * 10 ^ 8 = ev denZ y := by
  simp only [denZ, ev_cons, ev_nil, den1]; norm_num; ring

/-- The common denominator of the first 18 coefficients. -/
def bigK : ℤ := 2 ^ 35 * (Nat.factorial 17 : ℕ) * (Nat.factorial 18 : ℕ)
/-- The coefficients times `bigK`. -/
def jZ (k : ℕ) : ℤ := (-1) ^ k * (bigK / (2 ^ (2 * k + 1) * (k.factorial : ℤ) * ((k + 1).factorial : ℤ)))

theorem jZ_exact : ∀ k < 18, jZ k * (2 ^ (2 * k + 1) * (k.factorial : ℤ) * ((k + 1).factorial : ℤ)) = (-1) ^ k * bigK := by
  decide +kernel

theorem jZ_jc {k : ℕ} (hk : k < 18) : (jZ k : ℝ) = bigK * jc k := by
  have h := congrArg (fun z : ℤ => (z : ℝ)) (jZ_exact k hk)
  push_cast at h
  rw [jc]
  have : (0 : ℝ) < 2 ^ (2 * k + 1) * (k.factorial : ℝ) * ((k + 1).factorial : ℝ) := by positivity
  rw [mul_div_assoc', eq_div_iff this.ne', h]; ring

/-- `10^8 K (num - den · Σ)`. -/
def diffZ : List ℤ := padd (pscale bigK numZ) (pscale (-1) (pmul denZ ((List.range 18).map jZ)))

theorem diffZ_bound : ∀ i : ℕ, i < 32 → pabs (pshift (2 * i + 1) diffZ) ≤ 252 * 10 ^ 8 * bigK.natAbs := by decide +kernel

theorem bigK_pos : (0 : ℝ) < bigK := by
  have : (0 : ℤ) < bigK := by decide +kernel
  exact_mod_cast this

theorem diff_bound {y : ℝ} (h0 : 0 ≤ y) (h1 : y < 64) :
    |num1 y - den1 y * ∑ k ∈ Finset.range 18, jc k * y ^ k| ≤ 252 := by
  have h := ev_bound (l := diffZ) (n := 32) (b := 252 * 10 ^ 8 * bigK.natAbs) diffZ_bound h0 (by norm_num; exact h1)
  have e : ev diffZ y = 10 ^ 8 * bigK * (num1 y - den1 y * ∑ k ∈ Finset.range 18, jc k * y ^ k) := by
    rw [diffZ, ev_padd, ev_pscale, ev_pscale, ev_pmul, ev_range, ← num1_ev, ← den1_ev]
    have : ∑ k ∈ Finset.range 18, (jZ k : ℝ) * y ^ k = bigK * ∑ k ∈ Finset.range 18, jc k * y ^ k := by
      rw [Finset.mul_sum]
      exact Finset.sum_congr rfl fun k hk => by rw [jZ_jc (Finset.mem_range.1 hk)]; ring
    rw [this]; push_cast; ring
  have hK : ((bigK.natAbs : ℕ) : ℝ) = bigK := by
    rw [Nat.cast_natAbs, abs_of_pos (by decide +kernel)]
  rw [e, abs_mul, abs_of_pos (mul_pos (by norm_num) bigK_pos)] at h
  push_cast at h
  rw [hK] at h
  have hp := bigK_pos
  have : (10 ^ 8 * (bigK : ℝ)) * |num1 y - den1 y * ∑ k ∈ Finset.range 18, jc k * y ^ k| ≤ (10 ^ 8 * (bigK : ℝ)) * 252 := by linarith
  exact le_of_mul_le_mul_left this (by positivity)

theorem den1_large {y : ℝ} (h0 : 0 ≤ y) : 144725228442 ≤ den1 y := by
  unfold den1
  have : 0 ≤ y * (2300535178.0 + y * (18583304.74 + y * (99447.43394 + y * (376.9991397 + y * 1.0)))) := by positivity
  norm_num at this ⊢
  linarith

/-- Each term of the series of `J₁(x) / x` is at most half the one before, from the `n`-th on. -/
theorem jc_ratio {y : ℝ} (h0 : 0 ≤ y) (h1 : y ≤ 64) {k : ℕ} (hk : 5 ≤ k) : |jc (k + 1) * y ^ (k + 1)| ≤ |jc k * y ^ k| / 2 := by
  rw [jc_succ k, abs_mul, abs_mul, abs_neg, abs_mul, abs_of_nonneg (pow_nonneg h0 _), abs_of_nonneg (pow_nonneg h0 _), pow_succ]
  have h5 : (5 : ℝ) ≤ k := by exact_mod_cast hk
  rw [abs_of_pos (show (0 : ℝ) < 4 * (k + 1) * (k + 2) by positivity)]
  have h2 : 64 * 2 ≤ 4 * ((k : ℝ) + 1) * (k + 2) := by nlinarith
  have h3 : 0 ≤ |jc (k + 1)| * y ^ k := by positivity
  nlinarith

theorem jq_rest {y : ℝ} (h0 : 0 ≤ y) (h1 : y ≤ 64) : |jq y - ∑ k ∈ Finset.range 18, jc k * y ^ k| ≤ 1 / 10 ^ 11 := by
  have h := (tail_le (f := fun k => jc k * y ^ k) 18 fun k hk => jc_ratio h0 h1 (by omega)).2
  refine (show |jq y - ∑ k ∈ Finset.range 18, jc k * y ^ k| ≤ _ from h).trans ?_
  rw [abs_mul, abs_of_nonneg (pow_nonneg h0 _)]
  have : y ^ 18 ≤ 64 ^ 18 := by gcongr
  have e : |jc 18| = 1 / (2 ^ 37 * (Nat.factorial 18 : ℝ) * (Nat.factorial 19 : ℝ)) := by
    rw [jc, abs_div, abs_pow, abs_neg, abs_one, one_pow, abs_of_pos (by positivity)]
  calc 2 * (|jc 18| * y ^ 18) ≤ 2 * (|jc 18| * 64 ^ 18) := by gcongr
    _ ≤ _ := by rw [e]; norm_num [Nat.factorial]

/-- The quotient used for small arguments is that of the series, to two parts in a thousand million. -/
theorem quotient_error {y : ℝ} (h0 : 0 ≤ y) (h1 : y < 64) : |num1 y / den1 y - jq y| ≤ 2 / 10 ^ 9 := by
  have hd := den1_large h0
  have hp : 0 < den1 y := by linarith
  have h2 := diff_bound h0 h1
  have h3 := jq_rest h0 h1.le
  set s := ∑ k ∈ Finset.range 18, jc k * y ^ k
  have e : num1 y / den1 y - s = (num1 y - den1 y * s) / den1 y := by field_simp
  have h4 : |num1 y / den1 y - s| ≤ 252 / 144725228442 := by
    rw [e, abs_div, abs_of_pos hp]
    exact div_le_div₀ (by norm_num) h2 (by norm_num) hd
  have h5 : |num1 y / den1 y - jq y| ≤ |num1 y / den1 y - s| + |jq y - s| := by
    have := abs_sub_le (num1 y / den1 y) s (jq y)
    rwa [abs_sub_comm s] at this
  calc _ ≤ _ := h5
    _ ≤ 252 / 144725228442 + 1 / 10 ^ 11 := add_le_add h4 h3
    _ ≤ _ := by norm_num

end Huira.Airy
