import Mathlib.Analysis.SpecialFunctions.Trigonometric.Deriv
import Mathlib.Analysis.SpecialFunctions.Sqrt
import Mathlib.Analysis.SpecialFunctions.ExpDeriv
import Mathlib.Analysis.Calculus.Deriv.MeanValue
import Mathlib.Analysis.Complex.ExponentialBounds
import Verif.Camera.AiryCore

/-!
# Accuracy of the Bessel function from 8 on

`√x J₁(x)` satisfies `u'' + (1 - 3/(4x²)) u = 0`; the asymptotic form of the code satisfies it up to a residual of
`6e-7 / x²`, and agrees at `x = 8` with value and slope.  An energy argument bounds the difference for all `x ≥ 8`.
-/

set_option linter.unusedSimpArgs false

namespace Huira.Airy

open Real

/-- Cosine part in `w = 1/x`, and its two derivatives in `x`. -/
noncomputable def pA (w : ℝ) : ℝ := tailP (64 * w ^ 2)
noncomputable def pA1 (w : ℝ) : ℝ :=
  -(2 * (0.183105e-2 * 64) * w ^ 3 + 4 * (-0.3516396496e-4 * 64 ^ 2) * w ^ 5 + 6 * (0.2457520174e-5 * 64 ^ 3) * w ^ 7 +
    8 * (-0.240337019e-6 * 64 ^ 4) * w ^ 9)
noncomputable def pA2 (w : ℝ) : ℝ :=
  6 * (0.183105e-2 * 64) * w ^ 4 + 20 * (-0.3516396496e-4 * 64 ^ 2) * w ^ 6 + 42 * (0.2457520174e-5 * 64 ^ 3) * w ^ 8 +
    72 * (-0.240337019e-6 * 64 ^ 4) * w ^ 10
/-- Sine part in `w = 1/x`, and its two derivatives in `x`. -/
noncomputable def pB (w : ℝ) : ℝ := 8 * w * tailQ (64 * w ^ 2)
noncomputable def pB1 (w : ℝ) : ℝ :=
  -((8 * 0.04687499995) * w ^ 2 + 3 * (-0.2002690873e-3 * 8 ^ 3) * w ^ 4 + 5 * (0.8449199096e-5 * 8 ^ 5) * w ^ 6 +
    7 * (-0.88228987e-6 * 8 ^ 7) * w ^ 8 + 9 * (0.105787412e-6 * 8 ^ 9) * w ^ 10)
noncomputable def pB2 (w : ℝ) : ℝ :=
  2 * (8 * 0.04687499995) * w ^ 3 + 12 * (-0.2002690873e-3 * 8 ^ 3) * w ^ 5 + 30 * (0.8449199096e-5 * 8 ^ 5) * w ^ 7 +
    56 * (-0.88228987e-6 * 8 ^ 7) * w ^ 9 + 90 * (0.105787412e-6 * 8 ^ 9) * w ^ 11

theorem inv_pow_deriv (n : ℕ) {x : ℝ} (hx : x ≠ 0) : HasDerivAt (fun x : ℝ => (x⁻¹) ^ n) (-(n * (x⁻¹) ^ (n + 1))) x := by
  have := (hasDerivAt_inv hx).pow n
  refine this.congr_deriv ?_
  cases n with
  | zero => simp
  | succ n => simp only [Nat.succ_sub_one, Nat.cast_succ, pow_succ]; field_simp

theorem pA_deriv {x : ℝ} (hx : x ≠ 0) : HasDerivAt (fun x : ℝ => pA x⁻¹) (pA1 x⁻¹) x := by
  have h := ((((hasDerivAt_const x (1.0 : ℝ)).add ((inv_pow_deriv 2 hx).const_mul (0.183105e-2 * 64))).add
    ((inv_pow_deriv 4 hx).const_mul (-0.3516396496e-4 * 64 ^ 2))).add ((inv_pow_deriv 6 hx).const_mul (0.2457520174e-5 * 64 ^ 3))).add
    ((inv_pow_deriv 8 hx).const_mul (-0.240337019e-6 * 64 ^ 4))
  refine (h.congr_deriv ?_).congr_of_eventuallyEq (Filter.Eventually.of_forall fun z => ?_)
  · simp only [pA1]; push_cast; ring
  · simp only [pA, tailP, Pi.add_apply]; ring

theorem pA1_deriv {x : ℝ} (hx : x ≠ 0) : HasDerivAt (fun x : ℝ => pA1 x⁻¹) (pA2 x⁻¹) x := by
  have h := (((((inv_pow_deriv 3 hx).const_mul (2 * (0.183105e-2 * 64)))).add
    ((inv_pow_deriv 5 hx).const_mul (4 * (-0.3516396496e-4 * 64 ^ 2)))).add ((inv_pow_deriv 7 hx).const_mul (6 * (0.2457520174e-5 * 64 ^ 3)))).add
    ((inv_pow_deriv 9 hx).const_mul (8 * (-0.240337019e-6 * 64 ^ 4)))
  refine (h.neg.congr_deriv ?_).congr_of_eventuallyEq (Filter.Eventually.of_forall fun z => ?_)
  · simp only [pA2]; push_cast; ring
  · simp only [pA1, Pi.add_apply, Pi.neg_apply]

theorem pB_deriv {x : ℝ} (hx : x ≠ 0) : HasDerivAt (fun x : ℝ => pB x⁻¹) (pB1 x⁻¹) x := by
  have h := (((((inv_pow_deriv 1 hx).const_mul (8 * 0.04687499995)).add ((inv_pow_deriv 3 hx).const_mul (-0.2002690873e-3 * 8 ^ 3))).add
    ((inv_pow_deriv 5 hx).const_mul (0.8449199096e-5 * 8 ^ 5))).add ((inv_pow_deriv 7 hx).const_mul (-0.88228987e-6 * 8 ^ 7))).add
    ((inv_pow_deriv 9 hx).const_mul (0.105787412e-6 * 8 ^ 9))
  refine (h.congr_deriv ?_).congr_of_eventuallyEq (Filter.Eventually.of_forall fun z => ?_)
  · simp only [pB1]; push_cast; ring
  · simp only [pB, tailQ, Pi.add_apply]; ring

theorem pB1_deriv {x : ℝ} (hx : x ≠ 0) : HasDerivAt (fun x : ℝ => pB1 x⁻¹) (pB2 x⁻¹) x := by
  have h := (((((inv_pow_deriv 2 hx).const_mul (8 * 0.04687499995)).add ((inv_pow_deriv 4 hx).const_mul (3 * (-0.2002690873e-3 * 8 ^ 3)))).add
    ((inv_pow_deriv 6 hx).const_mul (5 * (0.8449199096e-5 * 8 ^ 5)))).add ((inv_pow_deriv 8 hx).const_mul (7 * (-0.88228987e-6 * 8 ^ 7)))).add
    ((inv_pow_deriv 10 hx).const_mul (9 * (0.105787412e-6 * 8 ^ 9)))
  refine (h.neg.congr_deriv ?_).congr_of_eventuallyEq (Filter.Eventually.of_forall fun z => ?_)
  · simp only [pB2]; push_cast; ring
  · simp only [pB1, Pi.add_apply, Pi.neg_apply]

/-- The residuals in the cosine and the sine. -/
noncomputable def rC (w : ℝ) : ℝ := pA2 w - 2 * pB1 w - 3 / 4 * w ^ 2 * pA w
noncomputable def rS (w : ℝ) : ℝ := pB2 w + 2 * pA1 w - 3 / 4 * w ^ 2 * pB w

def rcZ : List ℤ := [-53687091200000, 100987935129600, -15898997555200, 654397884800, -7562501103]
def rsZ : List ℤ := [2515533824000000, -664135187824640, 45945392553984, -1150936120672, 9441526521]

theorem rcZ_bound : ∀ i : ℕ, i < 33 → pabs (pshift (2 * i + 1) rcZ) ≤ 27 * 671088640000000 := by decide +kernel
theorem rsZ_bound : ∀ i : ℕ, i < 33 → pabs (pshift (2 * i + 1) rsZ) ≤ 34 * 209715200000000 := by decide +kernel

theorem rC_bound {w : ℝ} (h0 : 0 ≤ w) (h1 : w ≤ 1 / 8) : |rC w| ≤ 2.7e-7 * w ^ 2 := by
  have hz : 4096 * w ^ 2 < 2 * (33 : ℕ) := by push_cast; nlinarith
  have h := ev_bound (l := rcZ) rcZ_bound (by positivity) hz
  have e : 67108864000000000000000 * rC w = ev rcZ (4096 * w ^ 2) * w ^ 2 := by
    simp only [rC, pA, pA2, pB1, tailP, rcZ, ev_cons, ev_nil]; norm_num; ring
  have e2 : rC w = ev rcZ (4096 * w ^ 2) / 67108864000000000000000 * w ^ 2 := by linear_combination e / 67108864000000000000000
  rw [e2, abs_mul, abs_of_nonneg (sq_nonneg w), abs_div, abs_of_pos (show (0:ℝ) < 67108864000000000000000 by norm_num)]
  apply mul_le_mul_of_nonneg_right _ (sq_nonneg w)
  rw [div_le_iff₀ (by norm_num)]
  push_cast at h
  norm_num at h ⊢
  linarith

theorem rS_bound {w : ℝ} (h0 : 0 ≤ w) (h1 : w ≤ 1 / 8) : |rS w| ≤ 4.3e-7 * w ^ 2 := by
  have hz : 4096 * w ^ 2 < 2 * (33 : ℕ) := by push_cast; nlinarith
  have h := ev_bound (l := rsZ) rsZ_bound (by positivity) hz
  have e : 2097152000000000000000 * rS w = ev rsZ (4096 * w ^ 2) * w ^ 3 := by
    simp only [rS, pB, pB2, pA1, tailQ, rsZ, ev_cons, ev_nil]; push_cast; ring
  have e2 : rS w = ev rsZ (4096 * w ^ 2) / 2097152000000000000000 * w * w ^ 2 := by linear_combination e / 2097152000000000000000
  rw [e2, abs_mul, abs_of_nonneg (sq_nonneg w), abs_mul, abs_of_nonneg h0, abs_div, abs_of_pos (show (0:ℝ) < 2097152000000000000000 by norm_num)]
  apply mul_le_mul_of_nonneg_right _ (sq_nonneg w)
  have h2 : |ev rsZ (4096 * w ^ 2)| / 2097152000000000000000 ≤ 3.4e-6 := by
    rw [div_le_iff₀ (by norm_num)]
    push_cast at h
    norm_num at h ⊢
    linarith
  calc _ ≤ 3.4e-6 * (1 / 8) := mul_le_mul h2 h1 h0 (by norm_num)
    _ ≤ _ := by norm_num

end Huira.Airy
