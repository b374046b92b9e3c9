import Mathlib.Algebra.Order.Field.Rat
import Mathlib.Algebra.Order.Field.Power
import Mathlib.Data.Int.Log
import Mathlib.Algebra.Order.Round
import Mathlib.Data.Rat.Floor
import Mathlib.Tactic.Linarith
import Mathlib.Tactic.Ring
import Mathlib.Tactic.NormNum
import Mathlib.Tactic.Positivity
import Mathlib.Tactic.FieldSimp
/-!
# Single-precision rounding

A specification of IEEE-754 `float` rounding used where a property is about rounding: the result is representable
(24-bit significand) and no representable number is nearer. Ties may go either way, the exponent range is unbounded
(no overflow, no subnormals). `float32_exists` shows that such a rounding exists.
-/
namespace Huira.Num

/-- A number with a significand of at most 24 bits. -/
def Representable (x : ℚ) : Prop := ∃ n k : ℤ, |n| ≤ 2 ^ 24 ∧ x = n * 2 ^ k

/-- Round to nearest. -/
structure IsRounding (fl : ℚ → ℚ) : Prop where
  repr : ∀ x, Representable (fl x)
  nearest : ∀ x y, Representable y → |fl x - x| ≤ |y - x|

theorem IsRounding.exact {fl : ℚ → ℚ} (h : IsRounding fl) {x : ℚ} (hx : Representable x) : fl x = x := by
  have := h.nearest x x hx
  rw [sub_self, abs_zero] at this
  exact sub_eq_zero.1 (abs_eq_zero.1 (le_antisymm this (abs_nonneg _)))

theorem representable_int (n : ℤ) (h : |n| ≤ 2 ^ 24) : Representable (n : ℚ) := ⟨n, 0, h, by simp⟩
theorem representable_int_mul (n : ℤ) (k : ℕ) (h : |n| ≤ 2 ^ 24) : Representable ((n * 2 ^ k : ℤ) : ℚ) :=
  ⟨n, k, h, by push_cast; rw [zpow_natCast]⟩

/-- Rounding a number that is not representable exactly costs at most one part in 2^24. -/
theorem IsRounding.rel {fl : ℚ → ℚ} (h : IsRounding fl) (x : ℚ) : |fl x - x| ≤ |x| / 2 ^ 24 := by
  rcases eq_or_ne x 0 with rfl | hx
  · have := h.exact (x := 0) ⟨0, 0, by norm_num, by simp⟩
    rw [this]; simp
  · -- e with 2^e ≤ |x| < 2^(e+1)
    have hpos : 0 < |x| := abs_pos.2 hx
    obtain ⟨e, he⟩ : ∃ e, e = Int.log 2 |x| := ⟨_, rfl⟩
    have h1 : (2 : ℚ) ^ e ≤ |x| := by rw [he]; exact_mod_cast Int.zpow_log_le_self (b := 2) (by norm_num) hpos
    have h2 : |x| < (2 : ℚ) ^ (e + 1) := by rw [he]; exact_mod_cast Int.lt_zpow_succ_log_self (b := 2) (by norm_num) |x|
    have hs : (0 : ℚ) < 2 ^ (e - 23) := by positivity
    have hr := abs_sub_round (x / 2 ^ (e - 23))
    -- candidate
    have hn : |(round (x / 2 ^ (e - 23)) : ℤ)| ≤ 2 ^ 24 := by
      have hlt : |x / 2 ^ (e - 23)| < 2 ^ 24 := by
        rw [abs_div, abs_of_pos hs, div_lt_iff₀ hs]
        calc |x| < 2 ^ (e + 1) := h2
          _ = 2 ^ 24 * 2 ^ (e - 23) := by
            rw [show (2 : ℚ) ^ 24 = 2 ^ (24 : ℤ) by norm_num, ← zpow_add₀ (by norm_num : (2 : ℚ) ≠ 0)]; congr 1; ring
      have hb : |((round (x / 2 ^ (e - 23)) : ℤ) : ℚ)| < 2 ^ 24 + 1 := by
        have := abs_sub_abs_le_abs_sub ((round (x / 2 ^ (e - 23)) : ℤ) : ℚ) (x / 2 ^ (e - 23))
        rw [abs_sub_comm] at this
        linarith
      have hb' : ((|round (x / 2 ^ (e - 23))| : ℤ) : ℚ) < ((2 ^ 24 + 1 : ℤ) : ℚ) := by
        rw [Int.cast_abs]; push_cast; norm_num at hb; exact hb
      have := Int.cast_lt.1 hb'
      omega
    have hcand := h.nearest x ((round (x / 2 ^ (e - 23)) : ℤ) * 2 ^ (e - 23)) ⟨_, _, hn, rfl⟩
    have hc2 : |((round (x / 2 ^ (e - 23)) : ℤ) : ℚ) * 2 ^ (e - 23) - x| ≤ 1 / 2 * 2 ^ (e - 23) := by
      have : ((round (x / 2 ^ (e - 23)) : ℤ) : ℚ) * 2 ^ (e - 23) - x =
          (((round (x / 2 ^ (e - 23)) : ℤ) : ℚ) - x / 2 ^ (e - 23)) * 2 ^ (e - 23) := by
        field_simp
      rw [this, abs_mul, abs_of_pos hs, abs_sub_comm]
      exact mul_le_mul_of_nonneg_right hr hs.le
    have hfin : 1 / 2 * (2 : ℚ) ^ (e - 23) = 2 ^ e / 2 ^ 24 := by
      rw [show (2 : ℚ) ^ 24 = 2 ^ (24 : ℤ) by norm_num, ← zpow_sub₀ (by norm_num : (2 : ℚ) ≠ 0),
        show (1 / 2 : ℚ) = 2 ^ (-1 : ℤ) by norm_num, ← zpow_add₀ (by norm_num : (2 : ℚ) ≠ 0)]
      congr 1; ring
    calc |fl x - x| ≤ _ := hcand
      _ ≤ _ := hc2
      _ = 2 ^ e / 2 ^ 24 := hfin
      _ ≤ |x| / 2 ^ 24 := by gcongr

/-- Rounding half up on the grid of the operand's binade. -/
def float32 (x : ℚ) : ℚ := (round (x / 2 ^ (Int.log 2 |x| - 23)) : ℤ) * 2 ^ (Int.log 2 |x| - 23)

theorem round_nearest_int (x : ℚ) (m : ℤ) : |((round x : ℤ) : ℚ) - x| ≤ |(m : ℚ) - x| := by
  rw [abs_sub_comm, abs_sub_comm (m : ℚ)]
  exact round_le x m

/-- A rounding in this sense exists. -/
theorem float32_exists : IsRounding float32 := by
  have key : ∀ x : ℚ, x ≠ 0 → Representable (float32 x) ∧ ∀ y, Representable y → |float32 x - x| ≤ |y - x| := by
    intro x hx
    have hpos : 0 < |x| := abs_pos.2 hx
    unfold float32
    obtain ⟨e, he⟩ : ∃ e, e = Int.log 2 |x| := ⟨_, rfl⟩
    rw [← he]
    have h1 : (2 : ℚ) ^ e ≤ |x| := by rw [he]; exact_mod_cast Int.zpow_log_le_self (b := 2) (by norm_num) hpos
    have h2 : |x| < (2 : ℚ) ^ (e + 1) := by rw [he]; exact_mod_cast Int.lt_zpow_succ_log_self (b := 2) (by norm_num) |x|
    have hs : (0 : ℚ) < 2 ^ (e - 23) := by positivity
    have hscale : ∀ m : ℤ, |(m : ℚ) * 2 ^ (e - 23) - x| = |(m : ℚ) - x / 2 ^ (e - 23)| * 2 ^ (e - 23) := by
      intro m
      rw [show (m : ℚ) * 2 ^ (e - 23) - x = ((m : ℚ) - x / 2 ^ (e - 23)) * 2 ^ (e - 23) by field_simp,
        abs_mul, abs_of_pos hs]
    have hgrid : ∀ m : ℤ, |((round (x / 2 ^ (e - 23)) : ℤ) : ℚ) * 2 ^ (e - 23) - x| ≤ |(m : ℚ) * 2 ^ (e - 23) - x| := by
      intro m
      rw [hscale, hscale]
      exact mul_le_mul_of_nonneg_right (round_nearest_int _ m) hs.le
    have h24 : (2 : ℚ) ^ (e + 1) = 2 ^ 24 * 2 ^ (e - 23) := by
      rw [show (2 : ℚ) ^ 24 = 2 ^ (24 : ℤ) by norm_num, ← zpow_add₀ (by norm_num : (2 : ℚ) ≠ 0)]; congr 1; ring
    have h23 : (2 : ℚ) ^ e = 2 ^ 23 * 2 ^ (e - 23) := by
      rw [show (2 : ℚ) ^ 23 = 2 ^ (23 : ℤ) by norm_num, ← zpow_add₀ (by norm_num : (2 : ℚ) ≠ 0)]; congr 1; ring
    constructor
    · refine ⟨_, _, ?_, rfl⟩
      have hlt : |x / 2 ^ (e - 23)| < 2 ^ 24 := by
        rw [abs_div, abs_of_pos hs, div_lt_iff₀ hs, ← h24]; exact h2
      have hr := abs_sub_round (x / 2 ^ (e - 23))
      have hb : |((round (x / 2 ^ (e - 23)) : ℤ) : ℚ)| < 2 ^ 24 + 1 := by
        have := abs_sub_abs_le_abs_sub ((round (x / 2 ^ (e - 23)) : ℤ) : ℚ) (x / 2 ^ (e - 23))
        rw [abs_sub_comm] at this
        linarith
      have hb' : ((|round (x / 2 ^ (e - 23))| : ℤ) : ℚ) < ((2 ^ 24 + 1 : ℤ) : ℚ) := by
        rw [Int.cast_abs]; push_cast; norm_num at hb; exact hb
      have := Int.cast_lt.1 hb'
      omega
    · rintro y ⟨n, j, hn, rfl⟩
      by_cases hj : e - 23 ≤ j
      · obtain ⟨d, hd⟩ : ∃ d : ℕ, j = (e - 23) + d := ⟨(j - (e - 23)).toNat, by omega⟩
        have : (n : ℚ) * 2 ^ j = ((n * 2 ^ d : ℤ) : ℚ) * 2 ^ (e - 23) := by
          rw [hd, zpow_add₀ (by norm_num : (2 : ℚ) ≠ 0), zpow_natCast]; push_cast; ring
        rw [this]
        exact hgrid _
      · -- |y| ≤ 2^e ≤ |x|
        have hyle : |(n : ℚ) * 2 ^ j| ≤ 2 ^ e := by
          rw [abs_mul, abs_of_pos (by positivity : (0 : ℚ) < 2 ^ j)]
          have hn' : |(n : ℚ)| ≤ 2 ^ 24 := by rw [← Int.cast_abs]; exact_mod_cast hn
          calc |(n : ℚ)| * 2 ^ j ≤ 2 ^ 24 * 2 ^ j := by gcongr
            _ = 2 ^ (24 + j) := by
              rw [zpow_add₀ (by norm_num : (2 : ℚ) ≠ 0)]; norm_num
            _ ≤ 2 ^ e := zpow_le_zpow_right₀ (by norm_num) (by omega)
        have hge : |x| - 2 ^ e ≤ |(n : ℚ) * 2 ^ j - x| := by
          have := abs_sub_abs_le_abs_sub x ((n : ℚ) * 2 ^ j)
          rw [abs_sub_comm] at this
          linarith
        rcases lt_or_gt_of_ne hx with hneg | hpos'
        · have := hgrid (-(2 ^ 23))
          have e1 : |((-(2 ^ 23) : ℤ) : ℚ) * 2 ^ (e - 23) - x| = |x| - 2 ^ e := by
            rw [abs_of_neg hneg] at h1 ⊢
            push_cast
            rw [abs_of_nonneg (by rw [h23] at h1; linarith), h23]; ring
          rw [e1] at this
          exact this.trans hge
        · have := hgrid (2 ^ 23)
          have e1 : |((2 ^ 23 : ℤ) : ℚ) * 2 ^ (e - 23) - x| = |x| - 2 ^ e := by
            rw [abs_of_pos hpos'] at h1 ⊢
            push_cast
            rw [abs_of_nonpos (by rw [h23] at h1; linarith), h23]; ring
          rw [e1] at this
          exact this.trans hge
  have zero : float32 0 = 0 := by unfold float32; simp
  constructor
  · intro x
    rcases eq_or_ne x 0 with rfl | hx
    · rw [zero]; exact ⟨0, 0, by norm_num, by simp⟩
    · exact (key x hx).1
  · intro x y hy
    rcases eq_or_ne x 0 with rfl | hx
    · rw [zero]; simp
    · exact (key x hx).2 y hy

end Huira.Num
