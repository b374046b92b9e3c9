import Mathlib.Analysis.SpecialFunctions.Pow.Real
/-!
# Extended floating-point values

IEEE-754 values as the code's comparisons and arithmetic see them: NaN, the two infinities, and finite values taken as
exact real numbers. Simplifications: no rounding, no overflow of finite arithmetic, no signed zero (a division by zero
takes the sign of the numerator).
-/
namespace Huira

inductive XF where
  | nan
  | ninf
  | pinf
  | fin (x : ℝ)

namespace XF
noncomputable section
open Classical

def isNan : XF → Prop
  | nan => True
  | _ => False
def isInf : XF → Prop
  | ninf => True
  | pinf => True
  | _ => False

/-- `a < b` (false when either is NaN) -/
def lt : XF → XF → Prop
  | nan, _ => False
  | _, nan => False
  | fin a, fin b => a < b
  | ninf, ninf => False
  | ninf, _ => True
  | _, ninf => False
  | pinf, _ => False
  | fin _, pinf => True

/-- `a <= b` (false when either is NaN) -/
def le : XF → XF → Prop
  | nan, _ => False
  | _, nan => False
  | fin a, fin b => a ≤ b
  | ninf, _ => True
  | pinf, pinf => True
  | pinf, _ => False
  | fin _, ninf => False
  | fin _, pinf => True

def add : XF → XF → XF
  | fin a, fin b => fin (a + b)
  | nan, _ => nan
  | _, nan => nan
  | pinf, ninf => nan
  | ninf, pinf => nan
  | pinf, _ => pinf
  | _, pinf => pinf
  | ninf, _ => ninf
  | _, ninf => ninf

def neg : XF → XF
  | fin a => fin (-a)
  | pinf => ninf
  | ninf => pinf
  | nan => nan

/-- infinity with the sign of `x`, NaN for 0 -/
def infTimes (x : ℝ) : XF := if 0 < x then pinf else if x < 0 then ninf else nan

def mul : XF → XF → XF
  | fin a, fin b => fin (a * b)
  | nan, _ => nan
  | _, nan => nan
  | pinf, pinf => pinf
  | pinf, ninf => ninf
  | ninf, pinf => ninf
  | ninf, ninf => pinf
  | pinf, fin b => infTimes b
  | ninf, fin b => neg (infTimes b)
  | fin a, pinf => infTimes a
  | fin a, ninf => neg (infTimes a)

def div : XF → XF → XF
  | fin a, fin b => if b = 0 then infTimes a else fin (a / b)
  | nan, _ => nan
  | _, nan => nan
  | fin _, _ => fin 0
  | pinf, fin b => if b < 0 then ninf else pinf
  | ninf, fin b => if b < 0 then pinf else ninf
  | _, _ => nan

/-- `std::min(a, b)`: `(b < a) ? b : a` -/
def min (a b : XF) : XF := if lt b a then b else a
/-- `std::max(a, b)`: `(a < b) ? b : a` -/
def max (a b : XF) : XF := if lt a b then b else a
/-- `std::clamp(v, lo, hi)`: `v < lo ? lo : hi < v ? hi : v` -/
def clamp (v lo hi : XF) : XF := if lt v lo then lo else if lt hi v then hi else v

/-- finite and positive / non-negative -/
def IsPos (x : XF) : Prop := ∃ r : ℝ, x = fin r ∧ 0 < r
def IsNonneg (x : XF) : Prop := ∃ r : ℝ, x = fin r ∧ 0 ≤ r

/-- `!(x <= 0 || isinf(x) || isnan(x))` is exactly "finite and positive". -/
theorem isPos_iff (x : XF) : IsPos x ↔ ¬ (le x (fin 0) ∨ isInf x ∨ isNan x) := by
  unfold IsPos
  cases x with
  | nan => simp [isNan]
  | ninf => simp [isInf]
  | pinf => simp [isInf]
  | fin r => simp [isInf, isNan, le]

/-- `!(x < 0 || isinf(x) || isnan(x))` is exactly "finite and non-negative". -/
theorem isNonneg_iff (x : XF) : IsNonneg x ↔ ¬ (lt x (fin 0) ∨ isInf x ∨ isNan x) := by
  unfold IsNonneg
  cases x with
  | nan => simp [isNan]
  | ninf => simp [isInf]
  | pinf => simp [isInf]
  | fin r => simp [isInf, isNan, lt]

@[simp] theorem min_fin (a b : ℝ) : XF.min (fin a) (fin b) = fin (Min.min a b) := by
  unfold XF.min
  by_cases h : b < a
  · rw [if_pos (show lt (fin b) (fin a) from h), min_eq_right h.le]
  · rw [if_neg (show ¬ lt (fin b) (fin a) from h), min_eq_left (not_lt.1 h)]

@[simp] theorem max_fin (a b : ℝ) : XF.max (fin a) (fin b) = fin (Max.max a b) := by
  unfold XF.max
  by_cases h : a < b
  · rw [if_pos (show lt (fin a) (fin b) from h), max_eq_right h.le]
  · rw [if_neg (show ¬ lt (fin a) (fin b) from h), max_eq_left (not_lt.1 h)]

@[simp] theorem min_pinf (b : ℝ) : XF.min pinf (fin b) = fin b := by
  unfold XF.min; rw [if_pos (show lt (fin b) pinf from trivial)]
@[simp] theorem min_ninf (b : ℝ) : XF.min ninf (fin b) = ninf := by
  unfold XF.min; rw [if_neg (show ¬ lt (fin b) ninf from id)]
@[simp] theorem min_nan (b : XF) : XF.min nan b = nan := by
  unfold XF.min; rw [if_neg (by cases b <;> exact id)]

theorem clamp_fin (v lo hi : ℝ) (h : lo ≤ hi) : clamp (fin v) (fin lo) (fin hi) = fin (Max.max lo (Min.min hi v)) := by
  unfold clamp
  by_cases h1 : v < lo
  · rw [if_pos (show lt (fin v) (fin lo) from h1), max_eq_left (le_trans (min_le_right _ _) h1.le)]
  · rw [if_neg (show ¬ lt (fin v) (fin lo) from h1)]
    by_cases h2 : hi < v
    · rw [if_pos (show lt (fin hi) (fin v) from h2), min_eq_left h2.le, max_eq_right h]
    · rw [if_neg (show ¬ lt (fin hi) (fin v) from h2), min_eq_right (not_lt.1 h2), max_eq_right (not_lt.1 h1)]
@[simp] theorem clamp_ninf (lo hi : ℝ) : clamp ninf (fin lo) (fin hi) = fin lo := by
  unfold clamp; rw [if_pos (show lt ninf (fin lo) from trivial)]
@[simp] theorem clamp_pinf (lo hi : ℝ) : clamp pinf (fin lo) (fin hi) = fin hi := by
  unfold clamp
  rw [if_neg (show ¬ lt pinf (fin lo) from id), if_pos (show lt (fin hi) pinf from trivial)]
@[simp] theorem clamp_nan (lo hi : XF) : clamp nan lo hi = nan := by
  unfold clamp
  rw [if_neg (show ¬ lt nan lo by cases lo <;> exact id), if_neg (by cases hi <;> exact id)]

@[simp] theorem div_fin (a b : ℝ) (h : b ≠ 0) : div (fin a) (fin b) = fin (a / b) := by
  simp only [div, if_neg h]
@[simp] theorem div_fin_zero (a : ℝ) : div (fin a) (fin 0) = infTimes a := by
  simp only [div, if_true]
@[simp] theorem div_ninf_pos (b : ℝ) (h : 0 < b) : div ninf (fin b) = ninf := by
  simp only [div, if_neg (not_lt.2 h.le)]
@[simp] theorem div_pinf_pos (b : ℝ) (h : 0 < b) : div pinf (fin b) = pinf := by
  simp only [div, if_neg (not_lt.2 h.le)]
@[simp] theorem div_nan (b : XF) : div nan b = nan := by cases b <;> rfl
@[simp] theorem nan_add (b : XF) : add nan b = nan := by cases b <;> rfl
@[simp] theorem fin_add (a b : ℝ) : add (fin a) (fin b) = fin (a + b) := rfl
@[simp] theorem ninf_add_fin (b : ℝ) : add ninf (fin b) = ninf := rfl
@[simp] theorem fin_mul (a b : ℝ) : mul (fin a) (fin b) = fin (a * b) := rfl
@[simp] theorem infTimes_zero : infTimes 0 = nan := by simp [infTimes]

end
end XF
end Huira
