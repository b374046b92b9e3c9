import Mathlib.Data.Real.Sqrt
import Mathlib.Tactic.Ring
import Mathlib.Tactic.Linarith
import Mathlib.Tactic.FieldSimp
/-!
# Three-dimensional vectors over the reals

The part of GLM used by huira (`glm::dot`, `glm::cross`, `glm::normalize`, componentwise arithmetic), in exact real
arithmetic. `glm::normalize` of the zero vector is a vector of NaNs; `normalize?` returns `none` for it, `normalize`
is used where the argument is known to be non-zero.
-/
namespace Huira

@[ext] structure V3 where
  x : ℝ
  y : ℝ
  z : ℝ

namespace V3
noncomputable section
open Classical

def zero : V3 := ⟨0, 0, 0⟩
def add (a b : V3) : V3 := ⟨a.x + b.x, a.y + b.y, a.z + b.z⟩
def sub (a b : V3) : V3 := ⟨a.x - b.x, a.y - b.y, a.z - b.z⟩
def neg (a : V3) : V3 := ⟨-a.x, -a.y, -a.z⟩
def smul (s : ℝ) (a : V3) : V3 := ⟨s * a.x, s * a.y, s * a.z⟩
/-- `glm::dot` -/
def dot (a b : V3) : ℝ := a.x * b.x + a.y * b.y + a.z * b.z
/-- `glm::cross` -/
def cross (a b : V3) : V3 := ⟨a.y * b.z - a.z * b.y, a.z * b.x - a.x * b.z, a.x * b.y - a.y * b.x⟩
/-- `glm::length` -/
def len (a : V3) : ℝ := Real.sqrt (dot a a)
/-- `glm::normalize` -/
def normalize (a : V3) : V3 := smul (1 / len a) a
/-- `glm::normalize`, `none` standing for the NaN vector produced for the zero vector -/
def normalize? (a : V3) : Option V3 := if dot a a = 0 then none else some (normalize a)

instance : Add V3 := ⟨add⟩
instance : Sub V3 := ⟨sub⟩
instance : Neg V3 := ⟨neg⟩
instance : HMul ℝ V3 V3 := ⟨smul⟩

@[simp] theorem add_x (a b : V3) : (a + b).x = a.x + b.x := rfl
@[simp] theorem add_y (a b : V3) : (a + b).y = a.y + b.y := rfl
@[simp] theorem add_z (a b : V3) : (a + b).z = a.z + b.z := rfl
@[simp] theorem sub_x (a b : V3) : (a - b).x = a.x - b.x := rfl
@[simp] theorem sub_y (a b : V3) : (a - b).y = a.y - b.y := rfl
@[simp] theorem sub_z (a b : V3) : (a - b).z = a.z - b.z := rfl
@[simp] theorem neg_x (a : V3) : (-a).x = -a.x := rfl
@[simp] theorem neg_y (a : V3) : (-a).y = -a.y := rfl
@[simp] theorem neg_z (a : V3) : (-a).z = -a.z := rfl
@[simp] theorem hmul_x (s : ℝ) (a : V3) : (s * a).x = s * a.x := rfl
@[simp] theorem hmul_y (s : ℝ) (a : V3) : (s * a).y = s * a.y := rfl
@[simp] theorem hmul_z (s : ℝ) (a : V3) : (s * a).z = s * a.z := rfl

theorem dot_self_nonneg (a : V3) : 0 ≤ dot a a := by
  unfold dot; nlinarith [mul_self_nonneg a.x, mul_self_nonneg a.y, mul_self_nonneg a.z]

theorem dot_self_eq_zero {a : V3} : dot a a = 0 ↔ a = zero := by
  constructor
  · intro h
    have h1 := mul_self_nonneg a.x
    have h2 := mul_self_nonneg a.y
    have h3 := mul_self_nonneg a.z
    simp only [dot] at h
    ext
    · exact mul_self_eq_zero.mp (by linarith)
    · exact mul_self_eq_zero.mp (by linarith)
    · exact mul_self_eq_zero.mp (by linarith)
  · rintro rfl; simp [dot, zero]

theorem dot_self_pos {a : V3} (h : a ≠ zero) : 0 < dot a a :=
  lt_of_le_of_ne (dot_self_nonneg a) (fun e => h (dot_self_eq_zero.mp e.symm))

theorem len_pos {a : V3} (h : a ≠ zero) : 0 < len a := Real.sqrt_pos.mpr (dot_self_pos h)

theorem len_sq (a : V3) : len a * len a = dot a a := Real.mul_self_sqrt (dot_self_nonneg a)

theorem dot_comm (a b : V3) : dot a b = dot b a := by unfold dot; ring
theorem dot_add_right (a b c : V3) : dot a (b + c) = dot a b + dot a c := by simp [dot]; ring
theorem dot_sub_right (a b c : V3) : dot a (b - c) = dot a b - dot a c := by simp [dot]; ring
theorem dot_smul_right (s : ℝ) (a b : V3) : dot a (s * b) = s * dot a b := by simp [dot]; ring
theorem dot_smul_left (s : ℝ) (a b : V3) : dot (s * a) b = s * dot a b := by simp [dot]; ring

theorem normalize_eq (a : V3) : normalize a = (1 / len a) * a := rfl

/-- A normalised vector has length one. -/
theorem dot_normalize {a : V3} (h : a ≠ zero) : dot (normalize a) (normalize a) = 1 := by
  have hl := len_pos h
  rw [normalize_eq, dot_smul_left, dot_smul_right, ← len_sq a]
  field_simp

/-- Normalisation does not change the sign of a dot product. -/
theorem dot_normalize_neg_iff {a : V3} (h : a ≠ zero) (b : V3) : dot (normalize a) b < 0 ↔ dot a b < 0 := by
  have hl := len_pos h
  rw [normalize_eq, dot_smul_left]
  have : 0 < 1 / len a := by positivity
  constructor
  · intro hh; by_contra hc; push Not at hc; nlinarith [mul_nonneg this.le hc]
  · intro hh; nlinarith [mul_pos_of_neg_of_neg (neg_lt_zero.mpr this) hh]

theorem cauchy_schwarz (a b : V3) : dot a b * dot a b ≤ dot a a * dot b b := by
  unfold dot
  nlinarith [sq_nonneg (a.x * b.y - a.y * b.x), sq_nonneg (a.x * b.z - a.z * b.x), sq_nonneg (a.y * b.z - a.z * b.y)]

end
end V3
end Huira
