import Mathlib.Data.Real.Archimedean
import Mathlib.Algebra.Order.Floor.Semiring
import Mathlib.Algebra.BigOperators.Ring.Finset
import Mathlib.Algebra.BigOperators.Intervals
import Mathlib.Tactic.Linarith
import Mathlib.Tactic.Ring
import Mathlib.Tactic.Positivity
import Mathlib.Tactic.NormNum

/-!
# Bounding a polynomial with integer coefficients on an interval

Tools for the accuracy of the Bessel function of `cameras/psfs/airy_disk.ipp` (C130): polynomials as lists of integer
coefficients, moved to the middle of an interval of half-width one, where the sum of the absolute coefficients bounds
the polynomial.  Nothing here models code.
-/

namespace Huira.Airy

/-- The value of the polynomial with coefficients `l` (constant term first). -/
def ev (l : List ℤ) (x : ℝ) : ℝ := l.foldr (fun c a => (c : ℝ) + x * a) 0

@[simp] theorem ev_nil (x : ℝ) : ev [] x = 0 := rfl
@[simp] theorem ev_cons (c : ℤ) (l : List ℤ) (x : ℝ) : ev (c :: l) x = c + x * ev l x := rfl

/-- Sum of polynomials. -/
def padd : List ℤ → List ℤ → List ℤ
  | [], m => m
  | l, [] => l
  | a :: l, b :: m => (a + b) :: padd l m

theorem ev_padd (l m : List ℤ) (x : ℝ) : ev (padd l m) x = ev l x + ev m x := by
  induction l generalizing m with
  | nil => simp [padd]
  | cons a l ih =>
    cases m with
    | nil => simp [padd]
    | cons b m => simp [padd, ih]; ring

/-- Multiple of a polynomial. -/
def pscale (k : ℤ) (l : List ℤ) : List ℤ := l.map (k * ·)

theorem ev_pscale (k : ℤ) (l : List ℤ) (x : ℝ) : ev (pscale k l) x = k * ev l x := by
  induction l with
  | nil => simp [pscale]
  | cons a l ih =>
    have : pscale k (a :: l) = (k * a) :: pscale k l := rfl
    rw [this, ev_cons, ih, ev_cons]; push_cast; ring

/-- Product of polynomials. -/
def pmul (l m : List ℤ) : List ℤ := l.foldr (fun c a => padd (pscale c m) (0 :: a)) []

theorem ev_pmul (l m : List ℤ) (x : ℝ) : ev (pmul l m) x = ev l x * ev m x := by
  induction l with
  | nil => simp [pmul]
  | cons a l ih =>
    have : pmul (a :: l) m = padd (pscale a m) (0 :: pmul l m) := rfl
    rw [this, ev_padd, ev_pscale, ev_cons, ih, ev_cons]; push_cast; ring

/-- The polynomial `h ↦ p (m + h)`. -/
def pshift (m : ℤ) (l : List ℤ) : List ℤ := l.foldr (fun c a => padd (c :: a) (pscale m a)) []

theorem ev_pshift (m : ℤ) (l : List ℤ) (h : ℝ) : ev (pshift m l) h = ev l (m + h) := by
  induction l with
  | nil => simp [pshift]
  | cons a l ih =>
    have : pshift m (a :: l) = padd (a :: pshift m l) (pscale m (pshift m l)) := rfl
    rw [this, ev_padd, ev_pscale, ev_cons, ih, ev_cons]; ring

/-- Sum of the absolute coefficients. -/
def pabs (l : List ℤ) : ℕ := l.foldr (fun c a => c.natAbs + a) 0

theorem ev_abs_le (l : List ℤ) {h : ℝ} (hh : |h| ≤ 1) : |ev l h| ≤ pabs l := by
  induction l with
  | nil => simp [pabs]
  | cons a l ih =>
    have e : pabs (a :: l) = a.natAbs + pabs l := rfl
    rw [ev_cons, e]
    push_cast
    have h1 : |(a : ℝ) + h * ev l h| ≤ |(a : ℝ)| + |h| * |ev l h| := by
      rw [← abs_mul]; exact abs_add_le _ _
    have h2 : |h| * |ev l h| ≤ 1 * pabs l := by
      apply mul_le_mul hh ih (abs_nonneg _) (by norm_num)
    have h3 : ((a.natAbs : ℕ) : ℝ) = |(a : ℝ)| := by
      rw [Nat.cast_natAbs]; push_cast; rfl
    rw [h3]; linarith

/-- On the pieces `[2 i, 2 i + 2]` with `i < n` the polynomial is bounded by the shifted sums. -/
theorem ev_bound {l : List ℤ} {n b : ℕ} (hb : ∀ i < n, pabs (pshift (2 * i + 1) l) ≤ b) {y : ℝ} (h0 : 0 ≤ y)
    (h1 : y < 2 * n) : |ev l y| ≤ b := by
  obtain ⟨i, hi, hl, hu⟩ : ∃ i : ℕ, i < n ∧ (2 * i : ℝ) ≤ y ∧ y ≤ 2 * i + 2 := by
    refine ⟨⌊y / 2⌋₊, ?_, ?_, ?_⟩
    · rw [Nat.floor_lt (by positivity)]; linarith
    · have := Nat.floor_le (show 0 ≤ y / 2 by positivity); linarith
    · have := Nat.lt_floor_add_one (y / 2); linarith
  have e : ev (pshift (2 * i + 1) l) (y - (2 * i + 1)) = ev l y := by
    rw [ev_pshift]; congr 1; push_cast; ring
  rw [← e]
  refine (ev_abs_le _ ?_).trans (by exact_mod_cast hb i hi)
  rw [abs_le]; constructor <;> linarith

/-- Coefficients given by a function. -/
theorem ev_range (f : ℕ → ℤ) (n : ℕ) (x : ℝ) : ev ((List.range n).map f) x = ∑ k ∈ Finset.range n, (f k : ℝ) * x ^ k := by
  induction n generalizing f with
  | zero => simp
  | succ n ih =>
    rw [List.range_succ_eq_map, List.map_cons, List.map_map, ev_cons, ih (f ∘ Nat.succ), Finset.sum_range_succ', Finset.mul_sum]
    rw [add_comm]
    congr 1
    · exact Finset.sum_congr rfl fun k _ => by simp [pow_succ]; ring
    · simp

end Huira.Airy
