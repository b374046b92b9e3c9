import Verif.Arc.Model
import Mathlib.Analysis.Calculus.ContDiff.Basic
import Mathlib.Analysis.Calculus.ContDiff.Operations
import Mathlib.Analysis.Calculus.Deriv.Pow
import Mathlib.Analysis.Calculus.IteratedDeriv.Defs
import Mathlib.Algebra.BigOperators.Ring.Finset
set_option linter.unusedSimpArgs false
/-!
# C47: trajectories pass through their samples and are smooth
-/
namespace Huira.Arc
noncomputable section
open Classical Finset

theorem step_eq (n : ℕ) : step n = 1 / ((n - 1 : ℕ) : ℝ) := by simp [step, knot]

theorem step_pos {n : ℕ} (hn : 2 ≤ n) : 0 < step n := by
  rw [step_eq]; have : 0 < n - 1 := by omega
  positivity

theorem knot_succ (n i : ℕ) : knot n (i + 1) = knot n i + step n := by
  simp only [knot, step_eq]; push_cast; ring

theorem knot_mono {n : ℕ} (hn : 2 ≤ n) {i j : ℕ} (h : i ≤ j) : knot n i ≤ knot n j := by
  unfold knot
  apply div_le_div_of_nonneg_right (by exact_mod_cast h) (by positivity)

theorem diag_ge {h : ℝ} (hh : 0 < h) : ∀ i, 3 * h ≤ diag h i
  | 0 => by simp only [diag]; linarith
  | i + 1 => by
    have ih := diag_ge hh i
    have : 0 < diag h i := by linarith
    have : h / diag h i * h ≤ h := by
      rw [div_mul_eq_mul_div, div_le_iff₀ this]; nlinarith
    simp only [diag]; linarith

theorem diag_pos {h : ℝ} (hh : 0 < h) (i : ℕ) : 0 < diag h i := by linarith [diag_ge hh i]

/-- The eliminated system. -/
theorem elim {n : ℕ} (hn : 3 ≤ n) (y : ℕ → ℝ) {i : ℕ} (hi : i < n - 2) :
    diag (step n) i * secondDeriv n y (i + 1) + step n * secondDeriv n y (i + 2) = rhs (step n) y i := by
  have hh := step_pos (n := n) (by omega)
  have hd := (diag_pos hh i).ne'
  have e1 : secondDeriv n y (i + 1) = back (step n) y (n - 2) (n - 2 - (i + 1)) := by
    unfold secondDeriv; rw [if_pos ⟨by omega, by omega⟩]
  rw [e1]
  by_cases hlast : i = n - 3
  · have e2 : secondDeriv n y (i + 2) = 0 := by unfold secondDeriv; rw [if_neg (by omega)]
    rw [e2, show n - 2 - (i + 1) = 0 by omega, back, show n - 2 - 1 = i by omega]
    field_simp; ring
  · have e2 : secondDeriv n y (i + 2) = back (step n) y (n - 2) (n - 2 - (i + 2)) := by
      unfold secondDeriv; rw [if_pos ⟨by omega, by omega⟩]
    rw [e2, show n - 2 - (i + 1) = (n - 2 - (i + 2)) + 1 by omega, back,
      show n - 2 - 2 - (n - 2 - (i + 2)) = i by omega]
    field_simp; ring

theorem secondDeriv_zero (n : ℕ) (y : ℕ → ℝ) : secondDeriv n y 0 = 0 := by
  unfold secondDeriv; rw [if_neg (by omega)]

theorem secondDeriv_last {n : ℕ} (hn : 2 ≤ n) (y : ℕ → ℝ) : secondDeriv n y (n - 1) = 0 := by
  unfold secondDeriv; rw [if_neg (by omega)]

/-- The tridiagonal system of the natural spline holds. -/
theorem tridiagonal {n : ℕ} (hn : 3 ≤ n) (y : ℕ → ℝ) {i : ℕ} (hi : i < n - 2) :
    step n * secondDeriv n y i + 4 * step n * secondDeriv n y (i + 1) + step n * secondDeriv n y (i + 2) =
      (6 / step n) * (y (i + 2) - 2 * y (i + 1) + y i) := by
  have hh := step_pos (n := n) (by omega)
  have h1 := elim hn y hi
  cases i with
  | zero =>
    rw [secondDeriv_zero]
    simp only [diag, rhs, rhs0] at h1
    linarith
  | succ i =>
    have h0 := elim hn y (i := i) (by omega)
    have hd := (diag_pos hh i).ne'
    simp only [diag, rhs, rhs0] at h1
    rw [← h0] at h1
    have e : step n / diag (step n) i * (diag (step n) i * secondDeriv n y (i + 1) + step n * secondDeriv n y (i + 2)) =
        step n * secondDeriv n y (i + 1) + step n / diag (step n) i * step n * secondDeriv n y (i + 2) := by
      field_simp
    linear_combination h1 - e

theorem seg_start (n : ℕ) (y : ℕ → ℝ) (i : ℕ) : (seg n y i).ev 0 = y i := by simp [seg, Seg.ev]

theorem seg_end {n : ℕ} (hn : 2 ≤ n) (y : ℕ → ℝ) (i : ℕ) : (seg n y i).ev (step n) = y (i + 1) := by
  have hh := (step_pos hn).ne'
  simp only [seg, Seg.ev]; field_simp; ring

/-- Consecutive segments differ by a multiple of the cubed distance from the common knot. -/
theorem seg_succ {n : ℕ} (hn : 3 ≤ n) (y : ℕ → ℝ) {i : ℕ} (hi : i < n - 2) (v : ℝ) :
    (seg n y (i + 1)).ev v = (seg n y i).ev (v + step n) + ((seg n y (i + 1)).d - (seg n y i).d) * v ^ 3 := by
  have hh := (step_pos (n := n) (by omega)).ne'
  have ht := tridiagonal hn y hi
  have ht' : step n ^ 2 * (secondDeriv n y i + 4 * secondDeriv n y (i + 1) + secondDeriv n y (i + 2)) =
      6 * (y (i + 2) - 2 * y (i + 1) + y i) := by
    have this : step n * (step n * secondDeriv n y i + 4 * step n * secondDeriv n y (i + 1) +
        step n * secondDeriv n y (i + 2)) = step n * ((6 / step n) * (y (i + 2) - 2 * y (i + 1) + y i)) := by rw [ht]
    rw [show step n * (6 / step n * (y (i + 2) - 2 * y (i + 1) + y i)) = 6 * (y (i + 2) - 2 * y (i + 1) + y i) by
      field_simp] at this
    linear_combination this
  simp only [seg, Seg.ev]
  have e2 : i + 1 + 1 = i + 2 := rfl
  rw [e2]
  field_simp
  linear_combination (-2 * v) * ht'

/-- Truncated-power form of the spline. -/
def P (n : ℕ) (y : ℕ → ℝ) (t : ℝ) : ℝ :=
  (seg n y 0).ev t + ∑ i ∈ range (n - 2), ((seg n y (i + 1)).d - (seg n y i).d) * (max 0 (t - knot n (i + 1))) ^ 3

theorem seg_eq_sum {n : ℕ} (hn : 3 ≤ n) (y : ℕ → ℝ) (t : ℝ) : ∀ s, s ≤ n - 2 →
    (seg n y s).ev (t - knot n s) =
      (seg n y 0).ev t + ∑ i ∈ range s, ((seg n y (i + 1)).d - (seg n y i).d) * (t - knot n (i + 1)) ^ 3
  | 0, _ => by simp [knot]
  | s + 1, hs => by
    rw [sum_range_succ, ← add_assoc, ← seg_eq_sum hn y t s (by omega), seg_succ hn y (by omega)]
    congr 2
    rw [knot_succ]; ring

theorem findSeg_spec (n : ℕ) (t : ℝ) : ∀ fuel s, knot n s ≤ t →
    knot n (findSeg n t fuel s) ≤ t ∧ s ≤ findSeg n t fuel s ∧ findSeg n t fuel s ≤ s + fuel ∧
      (findSeg n t fuel s = s + fuel ∨ t < knot n (findSeg n t fuel s + 1))
  | 0, s, h => by simp [findSeg, h]
  | fuel + 1, s, h => by
    rw [findSeg]
    split_ifs with h1
    · obtain ⟨a, b, c, d⟩ := findSeg_spec n t fuel (s + 1) h1
      exact ⟨a, by omega, by omega, d.imp (fun h => by omega) id⟩
    · push Not at h1
      exact ⟨h, le_refl _, by omega, Or.inr h1⟩

theorem segIndex_spec {n : ℕ} {t : ℝ} (ht : 0 ≤ t) :
    segIndex n t ≤ n - 2 ∧ knot n (segIndex n t) ≤ t ∧ (segIndex n t = n - 2 ∨ t < knot n (segIndex n t + 1)) := by
  obtain ⟨a, _, c, d⟩ := findSeg_spec n t (n - 2) 0 (by simpa [knot] using ht)
  have e : segIndex n t = findSeg n t (n - 2) 0 := by unfold segIndex; omega
  rw [e]
  exact ⟨by omega, a, d.imp (fun h => by omega) id⟩

theorem clamp01_id {t : ℝ} (h0 : 0 ≤ t) (h1 : t ≤ 1) : clamp01 t = t := by
  unfold clamp01; rw [if_neg (by linarith), if_neg (by linarith)]

theorem evalSpline_eq_P {n : ℕ} (hn : 3 ≤ n) (y : ℕ → ℝ) {t : ℝ} (h0 : 0 ≤ t) (h1 : t ≤ 1) :
    evalSpline n y t = P n y t := by
  obtain ⟨a, b, c⟩ := segIndex_spec (n := n) h0
  unfold evalSpline
  simp only [clamp01_id h0 h1]
  rw [seg_eq_sum hn y t _ a, P]
  congr 1
  rw [← Finset.sum_subset (range_subset_range.mpr a)]
  · apply sum_congr rfl
    intro i hi
    rw [mem_range] at hi
    have : knot n (i + 1) ≤ t := (knot_mono (by omega) (by omega)).trans b
    rw [max_eq_right (by linarith)]
  · intro i hi hi'
    rw [mem_range] at hi hi'
    have hlt : t < knot n (segIndex n t + 1) := by
      rcases c with c | c
      · omega
      · exact c
    have : knot n (segIndex n t + 1) ≤ knot n (i + 1) := knot_mono (by omega) (by omega)
    rw [max_eq_left (by linarith)]; simp

theorem knot_last {n : ℕ} (hn : 2 ≤ n) : knot n (n - 1) = 1 := by
  unfold knot; have : ((n - 1 : ℕ) : ℝ) ≠ 0 := by
    have : n - 1 ≠ 0 := by omega
    exact_mod_cast this
  exact div_self this

theorem evalSpline_knot {n : ℕ} (hn : 3 ≤ n) (y : ℕ → ℝ) {i : ℕ} (hi : i < n) : evalSpline n y (knot n i) = y i := by
  have h0 : 0 ≤ knot n i := by unfold knot; positivity
  have h1 : knot n i ≤ 1 := by rw [← knot_last (n := n) (by omega)]; exact knot_mono (by omega) (by omega)
  obtain ⟨a, b, c⟩ := segIndex_spec (n := n) h0
  have hstrict : ∀ j k : ℕ, knot n j ≤ knot n k → j ≤ k := by
    intro j k h
    unfold knot at h
    have hp : (0 : ℝ) < ((n - 1 : ℕ) : ℝ) := by
      have : 0 < n - 1 := by omega
      exact_mod_cast this
    rw [div_le_div_iff_of_pos_right hp] at h
    exact_mod_cast h
  have hle := hstrict _ _ b
  unfold evalSpline
  simp only [clamp01_id h0 h1]
  rcases c with c | c
  · -- last segment
    rcases Nat.lt_or_ge i (n - 1) with hi' | hi'
    · have : segIndex n (knot n i) = i := by omega
      rw [this, sub_self, seg_start]
    · have e : i = (n - 2) + 1 := by omega
      rw [c]
      nth_rewrite 1 [e]
      rw [knot_succ, add_sub_cancel_left, seg_end (by omega), ← e]
  · have : segIndex n (knot n i) = i := by
      have : i < segIndex n (knot n i) + 1 := by
        by_contra hcon
        push Not at hcon
        have := knot_mono (n := n) (by omega) hcon
        linarith
      omega
    rw [this, sub_self, seg_start]

/-! ### Truncated powers are smooth -/

theorem hasDerivAt_trunc2 (x : ℝ) : HasDerivAt (fun x : ℝ => (max 0 x) ^ 2) (2 * max 0 x) x := by
  rcases lt_trichotomy x 0 with h | h | h
  · have e : (fun x : ℝ => (max 0 x) ^ 2) =ᶠ[nhds x] fun _ => 0 := by
      filter_upwards [Iio_mem_nhds h] with z hz
      rw [max_eq_left (le_of_lt hz)]; norm_num
    rw [max_eq_left h.le]
    simpa using (hasDerivAt_const x (0:ℝ)).congr_of_eventuallyEq e
  · subst h
    rw [hasDerivAt_iff_isLittleO]
    simp only [max_self, mul_zero, smul_zero, sub_zero]
    rw [Asymptotics.isLittleO_iff]
    intro c hc
    filter_upwards [Metric.ball_mem_nhds (0:ℝ) hc] with z hz
    simp only [Metric.mem_ball, Real.dist_eq, sub_zero] at hz
    have h1 : |max 0 z| ≤ |z| := by
      rcases le_total 0 z with h | h
      · rw [max_eq_right h]
      · rw [max_eq_left h]; simp
    simp only [Real.norm_eq_abs, ne_eq, OfNat.ofNat_ne_zero, not_false_eq_true, zero_pow, sub_zero, abs_pow]
    nlinarith [abs_nonneg (max 0 z), abs_nonneg z]
  · have e : (fun x : ℝ => (max 0 x) ^ 2) =ᶠ[nhds x] fun x => x ^ 2 := by
      filter_upwards [Ioi_mem_nhds h] with z hz
      rw [max_eq_right (le_of_lt hz)]
    rw [max_eq_right h.le]
    simpa using (hasDerivAt_pow 2 x).congr_of_eventuallyEq e

theorem hasDerivAt_trunc3 (x : ℝ) : HasDerivAt (fun x : ℝ => (max 0 x) ^ 3) (3 * (max 0 x) ^ 2) x := by
  have e : (fun x : ℝ => (max 0 x) ^ 3) = fun x => x * (max 0 x) ^ 2 := by
    funext z
    rcases le_total 0 z with h | h
    · rw [max_eq_right h]; ring
    · rw [max_eq_left h]; ring
  rw [e]
  have := (hasDerivAt_id x).mul (hasDerivAt_trunc2 x)
  refine this.congr_deriv ?_
  rcases le_total 0 x with h | h
  · rw [max_eq_right h]; simp; ring
  · rw [max_eq_left h]; simp

/-- First derivative of the truncated-power form. -/
def P1 (n : ℕ) (y : ℕ → ℝ) (t : ℝ) : ℝ :=
  ((seg n y 0).b + 2 * (seg n y 0).c * t + 3 * (seg n y 0).d * t ^ 2) +
    ∑ i ∈ range (n - 2), ((seg n y (i + 1)).d - (seg n y i).d) * (3 * (max 0 (t - knot n (i + 1))) ^ 2)

/-- Second derivative of the truncated-power form. -/
def P2 (n : ℕ) (y : ℕ → ℝ) (t : ℝ) : ℝ :=
  (2 * (seg n y 0).c + 6 * (seg n y 0).d * t) +
    ∑ i ∈ range (n - 2), ((seg n y (i + 1)).d - (seg n y i).d) * (6 * max 0 (t - knot n (i + 1)))

theorem hasDerivAt_P (n : ℕ) (y : ℕ → ℝ) (t : ℝ) : HasDerivAt (P n y) (P1 n y t) t := by
  unfold P P1
  apply HasDerivAt.add
  · have e : (fun t => (seg n y 0).ev t) = fun t => (seg n y 0).a + (seg n y 0).b * t + (seg n y 0).c * t ^ 2 + (seg n y 0).d * t ^ 3 := by
      funext t; simp only [Seg.ev]; ring
    show HasDerivAt (fun t => (seg n y 0).ev t) _ t
    rw [e]
    have h1 := ((hasDerivAt_id t).const_mul (seg n y 0).b)
    have h2 := ((hasDerivAt_pow 2 t).const_mul (seg n y 0).c)
    have h3 := ((hasDerivAt_pow 3 t).const_mul (seg n y 0).d)
    have := (((hasDerivAt_const t (seg n y 0).a).add h1).add h2).add h3
    refine this.congr_deriv ?_
    simp; ring
  · apply HasDerivAt.fun_sum
    intro i _
    apply HasDerivAt.const_mul
    have := (hasDerivAt_trunc3 (t - knot n (i + 1))).comp t ((hasDerivAt_id t).sub_const (knot n (i + 1)))
    simpa [Function.comp_def] using this

theorem hasDerivAt_P1 (n : ℕ) (y : ℕ → ℝ) (t : ℝ) : HasDerivAt (P1 n y) (P2 n y t) t := by
  unfold P1 P2
  apply HasDerivAt.add
  · have h1 := ((hasDerivAt_id t).const_mul (2 * (seg n y 0).c))
    have h2 := ((hasDerivAt_pow 2 t).const_mul (3 * (seg n y 0).d))
    have := ((hasDerivAt_const t (seg n y 0).b).add h1).add h2
    refine this.congr_deriv ?_
    simp; ring
  · apply HasDerivAt.fun_sum
    intro i _
    apply HasDerivAt.const_mul
    have := ((hasDerivAt_trunc2 (t - knot n (i + 1))).comp t ((hasDerivAt_id t).sub_const (knot n (i + 1)))).const_mul 3
    refine this.congr_deriv ?_
    simp; ring

theorem continuous_P2 (n : ℕ) (y : ℕ → ℝ) : Continuous (P2 n y) := by
  unfold P2
  apply Continuous.add
  · fun_prop
  · apply continuous_finsetSum
    intro i _
    fun_prop

theorem P_contDiff (n : ℕ) (y : ℕ → ℝ) : ContDiff ℝ 2 (P n y) := by
  have e1 : deriv (P n y) = P1 n y := funext fun t => (hasDerivAt_P n y t).deriv
  have e2 : deriv (P1 n y) = P2 n y := funext fun t => (hasDerivAt_P1 n y t).deriv
  rw [show (2 : WithTop ℕ∞) = 1 + 1 by norm_num, contDiff_succ_iff_deriv]
  refine ⟨fun t => (hasDerivAt_P n y t).differentiableAt, by simp, ?_⟩
  rw [e1, contDiff_one_iff_deriv, e2]
  exact ⟨fun t => (hasDerivAt_P1 n y t).differentiableAt, continuous_P2 n y⟩

theorem P2_ends {n : ℕ} (hn : 3 ≤ n) (y : ℕ → ℝ) : P2 n y 0 = 0 ∧ P2 n y 1 = 0 := by
  constructor
  · unfold P2
    have hc : (seg n y 0).c = 0 := by simp [seg, secondDeriv_zero]
    rw [hc, sum_eq_zero]
    · ring
    · intro i _
      have : 0 ≤ knot n (i + 1) := by unfold knot; positivity
      rw [max_eq_left (by linarith)]; ring
  · -- the second derivative at knot s is M[s]
    have hh := (step_pos (n := n) (by omega)).ne'
    have key : ∀ s, s ≤ n - 2 → 2 * (seg n y 0).c + 6 * (seg n y 0).d * 1 +
        ∑ i ∈ range s, ((seg n y (i + 1)).d - (seg n y i).d) * (6 * (1 - knot n (i + 1))) =
        secondDeriv n y s + 6 * (seg n y s).d * (1 - knot n s) := by
      intro s
      induction s with
      | zero => intro _; simp [seg, knot, secondDeriv_zero]
      | succ s ih =>
        intro hs
        rw [sum_range_succ, ← add_assoc, ih (by omega)]
        have : (seg n y s).d * (6 * step n) = secondDeriv n y (s + 1) - secondDeriv n y s := by
          simp only [seg]; field_simp
        rw [knot_succ]
        linear_combination this
    have h1 := key (n - 2) (le_refl _)
    unfold P2
    have e : ∑ i ∈ range (n - 2), ((seg n y (i + 1)).d - (seg n y i).d) * (6 * max 0 (1 - knot n (i + 1))) =
        ∑ i ∈ range (n - 2), ((seg n y (i + 1)).d - (seg n y i).d) * (6 * (1 - knot n (i + 1))) := by
      apply sum_congr rfl
      intro i hi
      rw [mem_range] at hi
      have : knot n (i + 1) ≤ 1 := by
        rw [← knot_last (n := n) (by omega)]; exact knot_mono (by omega) (by omega)
      rw [max_eq_right (by linarith)]
    rw [e, h1]
    have hk : 1 - knot n (n - 2) = step n := by
      have := knot_succ n (n - 2)
      rw [show n - 2 + 1 = n - 1 by omega, knot_last (by omega)] at this
      linarith
    have hd : (seg n y (n - 2)).d * (6 * step n) = secondDeriv n y (n - 1) - secondDeriv n y (n - 2) := by
      simp only [seg]
      rw [show n - 2 + 1 = n - 1 by omega]; field_simp
    rw [secondDeriv_last (by omega)] at hd
    rw [hk]; linear_combination hd

/-! ### Statements -/

/-- **C47 (interpolation).** A trajectory built from `N ≥ 2` samples passes through sample `i` at parameter
`i / (N - 1)`; one built from a single sample is constant. -/
theorem C47_passes_through {samples : List V3} {a : TArc} (h : mk? samples = some a) {i : ℕ} (hi : i < samples.length) :
    (2 ≤ samples.length → evaluate a ((i : ℝ) / ((samples.length - 1 : ℕ) : ℝ)) = samples[i]) ∧
    (samples.length = 1 → ∀ t, evaluate a t = samples[i]) := by
  unfold mk? at h
  split_ifs at h with h0
  obtain rfl := Option.some.inj h
  have hget : ∀ j (hj : j < samples.length), samples.getD j V3.zero = samples[j] := by
    intro j hj; simp [hj]
  constructor
  · intro h2
    unfold evaluate
    simp only
    split_ifs with h3
    · -- polynomial
      rcases (show samples.length = 2 ∨ samples.length = 3 by omega) with hl | hl
      · rw [hl]; simp only [polyCoeffs, if_true, if_neg (show ¬ (2 = 1) by norm_num), if_neg (show ¬ (3 = 1) by norm_num), if_neg (show ¬ (3 = 2) by norm_num)]; simp only [horner]
        have : i = 0 ∨ i = 1 := by omega
        rcases this with rfl | rfl
        · simp only [← hget 0 hi]; ext <;> simp
        · simp only [← hget 1 hi]; ext <;> simp
      · rw [hl]; simp only [polyCoeffs, if_true, if_neg (show ¬ (2 = 1) by norm_num), if_neg (show ¬ (3 = 1) by norm_num), if_neg (show ¬ (3 = 2) by norm_num)]; simp only [horner]
        have : i = 0 ∨ i = 1 ∨ i = 2 := by omega
        rcases this with rfl | rfl | rfl
        · simp only [← hget 0 hi]; ext <;> simp
        · simp only [← hget 1 hi]; ext <;> simp <;> ring
        · simp only [← hget 2 hi]; ext <;> simp <;> ring
    · have e := fun y => evalSpline_knot (n := samples.length) (by omega) y hi
      unfold knot at e
      rw [e, e, e]
      simp only [hget i hi]
  · intro h1 t
    unfold evaluate
    simp only [h1, polyCoeffs, if_true, if_pos (show 1 ≤ 3 by norm_num)]
    simp only [horner]
    have : i = 0 := by omega
    subst this
    exact hget 0 hi

/-- The constructor rejects exactly the empty sample list. -/
theorem C47_needs_sample (samples : List V3) : mk? samples = none ↔ samples = [] := by
  unfold mk?
  cases samples <;> simp

/-- **C47 (smoothness).** On `[0, 1]` each component of the trajectory agrees with a twice continuously
differentiable function, whatever the number of samples. -/
theorem C47_smooth (a : TArc) (comp : V3 → ℝ) (hcomp : comp = V3.x ∨ comp = V3.y ∨ comp = V3.z) :
    ∃ Q : ℝ → ℝ, ContDiff ℝ 2 Q ∧ ∀ t ∈ Set.Icc (0 : ℝ) 1, comp (evaluate a t) = Q t := by
  by_cases h3 : a.n ≤ 3
  · -- a polynomial
    have hpoly : ∀ cs : List V3, ContDiff ℝ 2 (fun t => comp (horner t cs)) := by
      intro cs
      induction cs with
      | nil => simp only [horner]; exact contDiff_const
      | cons c cs ih =>
        cases cs with
        | nil => simp only [horner]; exact contDiff_const
        | cons c' cs =>
          have e : (fun t => comp (horner t (c :: c' :: cs))) = fun t => t * comp (horner t (c' :: cs)) + comp c := by
            funext t
            rcases hcomp with rfl | rfl | rfl <;> simp [horner]
          rw [e]
          exact (contDiff_id.mul ih).add contDiff_const
    refine ⟨fun t => comp (horner t (polyCoeffs a.n a.p)), hpoly _, ?_⟩
    intro t _; simp only [evaluate, if_pos h3]
  · refine ⟨P a.n (fun i => comp (a.p i)), P_contDiff _ _, ?_⟩
    intro t ht
    simp only [evaluate, if_neg h3]
    rw [← evalSpline_eq_P (by omega) _ ht.1 ht.2]
    rcases hcomp with rfl | rfl | rfl <;> rfl

/-- **C47 (natural end conditions).** For four or more samples the second derivative vanishes at both ends. -/
theorem C47_natural (a : TArc) (hn : 4 ≤ a.n) (comp : V3 → ℝ) (hcomp : comp = V3.x ∨ comp = V3.y ∨ comp = V3.z) :
    ∃ Q : ℝ → ℝ, ContDiff ℝ 2 Q ∧ (∀ t ∈ Set.Icc (0 : ℝ) 1, comp (evaluate a t) = Q t) ∧
      (∀ i < a.n, Q ((i : ℝ) / ((a.n - 1 : ℕ) : ℝ)) = comp (a.p i)) ∧
      deriv (deriv Q) 0 = 0 ∧ deriv (deriv Q) 1 = 0 := by
  refine ⟨P a.n (fun i => comp (a.p i)), P_contDiff _ _, ?_, ?_, ?_⟩
  · intro t ht
    simp only [evaluate, if_neg (show ¬ a.n ≤ 3 by omega)]
    rw [← evalSpline_eq_P (by omega) _ ht.1 ht.2]
    rcases hcomp with rfl | rfl | rfl <;> rfl
  · intro i hi
    have h0 : 0 ≤ knot a.n i := by unfold knot; positivity
    have h1 : knot a.n i ≤ 1 := by rw [← knot_last (n := a.n) (by omega)]; exact knot_mono (by omega) (by omega)
    have := evalSpline_knot (n := a.n) (by omega) (fun i => comp (a.p i)) hi
    rw [evalSpline_eq_P (by omega) _ h0 h1] at this
    exact this
  · have e1 : deriv (P a.n (fun i => comp (a.p i))) = P1 a.n (fun i => comp (a.p i)) :=
      funext fun t => (hasDerivAt_P _ _ t).deriv
    rw [e1, (hasDerivAt_P1 _ _ 0).deriv, (hasDerivAt_P1 _ _ 1).deriv]
    exact P2_ends (by omega) _

/-- Four samples of a non-linear motion meet the hypotheses. -/
example : ∃ a, mk? [⟨0, 0, 1⟩, ⟨1, 1, 1⟩, ⟨2, 4, 1⟩, ⟨3, 9, 1⟩] = some a ∧
    evaluate a (2 / 3) = ⟨2, 4, 1⟩ := by
  refine ⟨_, rfl, ?_⟩
  have := (C47_passes_through (samples := [⟨0, 0, 1⟩, ⟨1, 1, 1⟩, ⟨2, 4, 1⟩, ⟨3, 9, 1⟩]) rfl (i := 2) (by simp)).1 (by simp)
  simpa using this

end
end Huira.Arc
