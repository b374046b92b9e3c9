import Verif.Arc.RootProps
import Mathlib.Topology.Order.IntermediateValue
set_option linter.unusedSimpArgs false
/-!
# C48: plane crossings of whole trajectories
-/
namespace Huira.Arc
noncomputable section
open Classical Finset

/-- Signed distance (times the length of the normal) of the trajectory from the plane through the origin. -/
def gap (a : TArc) (nrm : V3) (t : ℝ) : ℝ := V3.dot nrm (evaluate a t)

/-- What `find_plane_crossings` must deliver, with tolerance `tol`: sorted, inside `[0, 1]`, every value within `tol`
of a time at which the trajectory is in the plane, and every such time within `tol` of a value. -/
structure FindsTol (tol : ℝ) (f : ℝ → ℝ) (roots : List ℝ) : Prop where
  complete : ∀ t, 0 ≤ t → t ≤ 1 → f t = 0 → ∃ r ∈ roots, |t - r| ≤ tol
  sound : ∀ r ∈ roots, 0 ≤ r ∧ r ≤ 1 ∧ ∃ t, f t = 0 ∧ |t - r| ≤ tol
  sorted : roots.Pairwise (· ≤ ·)

/-- Full property: for every trajectory not touching the plane everywhere, with a tolerance of `1/1000` of the exposure. -/
def C48_full : Prop := ∀ (samples : List V3) (a : TArc) (nrm : V3), mk? samples = some a →
  (∃ t, 0 ≤ t ∧ t ≤ 1 ∧ gap a nrm t ≠ 0) → FindsTol (1 / 1000) (gap a nrm) (planeCrossings a nrm)

/-! ### the spline as piecewise cubic -/

theorem evalSpline_seg {n : ℕ} (hn : 3 ≤ n) (y : ℕ → ℝ) {i : ℕ} (hi : i ≤ n - 2) {t : ℝ} (h0 : knot n i ≤ t)
    (h1 : t ≤ knot n (i + 1)) : evalSpline n y t = (seg n y i).ev (t - knot n i) := by
  have hk0 : 0 ≤ knot n i := by unfold knot; positivity
  have hk1 : knot n (i + 1) ≤ 1 := by rw [← knot_last (n := n) (by omega)]; exact knot_mono (by omega) (by omega)
  rw [evalSpline_eq_P hn y (by linarith) (by linarith), seg_eq_sum hn y t i hi, P]
  congr 1
  rw [← Finset.sum_subset (range_subset_range.mpr hi)]
  · apply sum_congr rfl
    intro j hj
    rw [mem_range] at hj
    have : knot n (j + 1) ≤ t := (knot_mono (by omega) (by omega)).trans h0
    rw [max_eq_right (by linarith)]
  · intro j hj hj'
    rw [mem_range] at hj hj'
    have : knot n (i + 1) ≤ knot n (j + 1) := knot_mono (by omega) (by omega)
    rw [max_eq_left (by linarith)]; simp

theorem gap_seg {a : TArc} (hn : 4 ≤ a.n) (nrm : V3) {i : ℕ} (hi : i ≤ a.n - 2) {t : ℝ} (h0 : knot a.n i ≤ t)
    (h1 : t ≤ knot a.n (i + 1)) :
    gap a nrm t = cub (dotSeg a nrm i).d (dotSeg a nrm i).c (dotSeg a nrm i).b (dotSeg a nrm i).a (t - knot a.n i) := by
  have e := fun y => evalSpline_seg (n := a.n) (by omega) y hi h0 h1
  simp only [gap, evaluate, if_neg (show ¬ a.n ≤ 3 by omega), e, dotSeg, V3.dot, cub, Seg.ev]
  ring

/-! ### ranges of the solvers -/

theorem push_range {l : List ℝ} {u lo hi : ℝ} (hl : lo ≤ hi) (h : ∀ r ∈ l, lo ≤ r ∧ r ≤ hi) :
    ∀ r ∈ push l u lo hi, lo ≤ r ∧ r ≤ hi := by
  unfold push; split_ifs
  · intro r hr
    rw [List.mem_append, List.mem_singleton] at hr
    rcases hr with hr | rfl
    · exact h r hr
    · exact clamp_mem hl
  · exact h

theorem pushDistinct_range {l : List ℝ} {u lo hi : ℝ} (hl : lo ≤ hi) (h : ∀ r ∈ l, lo ≤ r ∧ r ≤ hi) :
    ∀ r ∈ pushDistinct l u lo hi, lo ≤ r ∧ r ≤ hi := by
  have hp := push_range (u := u) hl h
  unfold pushDistinct; split_ifs with hr
  · rw [push, if_pos hr] at hp
    cases l.getLast? with
    | none => exact hp
    | some r =>
      simp only []
      split_ifs
      · exact hp
      · exact h
  · exact h

theorem solveLinear_range {a b lo hi : ℝ} (hl : lo ≤ hi) : ∀ r ∈ solveLinear a b lo hi, lo ≤ r ∧ r ≤ hi := by
  unfold solveLinear; split_ifs <;> simp [clamp_mem hl]

theorem solveQuadratic_range {a b c lo hi : ℝ} (hl : lo ≤ hi) : ∀ r ∈ solveQuadratic a b c lo hi, lo ≤ r ∧ r ≤ hi := by
  unfold solveQuadratic
  by_cases h : |a| < eps
  · rw [if_pos h]; exact solveLinear_range hl
  · rw [if_neg h]; simp only []
    by_cases h1 : b * b - 4 * a * c < 0
    · rw [if_pos h1]; simp
    · rw [if_neg h1]
      by_cases h2 : b * b - 4 * a * c < eps
      · rw [if_pos h2]; exact push_range hl (by simp)
      · rw [if_neg h2]; exact pushDistinct_range hl (push_range hl (by simp))

theorem solveCubic_range {a b c d lo hi : ℝ} (hl : lo ≤ hi) : ∀ r ∈ solveCubic a b c d lo hi, lo ≤ r ∧ r ≤ hi := by
  unfold solveCubic
  by_cases h : |a| < eps
  · rw [if_pos h]; exact solveQuadratic_range hl
  · rw [if_neg h]; simp only []
    intro r hr
    rw [mem_sort] at hr
    revert r hr
    split_ifs
    · exact push_range hl (push_range hl (push_range hl (by simp)))
    · cases singleRoot _ _ with
      | none => simp
      | some u => exact push_range hl (by simp)
    · exact push_range hl (by simp)
    · exact pushDistinct_range hl (push_range hl (by simp))

/-! ### collecting the segments -/

theorem appendRoots_spec (k : ℝ) : ∀ (roots acc : List ℝ),
    (∀ r ∈ acc, r ∈ appendRoots acc k roots) ∧
    (∀ r ∈ appendRoots acc k roots, r ∈ acc ∨ ∃ u ∈ roots, r = k + u) ∧
    (∀ u ∈ roots, ∃ r ∈ appendRoots acc k roots, |k + u - r| ≤ 1 / 1000000)
  | [], acc => by simp [appendRoots]
  | u :: us, acc => by
    set acc' := match acc.getLast? with
      | none => acc ++ [k + u]
      | some r => if 1 / 1000000 < |k + u - r| then acc ++ [k + u] else acc with hacc'
    have hstep : appendRoots acc k (u :: us) = appendRoots acc' k us := rfl
    obtain ⟨h1, h2, h3⟩ := appendRoots_spec k us acc'
    have hsub : ∀ r ∈ acc, r ∈ acc' := by
      intro r hr; rw [hacc']; split
      · simp [hr]
      · split_ifs <;> simp [hr]
    have hsup : ∀ r ∈ acc', r ∈ acc ∨ r = k + u := by
      intro r hr; rw [hacc'] at hr
      split at hr
      · simpa using hr
      · split_ifs at hr
        · simpa using hr
        · exact Or.inl hr
    have hnear : ∃ r ∈ acc', |k + u - r| ≤ 1 / 1000000 := by
      rw [hacc']; split
      · exact ⟨k + u, by simp, by rw [sub_self, abs_zero]; norm_num⟩
      · rename_i r hr
        split_ifs with hc
        · exact ⟨k + u, by simp, by rw [sub_self, abs_zero]; norm_num⟩
        · exact ⟨r, List.mem_of_getLast? hr, not_lt.1 hc⟩
    rw [hstep]
    refine ⟨fun r hr => h1 r (hsub r hr), ?_, ?_⟩
    · intro r hr
      rcases h2 r hr with h | ⟨v, hv, e⟩
      · rcases hsup r h with h | h
        · exact Or.inl h
        · exact Or.inr ⟨u, by simp, h⟩
      · exact Or.inr ⟨v, by simp [hv], e⟩
    · intro v hv
      rcases List.mem_cons.1 hv with rfl | hv
      · obtain ⟨r, hr, he⟩ := hnear
        exact ⟨r, h1 r hr, he⟩
      · exact h3 v hv

/-- The roots found on segment `i`. -/
def segRoots (a : TArc) (nrm : V3) (i : ℕ) : List ℝ :=
  solveCubic (dotSeg a nrm i).d (dotSeg a nrm i).c (dotSeg a nrm i).b (dotSeg a nrm i).a 0
    (knot a.n (i + 1) - knot a.n i)

theorem spline_fold_spec (a : TArc) (nrm : V3) : ∀ m,
    let L := (List.range m).foldl (fun acc i => appendRoots acc (knot a.n i) (segRoots a nrm i)) []
    (∀ r ∈ L, ∃ i < m, ∃ u ∈ segRoots a nrm i, r = knot a.n i + u) ∧
    (∀ i < m, ∀ u ∈ segRoots a nrm i, ∃ r ∈ L, |knot a.n i + u - r| ≤ 1 / 1000000)
  | 0 => by simp
  | m + 1 => by
    obtain ⟨h1, h2⟩ := spline_fold_spec a nrm m
    simp only [List.range_succ, List.foldl_append, List.foldl_cons, List.foldl_nil]
    set L := (List.range m).foldl (fun acc i => appendRoots acc (knot a.n i) (segRoots a nrm i)) []
    obtain ⟨g1, g2, g3⟩ := appendRoots_spec (knot a.n m) (segRoots a nrm m) L
    constructor
    · intro r hr
      rcases g2 r hr with h | ⟨u, hu, e⟩
      · obtain ⟨i, hi, x⟩ := h1 r h
        exact ⟨i, by omega, x⟩
      · exact ⟨m, by omega, u, hu, e⟩
    · intro i hi u hu
      rcases Nat.lt_succ_iff_lt_or_eq.1 hi with hi | rfl
      · obtain ⟨r, hr, e⟩ := h2 i hi u hu
        exact ⟨r, g1 r hr, e⟩
      · exact g3 u hu

theorem crossingsSpline_spec (a : TArc) (nrm : V3) :
    (∀ r ∈ crossingsSpline a nrm, ∃ i < a.n - 1, ∃ u ∈ segRoots a nrm i, r = knot a.n i + u) ∧
    (∀ i < a.n - 1, ∀ u ∈ segRoots a nrm i, ∃ r ∈ crossingsSpline a nrm, |knot a.n i + u - r| ≤ 1 / 1000000) := by
  obtain ⟨h1, h2⟩ := spline_fold_spec a nrm (a.n - 1)
  have e : crossingsSpline a nrm =
      sort ((List.range (a.n - 1)).foldl (fun acc i => appendRoots acc (knot a.n i) (segRoots a nrm i)) []) := rfl
  rw [e]
  exact ⟨fun r hr => h1 r (mem_sort.1 hr), fun i hi u hu => by
    obtain ⟨r, hr, x⟩ := h2 i hi u hu
    exact ⟨r, mem_sort.2 hr, x⟩⟩

/-! ### statements -/

/-- Coefficients for which the code's thresholds do not interfere: at every degree the leading coefficient is zero or
at least `1e-10`, and the discriminant is zero, or at least `1e-10`, or (degree two only) negative. -/
def Conditioned (a b c d : ℝ) : Prop :=
  (eps ≤ |a| ∧ (eps < disc a b c d ∨ (disc a b c d = 0 ∧ (depB a b c d = 0 ∨ eps ≤ |depB a b c d|)))) ∨
  (a = 0 ∧ eps ≤ |b| ∧ (c * c - 4 * b * d ≤ 0 ∨ eps ≤ c * c - 4 * b * d)) ∨
  (a = 0 ∧ b = 0 ∧ eps ≤ |c|) ∨ (a = 0 ∧ b = 0 ∧ c = 0 ∧ d ≠ 0)

theorem solveCubic_conditioned {a b c d lo hi : ℝ} (hl : lo ≤ hi) (h : Conditioned a b c d) :
    Finds (cub a b c d) lo hi (solveCubic a b c d lo hi) := by
  have e0 : |(0 : ℝ)| < eps := by rw [abs_zero]; exact eps_pos
  rcases h with ⟨ha, hd⟩ | ⟨rfl, hb, hd⟩ | ⟨rfl, rfl, hc⟩ | ⟨rfl, rfl, rfl, hd⟩
  · exact solveCubic_finds hl ha hd
  · unfold solveCubic; rw [if_pos e0]; exact solveQuadratic_finds hl hb hd
  · unfold solveCubic; rw [if_pos e0]; unfold solveQuadratic; rw [if_pos e0]; exact solveLinear_finds hl hc
  · unfold solveCubic; rw [if_pos e0]; unfold solveQuadratic; rw [if_pos e0]; unfold solveLinear; rw [if_pos e0]
    refine ⟨?_, by simp, by simp⟩
    intro t _ _ h0; simp [cub] at h0; exact absurd h0 hd

/-- **C48 (one to three samples).** The crossings of a constant, linear or quadratic trajectory are exactly the times
it is in the plane, to within `1e-10`, unless a threshold of the code interferes. -/
theorem C48_polynomial_partial {a : TArc} (h1 : 1 ≤ a.n) (h3 : a.n ≤ 3) (nrm : V3)
    (hc : ∀ c0 c1 c2, (∀ t, gap a nrm t = cub 0 c2 c1 c0 t) → Conditioned 0 c2 c1 c0) :
    FindsTol eps (gap a nrm) (planeCrossings a nrm) := by
  have key : ∃ c0 c1 c2, (∀ t, gap a nrm t = cub 0 c2 c1 c0 t) ∧
      planeCrossings a nrm = (if a.n = 1 then [] else if a.n = 2 then solveLinear c1 c0 0 1 else solveQuadratic c2 c1 c0 0 1) ∧
      (a.n = 1 → c1 = 0 ∧ c2 = 0) ∧ (a.n = 2 → c2 = 0) := by
    rcases (show a.n = 1 ∨ a.n = 2 ∨ a.n = 3 by omega) with h | h | h
    · refine ⟨V3.dot nrm (a.p 0), 0, 0, ?_, ?_, by simp, by simp⟩
      · intro t; simp [gap, evaluate, h3, polyCoeffs, h, horner, cub]
      · simp [planeCrossings, h, polyCoeffs, crossingsPoly]
    · refine ⟨V3.dot nrm (a.p 0), V3.dot nrm (a.p 1 - a.p 0), 0, ?_, ?_, by omega, by simp⟩
      · intro t; simp [gap, evaluate, h3, polyCoeffs, h, horner, cub, V3.dot]; ring
      · simp [planeCrossings, h, polyCoeffs, crossingsPoly]
    · refine ⟨V3.dot nrm (a.p 0), V3.dot nrm ((-3 : ℝ) * a.p 0 + (4 : ℝ) * a.p 1 - a.p 2),
        V3.dot nrm ((2 : ℝ) * a.p 0 - (4 : ℝ) * a.p 1 + (2 : ℝ) * a.p 2), ?_, ?_, by omega, by omega⟩
      · intro t; simp [gap, evaluate, h3, polyCoeffs, h, horner, cub, V3.dot]; ring
      · simp [planeCrossings, h, polyCoeffs, crossingsPoly]
  obtain ⟨c0, c1, c2, hg, hl, hn1, hn2⟩ := key
  have hcond := hc c0 c1 c2 hg
  have hf := solveCubic_conditioned (lo := 0) (hi := 1) (by norm_num) hcond
  have e0 : |(0 : ℝ)| < eps := by rw [abs_zero]; exact eps_pos
  have e : planeCrossings a nrm = solveCubic 0 c2 c1 c0 0 1 := by
    rw [hl]; unfold solveCubic; rw [if_pos e0]
    split_ifs with g1 g2
    · obtain ⟨rfl, rfl⟩ := hn1 g1
      unfold solveQuadratic; rw [if_pos e0]; unfold solveLinear; rw [if_pos e0]
    · obtain rfl := hn2 g2
      unfold solveQuadratic; rw [if_pos e0]
    · rfl
  have hg' : gap a nrm = cub 0 c2 c1 c0 := funext hg
  rw [e, hg']
  exact ⟨hf.complete, hf.sound, hf.sorted⟩

/-- The quadratic through (1,0), (-1,0), (1,0) (last coordinate 1) crosses the plane `x = 0` twice. -/
example : ∃ a, mk? [⟨1, 0, 1⟩, ⟨-1, 0, 1⟩, ⟨1, 0, 1⟩] = some a ∧ 1 ≤ a.n ∧ a.n ≤ 3 ∧
    ∀ c0 c1 c2, (∀ t, gap a ⟨1, 0, 0⟩ t = cub 0 c2 c1 c0 t) → Conditioned 0 c2 c1 c0 := by
  refine ⟨_, rfl, by simp, by simp, ?_⟩
  intro c0 c1 c2 h
  have h0 := h 0
  have h1 := h 1
  have h2 := h (1 / 2)
  simp [gap, evaluate, polyCoeffs, horner, cub, V3.dot] at h0 h1 h2
  have e2 : c2 = 8 := by linarith
  have e1 : c1 = -8 := by linarith
  have e0 : c0 = 1 := by linarith
  subst e0 e1 e2
  right; left
  refine ⟨rfl, ?_, Or.inr ?_⟩ <;> norm_num [eps]

/-- **C48 (four or more samples).** If the thresholds of the code interfere on no segment, every time at which the
trajectory is in the plane is reported to within `1.0001e-6`, and every reported time lies on a segment whose cubic
vanishes within `1e-10` of it. -/
theorem C48_spline_partial {a : TArc} (hn : 4 ≤ a.n) (nrm : V3)
    (hc : ∀ i < a.n - 1, ∀ c0 c1 c2 c3 : ℝ,
      (∀ t, (i : ℝ) / ((a.n - 1 : ℕ) : ℝ) ≤ t → t ≤ ((i + 1 : ℕ) : ℝ) / ((a.n - 1 : ℕ) : ℝ) →
        gap a nrm t = cub c3 c2 c1 c0 (t - (i : ℝ) / ((a.n - 1 : ℕ) : ℝ))) → Conditioned c3 c2 c1 c0) :
    (∀ t, 0 ≤ t → t ≤ 1 → gap a nrm t = 0 → ∃ r ∈ planeCrossings a nrm, |t - r| ≤ 1 / 1000000 + eps) ∧
    (∀ r ∈ planeCrossings a nrm, ∃ i < a.n - 1, ∃ c0 c1 c2 c3 t : ℝ,
      (i : ℝ) / ((a.n - 1 : ℕ) : ℝ) ≤ r ∧ r ≤ ((i + 1 : ℕ) : ℝ) / ((a.n - 1 : ℕ) : ℝ) ∧ |t - r| ≤ eps ∧
      (∀ s, (i : ℝ) / ((a.n - 1 : ℕ) : ℝ) ≤ s → s ≤ ((i + 1 : ℕ) : ℝ) / ((a.n - 1 : ℕ) : ℝ) →
        gap a nrm s = cub c3 c2 c1 c0 s) ∧ cub c3 c2 c1 c0 t = 0) ∧
    (planeCrossings a nrm).Pairwise (· ≤ ·) := by
  have e : planeCrossings a nrm = crossingsSpline a nrm := by
    unfold planeCrossings; rw [if_neg (by omega)]
  rw [e]
  have hk : ∀ i : ℕ, (i : ℝ) / ((a.n - 1 : ℕ) : ℝ) = knot a.n i := fun i => rfl
  simp only [hk] at hc ⊢
  have hcond : ∀ i < a.n - 1, Conditioned (dotSeg a nrm i).d (dotSeg a nrm i).c (dotSeg a nrm i).b (dotSeg a nrm i).a :=
    fun i hi => hc i hi _ _ _ _ fun t h0 h1 => gap_seg hn nrm (by omega) h0 h1
  have hfin : ∀ i < a.n - 1, Finds _ 0 (knot a.n (i + 1) - knot a.n i) (segRoots a nrm i) := fun i hi =>
    solveCubic_conditioned (by have := knot_mono (n := a.n) (by omega) (Nat.le_succ i); linarith) (hcond i hi)
  obtain ⟨s1, s2⟩ := crossingsSpline_spec a nrm
  refine ⟨?_, ?_, sort_sorted _⟩
  · intro t h0 h1 hz
    obtain ⟨x, y, z⟩ := segIndex_spec (n := a.n) h0
    set i := segIndex a.n t
    have hlt : t ≤ knot a.n (i + 1) := by
      rcases z with z | z
      · rw [z, show a.n - 2 + 1 = a.n - 1 by omega, knot_last (by omega)]; exact h1
      · exact z.le
    rw [gap_seg hn nrm x y hlt] at hz
    obtain ⟨r, hr, he⟩ := (hfin i (by omega)).complete (t - knot a.n i) (by linarith) (by linarith) hz
    obtain ⟨r', hr', he'⟩ := s2 i (by omega) r hr
    refine ⟨r', hr', ?_⟩
    calc |t - r'| = |(t - knot a.n i - r) + (knot a.n i + r - r')| := by ring_nf
      _ ≤ _ := (abs_add_le _ _).trans (by linarith)
  · intro r hr
    obtain ⟨i, hi, u, hu, rfl⟩ := s1 r hr
    obtain ⟨u0, u1, t, ht, he⟩ := (hfin i hi).sound u hu
    set k := knot a.n i
    set D := dotSeg a nrm i
    refine ⟨i, hi, cub D.d D.c D.b D.a (-k), D.b - 2 * D.c * k + 3 * D.d * k ^ 2, D.c - 3 * D.d * k, D.d, k + t,
      by linarith, by linarith, ?_, ?_, ?_⟩
    · rw [show k + t - (k + u) = t - u by ring]; exact he
    · intro s h0 h1
      rw [gap_seg hn nrm (by omega) h0 h1]; simp only [cub]; ring
    · rw [← ht]; simp only [cub]; ring

/-- Uniform motion through four samples meets the hypothesis on every segment. -/
example : let a : TArc := ⟨4, fun i => ⟨2 * i - 1, 0, 1⟩⟩
    ∀ i < a.n - 1, ∀ c0 c1 c2 c3 : ℝ,
      (∀ t, (i : ℝ) / ((a.n - 1 : ℕ) : ℝ) ≤ t → t ≤ ((i + 1 : ℕ) : ℝ) / ((a.n - 1 : ℕ) : ℝ) →
        gap a ⟨1, 0, 0⟩ t = cub c3 c2 c1 c0 (t - (i : ℝ) / ((a.n - 1 : ℕ) : ℝ))) → Conditioned c3 c2 c1 c0 := by
  intro a i hi c0 c1 c2 c3 h
  have hstep : step 4 = 1 / 3 := by rw [step_eq]; norm_num
  have hM : ∀ j, secondDeriv 4 (fun j => (a.p j).x) j = 0 := by
    intro j
    unfold secondDeriv
    split_ifs with hj
    · have : j = 1 ∨ j = 2 := by omega
      rcases this with rfl | rfl <;> simp [back, rhs, rhs0, diag, hstep, a] <;> norm_num
    · rfl
  have hd : dotSeg a ⟨1, 0, 0⟩ i = ⟨2 * i - 1, 6, 0, 0⟩ := by
    have e4 : a.n = 4 := rfl
    simp only [dotSeg, seg, V3.dot, e4, hM, hstep]
    simp [a]; norm_num; ring
  have hi3 : i ≤ 2 := by simp [a] at hi; omega
  have hg : ∀ u : ℝ, 0 ≤ u → u ≤ 1 / 3 → cub c3 c2 c1 c0 u = cub 0 0 6 (2 * i - 1) u := by
    intro u h0 h1
    have e3 : ((a.n - 1 : ℕ) : ℝ) = 3 := by simp [a]
    have e := gap_seg (a := a) (by simp [a]) ⟨1, 0, 0⟩ (i := i) (by simp [a]; omega) (t := i / 3 + u)
      (by simp only [knot, e3]; linarith) (by simp only [knot, e3]; push_cast; linarith)
    have e' := h (i / 3 + u) (by simp only [e3]; linarith) (by simp only [e3]; push_cast; linarith)
    rw [hd] at e
    rw [e] at e'
    simp only [knot, e3, add_sub_cancel_left] at e'
    exact e'.symm
  have g0 := hg 0 (by norm_num) (by norm_num)
  have g1 := hg (1 / 3) (by norm_num) (by norm_num)
  have g2 := hg (1 / 6) (by norm_num) (by norm_num)
  have g3 := hg (1 / 9) (by norm_num) (by norm_num)
  simp only [cub] at g0 g1 g2 g3
  have e3 : c3 = 0 := by linarith
  have e2 : c2 = 0 := by linarith
  have e1 : c1 = 6 := by linarith
  subst e1 e2 e3
  right; right; left
  exact ⟨rfl, rfl, by norm_num [eps]⟩

/-- **C48 (violated).** The smooth trajectory through x = -9, -1, 1, 9 passes through the plane x = 0 in the middle of
the exposure, and no crossing is reported anywhere near. -/
theorem C48_violated : ¬ C48_full := by
  intro h
  have hs := h [⟨-9, 0, 1⟩, ⟨-1, 0, 1⟩, ⟨1, 0, 1⟩, ⟨9, 0, 1⟩] _ ⟨1, 0, 0⟩ rfl
  set a : TArc := ⟨4, fun i => [(⟨-9, 0, 1⟩ : V3), ⟨-1, 0, 1⟩, ⟨1, 0, 1⟩, ⟨9, 0, 1⟩].getD i V3.zero⟩ with ha
  change (∃ t, 0 ≤ t ∧ t ≤ 1 ∧ gap a ⟨1, 0, 0⟩ t ≠ 0) → FindsTol _ (gap a _) (planeCrossings a _) at hs
  have hstep : step 4 = 1 / 3 := by rw [step_eq]; norm_num
  have hM1 : secondDeriv 4 (fun j => (a.p j).x) 1 = -108 := by
    simp [secondDeriv, back, rhs, rhs0, diag, hstep, ha]; norm_num
  have hM2 : secondDeriv 4 (fun j => (a.p j).x) 2 = 108 := by
    simp [secondDeriv, back, rhs, rhs0, diag, hstep, ha]; norm_num
  have hd : dotSeg a ⟨1, 0, 0⟩ 1 = ⟨-1, 12, -54, 108⟩ := by
    have e4 : a.n = 4 := rfl
    simp only [dotSeg, seg, V3.dot, e4, hM1, hM2, hstep]
    norm_num [ha]
  have hgap : ∀ t, (1 / 3 : ℝ) ≤ t → t ≤ 2 / 3 → gap a ⟨1, 0, 0⟩ t = cub 108 (-54) 12 (-1) (t - 1 / 3) := by
    intro t h0 h1
    have := gap_seg (a := a) (by simp [ha]) ⟨1, 0, 0⟩ (i := 1) (by simp [ha]) (t := t)
      (by simp [knot, ha]; linarith) (by simp [knot, ha]; linarith)
    rw [hd] at this
    simpa [knot, ha] using this
  have hfind := hs ⟨1 / 3, by norm_num, by norm_num, by rw [hgap _ (by norm_num) (by norm_num)]; norm_num [cub]⟩
  obtain ⟨r, hr, he⟩ := hfind.complete (1 / 2) (by norm_num) (by norm_num)
    (by rw [hgap _ (by norm_num) (by norm_num)]; norm_num [cub])
  have hr' : r ∈ crossingsSpline a ⟨1, 0, 0⟩ := by
    have : planeCrossings a ⟨1, 0, 0⟩ = crossingsSpline a ⟨1, 0, 0⟩ := by
      unfold planeCrossings; rw [if_neg (by simp [ha])]
    rwa [this] at hr
  obtain ⟨i, hi, u, hu, e⟩ := (crossingsSpline_spec a ⟨1, 0, 0⟩).1 r hr'
  have hrange := solveCubic_range (by have := knot_mono (n := a.n) (by simp [ha]) (Nat.le_succ i); linarith) u hu
  rw [abs_le] at he
  have hi3 : i = 0 ∨ i = 1 ∨ i = 2 := by simp [ha] at hi; omega
  rcases hi3 with rfl | rfl | rfl
  · norm_num [knot, ha] at hrange e; linarith
  · have : segRoots a ⟨1, 0, 0⟩ 1 = [] := by
      unfold segRoots; rw [hd]
      exact solveCubic_monotone_none (by norm_num [eps]) (by norm_num [depA]) (by norm_num [disc, depA, depB, eps])
    rw [this] at hu; simp at hu
  · norm_num [knot, ha] at hrange e; linarith

/-- **C48 (violated, general).** For every cubic with exactly one real root (discriminant below the threshold): if it
is monotone, nothing is reported, on any interval; otherwise any reported value inside the interval is not a root. -/
theorem C48_single_crossing_violated {a b c d lo hi : ℝ} (ha : eps ≤ |a|) (hd : disc a b c d < -eps) :
    (0 ≤ depA a b c → solveCubic a b c d lo hi = []) ∧
    (depA a b c < 0 → lo ≤ hi → ∀ r ∈ solveCubic a b c d lo hi, lo < r → r < hi → cub a b c d r ≠ 0) := by
  have hep := eps_pos
  have ha0 : a ≠ 0 := by rintro rfl; rw [abs_zero] at ha; linarith
  refine ⟨fun hA => solveCubic_monotone_none ha hA hd, ?_⟩
  intro hA hl r hr h1 h2
  obtain ⟨u, hu, hres, hB⟩ := singleRoot_residual hA (show -4 * depA a b c * depA a b c * depA a b c -
    27 * depB a b c d * depB a b c d < 0 by have := hd; unfold disc at this; linarith)
  unfold solveCubic at hr
  rw [if_neg (not_lt.2 ha)] at hr
  simp only [] at hr
  change r ∈ sort (if eps < disc a b c d then _ else if disc a b c d < -eps then
    match singleRoot (depA a b c) (depB a b c d) with | none => [] | some u => _ else
    if |depB a b c d| < eps then _ else _) at hr
  rw [if_neg (by linarith), if_pos hd, hu, mem_sort] at hr
  simp only [push] at hr
  split_ifs at hr with hir
  · simp only [List.nil_append, List.mem_singleton] at hr
    have hcl : r = u + -(b / a) / 3 := by
      rw [hr]; rw [hr] at h1 h2; unfold clamp at h1 h2 ⊢
      split_ifs at h1 h2 ⊢ <;> first | rfl | (exfalso; linarith)
    rw [Ne, cub_depressed ha0, hcl, show u + -(b / a) / 3 + b / a / 3 = u by ring, hres]
    simpa using hB
  · simp at hr

end
end Huira.Arc
