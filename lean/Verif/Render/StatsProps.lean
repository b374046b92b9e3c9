import Mathlib.Tactic.FieldSimp
import Mathlib.Tactic.Linarith
import Mathlib.Tactic.Ring
import Mathlib.Tactic.Positivity
import Mathlib.Algebra.BigOperators.Ring.List
import Verif.Render.StatsModel
set_option linter.unusedSimpArgs false
/-!
# C54, C79, C80: sampling statistics, NaN samples, roulette and clamp
-/
namespace Huira.Stats
noncomputable section
open Classical

/-! ### Power heuristic -/

/-- The property at full strength: for any two probability densities (non-negative, possibly infinite for a delta
distribution) the two weights are in [0, 1] and sum to one. -/
def C54_heuristic_full : Prop :=
  ∀ f g : XF, XF.le (.fin 0) f → XF.le (.fin 0) g →
    ∃ a b : ℝ, powerHeuristic f g = .fin a ∧ powerHeuristic g f = .fin b ∧ 0 ≤ a ∧ a ≤ 1 ∧ 0 ≤ b ∧ b ≤ 1 ∧ a + b = 1

/-- **C54, violated.** With both densities 0 the weight is 0/0. -/
theorem C54_heuristic_violated : ¬ C54_heuristic_full := by
  intro h
  obtain ⟨a, b, h1, _⟩ := h (.fin 0) (.fin 0) (le_refl (0 : ℝ)) (le_refl (0 : ℝ))
  simp [powerHeuristic, XF.isInf] at h1

theorem C54_both_zero : powerHeuristic (.fin 0) (.fin 0) = .nan := by
  simp [powerHeuristic, XF.isInf]

theorem heuristic_fin (f g : ℝ) (h : f ≠ 0 ∨ g ≠ 0) :
    powerHeuristic (.fin f) (.fin g) = .fin (f * f / (f * f + g * g)) := by
  have : f * f + g * g ≠ 0 := by
    rcases h with h | h
    · have := mul_self_pos.2 h; have := mul_self_nonneg g; intro e; linarith
    · have := mul_self_pos.2 h; have := mul_self_nonneg f; intro e; linarith
  simp only [powerHeuristic, XF.fin_mul, XF.isInf, if_false, XF.fin_add, XF.div_fin _ _ this]

/-- **C54, weights (partial).** For finite densities that are not both zero, and for one infinite and one finite density,
the two weights are in [0, 1] and sum to one; the delta strategy gets weight 1. Missing: both zero (NaN) and both infinite
(1 + 1). -/
theorem C54_heuristic_partial (f g : XF) (hf : XF.le (.fin 0) f) (hg : XF.le (.fin 0) g)
    (h0 : ¬ (f = .fin 0 ∧ g = .fin 0)) (hi : ¬ (f = .pinf ∧ g = .pinf)) :
    ∃ a b : ℝ, powerHeuristic f g = .fin a ∧ powerHeuristic g f = .fin b ∧
      0 ≤ a ∧ a ≤ 1 ∧ 0 ≤ b ∧ b ≤ 1 ∧ a + b = 1 := by
  match f, g, hf, hg, h0, hi with
  | .fin f, .fin g, hf, hg, h0, _ =>
    have hne : f ≠ 0 ∨ g ≠ 0 := by
      by_contra hcon
      push Not at hcon
      exact h0 ⟨by rw [hcon.1], by rw [hcon.2]⟩
    refine ⟨_, _, heuristic_fin f g hne, heuristic_fin g f hne.symm, ?_⟩
    have h1 := mul_self_nonneg f
    have h2 := mul_self_nonneg g
    have hs : 0 < f * f + g * g := by
      rcases hne with h | h
      · have := mul_self_pos.2 h; linarith
      · have := mul_self_pos.2 h; linarith
    have hs' : 0 < g * g + f * f := by linarith
    refine ⟨by positivity, ?_, by positivity, ?_, ?_⟩
    · rw [div_le_one hs]; linarith
    · rw [div_le_one hs']; linarith
    · rw [add_comm (g * g) (f * f), ← add_div]; exact div_self hs.ne'
  | .pinf, .fin g, _, _, _, _ =>
    refine ⟨1, 0, ?_, ?_, by norm_num, by norm_num, by norm_num, by norm_num, by norm_num⟩
    · simp [powerHeuristic, XF.mul, XF.isInf]
    · simp [powerHeuristic, XF.mul, XF.isInf, XF.add, XF.div]
  | .fin f, .pinf, _, _, _, _ =>
    refine ⟨0, 1, ?_, ?_, by norm_num, by norm_num, by norm_num, by norm_num, by norm_num⟩
    · simp [powerHeuristic, XF.mul, XF.isInf, XF.add, XF.div]
    · simp [powerHeuristic, XF.mul, XF.isInf]
  | .pinf, .pinf, _, _, _, hi => exact absurd ⟨rfl, rfl⟩ hi
  | .nan, _, hf, _, _, _ => exact absurd hf id
  | .ninf, _, hf, _, _, _ => exact absurd hf id
  | .fin _, .nan, _, hg, _, _ => exact absurd hg id
  | .fin _, .ninf, _, hg, _, _ => exact absurd hg id
  | .pinf, .nan, _, hg, _, _ => exact absurd hg id
  | .pinf, .ninf, _, hg, _, _ => exact absurd hg id

/-- A larger density never gets a smaller weight: the heuristic prefers the better strategy. -/
theorem C54_heuristic_prefers (f g : ℝ) (hf : 0 ≤ f) (hfg : f ≤ g) (hg : 0 < g) :
    ∃ a : ℝ, powerHeuristic (.fin f) (.fin g) = .fin a ∧ a ≤ 1 / 2 := by
  refine ⟨_, heuristic_fin f g (Or.inr hg.ne'), ?_⟩
  have h1 : f * f ≤ g * g := mul_self_le_mul_self hf hfg
  have h2 := mul_pos hg hg
  have h3 := mul_self_nonneg f
  rw [div_le_iff₀ (by linarith)]
  linarith

example : powerHeuristic (.fin 3) (.fin 4) = .fin (9 / 25) := by
  rw [heuristic_fin _ _ (by norm_num)]; norm_num

/-! ### Running mean and variance -/

/-- Specification: all bins of both parts are finite. -/
def Finite {n : Nat} (x : Sample n) : Prop := ∀ c, (∃ r, x.1 c = .fin r) ∧ ∃ r, x.2 c = .fin r

/-- The number in a finite value (0 otherwise). -/
def val : XF → ℝ
  | .fin r => r
  | _ => 0

/-- Specification: direct, indirect and total radiance of a sample in bin `c`. -/
def direct {n : Nat} (c : Fin (n + 1)) (x : Sample n) : ℝ := val (x.1 c)
def indirect {n : Nat} (c : Fin (n + 1)) (x : Sample n) : ℝ := val (x.2 c)
def rad {n : Nat} (c : Fin (n + 1)) (x : Sample n) : ℝ := direct c x + indirect c x

/-- Specification: mean of a list of numbers. -/
def meanOf (l : List ℝ) : ℝ := l.sum / l.length
/-- Specification: sum of squared deviations from the mean. -/
def devOf (l : List ℝ) : ℝ := (l.map fun x => (x - meanOf l) ^ 2).sum

theorem radiance_fin {n : Nat} (x : Sample n) (h : Finite x) (c : Fin (n + 1)) : radiance x c = .fin (rad c x) := by
  obtain ⟨⟨a, ha⟩, ⟨b, hb⟩⟩ := h c
  simp [radiance, rad, direct, indirect, ha, hb, val]

theorem not_skipped_of_finite {n : Nat} (x : Sample n) (h : Finite x) : ¬ skipped x := by
  unfold skipped
  rw [radiance_fin x h]
  exact id

theorem devOf_expand (l : List ℝ) (m : ℝ) :
    (l.map fun x => (x - m) ^ 2).sum = (l.map fun x => x ^ 2).sum - 2 * m * l.sum + l.length * m ^ 2 := by
  induction l with
  | nil => simp
  | cons a t ih =>
    simp only [List.map_cons, List.sum_cons, ih, List.length_cons]
    push_cast
    ring

/-- Welford's recurrence for the sum of squared deviations. -/
theorem dev_append (l : List ℝ) (x : ℝ) :
    devOf (l ++ [x]) = devOf l + (x - meanOf l) * (x - meanOf (l ++ [x])) := by
  unfold devOf
  rw [devOf_expand, devOf_expand]
  unfold meanOf
  simp only [List.map_append, List.map_cons, List.map_nil, List.sum_append, List.sum_cons, List.sum_nil,
    List.length_append, List.length_cons, List.length_nil]
  push_cast
  by_cases hl : l = []
  · subst hl; simp; ring
  · have h1 : (l.length : ℝ) ≠ 0 := by
      have := List.length_pos_of_ne_nil hl
      positivity
    have h2 : (l.length : ℝ) + (0 + 1) ≠ 0 := by positivity
    field_simp
    ring

theorem mean_append (l : List ℝ) (x : ℝ) :
    meanOf (l ++ [x]) = meanOf l + (x - meanOf l) * (1 / ((l.length : ℝ) + 1)) := by
  unfold meanOf
  simp only [List.sum_append, List.sum_cons, List.sum_nil, List.length_append, List.length_cons, List.length_nil]
  push_cast
  by_cases hl : l = []
  · subst hl; simp
  · have h1 : (l.length : ℝ) ≠ 0 := by
      have := List.length_pos_of_ne_nil hl
      positivity
    have h2 : (l.length : ℝ) + 1 ≠ 0 := by positivity
    have h3 : (l.length : ℝ) + (0 + 1) ≠ 0 := by positivity
    field_simp
    ring

/-- What the accumulators hold after the samples `ys` have been accepted. -/
structure Holds {n : Nat} (a : Acc n) (ys : List (Sample n)) : Prop where
  taken : a.taken = ys.length
  mean : ∀ c, a.mean c = .fin (meanOf (ys.map (rad c)))
  m2 : ∀ c, a.m2 c = .fin (devOf (ys.map (rad c)))
  direct : ∀ c, a.direct c = .fin (ys.map (Stats.direct c)).sum
  indirect : ∀ c, a.indirect c = .fin (ys.map (Stats.indirect c)).sum
  total : ∀ c, a.total c = .fin (ys.map (rad c)).sum
  inv : ys ≠ [] → a.inv = .fin (1 / (ys.length : ℝ))

theorem holds_init (n : Nat) : Holds (Acc.init n) [] := by
  constructor <;> simp [Acc.init, meanOf, devOf]

theorem holds_accept {n : Nat} (a : Acc n) (ys : List (Sample n)) (x : Sample n) (h : Holds a ys) (hx : Finite x) :
    Holds (accept a x) (ys ++ [x]) := by
  have htk : ((a.taken + 1 : Nat) : ℝ) = (ys.length : ℝ) + 1 := by rw [h.taken]; push_cast; ring
  have hne : (ys.length : ℝ) + 1 ≠ 0 := by positivity
  have hd : ∀ c, x.1 c = .fin (direct c x) := fun c => by
    obtain ⟨⟨r, hr⟩, _⟩ := hx c; simp [Stats.direct, hr, val]
  have hi : ∀ c, x.2 c = .fin (indirect c x) := fun c => by
    obtain ⟨_, ⟨r, hr⟩⟩ := hx c; simp [Stats.indirect, hr, val]
  have hmean : ∀ c, (accept a x).mean c = .fin (meanOf ((ys ++ [x]).map (rad c))) := by
    intro c
    simp only [accept, radiance_fin x hx, h.mean, htk, XF.div_fin _ _ hne, XF.neg, XF.fin_add, XF.fin_mul,
      List.map_append, List.map_cons, List.map_nil, mean_append, List.length_map]
    congr 1
  constructor
  · simp [accept, h.taken]
  · exact hmean
  · intro c
    have hm := hmean c
    have : (accept a x).m2 c = XF.add (a.m2 c) (XF.mul (XF.add (radiance x c) (XF.neg (a.mean c)))
        (XF.add (radiance x c) (XF.neg ((accept a x).mean c)))) := rfl
    rw [this, hm, h.m2, h.mean, radiance_fin x hx]
    simp only [XF.neg, XF.fin_add, XF.fin_mul, List.map_append, List.map_cons, List.map_nil, dev_append]
    congr 1
  · intro c
    simp only [accept, h.direct, hd, XF.fin_add, List.map_append, List.map_cons, List.map_nil, List.sum_append,
      List.sum_cons, List.sum_nil, add_zero]
  · intro c
    simp only [accept, h.indirect, hi, XF.fin_add, List.map_append, List.map_cons, List.map_nil, List.sum_append,
      List.sum_cons, List.sum_nil, add_zero]
  · intro c
    simp only [accept, h.total, radiance_fin x hx, XF.fin_add, List.map_append, List.map_cons, List.map_nil,
      List.sum_append, List.sum_cons, List.sum_nil, add_zero]
  · intro _
    simp only [accept, htk, XF.div_fin _ _ hne]
    simp

/-- The samples that count: those whose first bin is not NaN. -/
def accepted {n : Nat} (xs : List (Sample n)) : List (Sample n) := xs.filter fun x => ¬ skipped x

theorem loop_spec {n : Nat} (g : Settings) (s : Nat) (xs : List (Sample n)) (a : Acc n) (ys : List (Sample n))
    (h : Holds a ys) (hfin : ∀ x ∈ accepted xs, Finite x) :
    ∃ k, k ≤ xs.length ∧ Holds (loop g s xs a) (ys ++ accepted (xs.take k)) ∧
      (k < xs.length → stops g (s + k - 1) (loop g s xs a) ∧ 0 < k) := by
  induction xs generalizing s a ys with
  | nil => exact ⟨0, le_refl _, by simpa [loop, accepted] using h, by simp⟩
  | cons x t ih =>
    have hft : ∀ y ∈ accepted t, Finite y := by
      intro y hy
      apply hfin y
      simp only [accepted, List.mem_filter, decide_not, Bool.not_eq_true', decide_eq_false_iff_not,
        List.mem_cons] at hy ⊢
      exact ⟨Or.inr hy.1, hy.2⟩
    by_cases hsk : skipped x
    · obtain ⟨k, hk, hh, hstop⟩ := ih (s + 1) a ys h hft
      refine ⟨k + 1, by simp; omega, ?_, ?_⟩
      · simp only [loop, if_pos hsk, List.take_succ_cons]
        have : accepted (x :: t.take k) = accepted (t.take k) := by simp [accepted, hsk]
        rw [this]; exact hh
      · intro hlt
        simp only [loop, if_pos hsk]
        have := hstop (by simpa using hlt)
        refine ⟨?_, by omega⟩
        have e : s + (k + 1) - 1 = s + 1 + k - 1 := by omega
        rw [e]; exact this.1
    · have hxf : Finite x := hfin x (by simp [accepted, hsk])
      have hacc := holds_accept a ys x h hxf
      by_cases hst : stops g s (accept a x)
      · refine ⟨1, by simp, ?_, ?_⟩
        · simp only [loop, if_neg hsk, if_pos hst, List.take_succ_cons, List.take_zero]
          have : accepted [x] = [x] := by simp [accepted, hsk]
          rw [this]; exact hacc
        · intro _
          simp only [loop, if_neg hsk, if_pos hst]
          exact ⟨by simpa using hst, by omega⟩
      · obtain ⟨k, hk, hh, hstop⟩ := ih (s + 1) (accept a x) (ys ++ [x]) hacc hft
        refine ⟨k + 1, by simp; omega, ?_, ?_⟩
        · simp only [loop, if_neg hsk, if_neg hst, List.take_succ_cons]
          have : accepted (x :: t.take k) = x :: accepted (t.take k) := by simp [accepted, hsk]
          rw [this]
          simpa using hh
        · intro hlt
          simp only [loop, if_neg hsk, if_neg hst]
          have := hstop (by simpa using hlt)
          refine ⟨?_, by omega⟩
          have e : s + (k + 1) - 1 = s + 1 + k - 1 := by omega
          rw [e]; exact this.1

/-- Specification: the accumulators after using all samples of a list, without early exit. -/
def useAll {n : Nat} (xs : List (Sample n)) : Acc n := (accepted xs).foldl accept (Acc.init n)

theorem loop_first {n : Nat} (g : Settings) (s : Nat) (xs : List (Sample n)) (a : Acc n) :
    ∃ k, k ≤ xs.length ∧ loop g s xs a = (accepted (xs.take k)).foldl accept a ∧
      (k < xs.length → 0 < k ∧ stops g (s + k - 1) (loop g s xs a)) ∧
      ∀ j, j + 1 < k → ∀ hj : j < xs.length, ¬ skipped xs[j] → ¬ stops g (s + j) ((accepted (xs.take (j + 1))).foldl accept a) := by
  induction xs generalizing s a with
  | nil => exact ⟨0, le_rfl, rfl, by simp, by intro j hj; omega⟩
  | cons x t ih =>
    by_cases hsk : skipped x
    · obtain ⟨k, hk, h1, h2, h3⟩ := ih (s + 1) a
      have ha : ∀ l : List (Sample n), accepted (x :: l) = accepted l := fun l => by simp [accepted, hsk]
      refine ⟨k + 1, by simp; omega, ?_, ?_, ?_⟩
      · simp only [loop, if_pos hsk, List.take_succ_cons, ha]; exact h1
      · intro hlt
        simp only [loop, if_pos hsk]
        have := h2 (by simpa using hlt)
        refine ⟨by omega, ?_⟩
        have e : s + (k + 1) - 1 = s + 1 + k - 1 := by omega
        rw [e]; exact this.2
      · intro j hj hl hs
        cases j with
        | zero => exact absurd hsk hs
        | succ j =>
          rw [List.take_succ_cons, ha]
          have e : s + (j + 1) = s + 1 + j := by omega
          rw [e]
          exact h3 j (by omega) (by simpa using hl) hs
    · have ha : ∀ l : List (Sample n), accepted (x :: l) = x :: accepted l := fun l => by simp [accepted, hsk]
      by_cases hst : stops g s (accept a x)
      · refine ⟨1, by simp, ?_, ?_, by intro j hj; omega⟩
        · simp only [loop, if_neg hsk, if_pos hst, List.take_succ_cons, List.take_zero, ha]; simp [accepted]
        · intro _
          simp only [loop, if_neg hsk, if_pos hst]
          exact ⟨by omega, by simpa using hst⟩
      · obtain ⟨k, hk, h1, h2, h3⟩ := ih (s + 1) (accept a x)
        by_cases hk0 : k = 0
        · subst hk0
          have ht : t = [] := by
            by_contra hne
            have := h2 (List.length_pos_of_ne_nil hne)
            omega
          subst ht
          exact ⟨1, by simp, by simp [loop, hsk, hst, accepted], by simp, by intro j hj; omega⟩
        refine ⟨k + 1, by simp; omega, ?_, ?_, ?_⟩
        · simp only [loop, if_neg hsk, if_neg hst, List.take_succ_cons, ha, List.foldl_cons]; exact h1
        · intro hlt
          simp only [loop, if_neg hsk, if_neg hst]
          have := h2 (by simpa using hlt)
          refine ⟨by omega, ?_⟩
          have e : s + (k + 1) - 1 = s + 1 + k - 1 := by omega
          rw [e]; exact this.2
        · intro j hj hl hs
          cases j with
          | zero => simpa [accepted, hsk] using hst
          | succ j =>
            rw [List.take_succ_cons, ha, List.foldl_cons]
            have e : s + (j + 1) = s + 1 + j := by omega
            rw [e]
            exact h3 j (by omega) (by simpa using hl) hs

/-- **C54, adaptive sampling stops at the first opportunity.** With dynamic sampling the loop ends right after the first
accepted sample at which at least `min_spp_` samples have been attempted and the relative variance is below the
threshold (for any samples, NaN included), or when the samples run out. -/
theorem C54_stops_first {n : Nat} (g : Settings) (hg : g.dynamic = true) (xs : List (Sample n)) :
    ∃ k, k ≤ xs.length ∧ loop g 0 xs (Acc.init n) = useAll (xs.take k) ∧
      (k < xs.length → 0 < k ∧ g.minSpp ≤ k ∧ XF.lt (relVariance (useAll (xs.take k))) g.threshold) ∧
      ∀ j, 0 < j → j < k → g.minSpp ≤ j → (∀ h : j - 1 < xs.length, ¬ skipped xs[j - 1]) →
        ¬ XF.lt (relVariance (useAll (xs.take j))) g.threshold := by
  obtain ⟨k, h0, h1, h2, h3⟩ := loop_first g 0 xs (Acc.init n)
  refine ⟨k, h0, h1, ?_, ?_⟩
  · intro hlt
    obtain ⟨hk, ⟨_, hm, hv⟩⟩ := h2 hlt
    refine ⟨hk, by omega, ?_⟩
    unfold useAll
    rw [← h1]; exact hv
  · intro j hj hjk hm hs hlt
    have hj' : j - 1 < xs.length := by omega
    have := h3 (j - 1) (by omega) hj' (hs hj')
    apply this
    have e : j - 1 + 1 = j := by omega
    rw [e]
    refine ⟨hg, ?_, hlt⟩
    omega

/-- **C54, statistics.** For every list of samples (at most `spp_` of them) whose accepted ones are finite, at least one
being accepted: a prefix of the samples is used; when the loop ends, the running mean and the sum of squared deviations
are exactly those of the accepted samples of that prefix, the written radiance is their mean, and it is the sum of the
written direct and indirect radiances. Without dynamic sampling the prefix is the whole list. With it, at least
`min_spp_` samples are attempted before the loop may end early, and it ends early only when the relative variance of the
samples used is below the threshold. -/
theorem C54_statistics {n : Nat} (g : Settings) (xs : List (Sample n)) (hfin : ∀ x ∈ accepted xs, Finite x) :
    ∃ k, k ≤ xs.length ∧ (g.dynamic = false → k = xs.length) ∧
      (k < xs.length → g.minSpp ≤ k ∧ XF.lt (relVariance (loop g 0 xs (Acc.init n))) g.threshold) ∧
      (loop g 0 xs (Acc.init n)).taken = (accepted (xs.take k)).length ∧
      ∀ c, let l := (accepted (xs.take k)).map (rad c)
        (loop g 0 xs (Acc.init n)).mean c = .fin (meanOf l) ∧ (loop g 0 xs (Acc.init n)).m2 c = .fin (devOf l) ∧
        (l ≠ [] → pixelRadiance g xs c = .fin (meanOf l) ∧
          average (loop g 0 xs (Acc.init n)).direct (loop g 0 xs (Acc.init n)).taken c =
            .fin (meanOf ((accepted (xs.take k)).map (direct c))) ∧
          average (loop g 0 xs (Acc.init n)).indirect (loop g 0 xs (Acc.init n)).taken c =
            .fin (meanOf ((accepted (xs.take k)).map (indirect c)))) := by
  obtain ⟨k, hk, hh, hstop⟩ := loop_spec g 0 xs (Acc.init n) [] (holds_init n) hfin
  rw [List.nil_append] at hh
  have hmean : ∀ (f : Spec n) (g' : Sample n → ℝ) (c : Fin (n + 1)) (ys : List (Sample n)), ys ≠ [] →
      f c = .fin (ys.map g').sum → average f ys.length c = .fin (meanOf (ys.map g')) := by
    intro f g' c ys hne hf
    have h1 : (ys.length : ℝ) ≠ 0 := by
      have := List.length_pos_of_ne_nil hne
      positivity
    simp only [average, hf, XF.div_fin _ _ h1, XF.fin_mul, meanOf, List.length_map]
    congr 1
    ring
  refine ⟨k, hk, ?_, ?_, hh.taken, ?_⟩
  · intro hd
    by_contra hne
    have := (hstop (by omega)).1.1
    rw [hd] at this
    exact absurd this (by decide)
  · intro hlt
    obtain ⟨⟨_, h2, h3⟩, hk0⟩ := hstop hlt
    refine ⟨?_, h3⟩
    omega
  · intro c
    refine ⟨hh.mean c, hh.m2 c, fun hl => ?_⟩
    have hne : accepted (xs.take k) ≠ [] := by
      intro e; apply hl; rw [e]; rfl
    refine ⟨?_, ?_, ?_⟩
    · show average (loop g 0 xs (Acc.init n)).total (loop g 0 xs (Acc.init n)).taken c = _
      rw [hh.taken]; exact hmean _ _ c _ hne (hh.total c)
    · rw [hh.taken]; exact hmean _ _ c _ hne (hh.direct c)
    · rw [hh.taken]; exact hmean _ _ c _ hne (hh.indirect c)

/-- **C54, sum.** The written radiance is the sum of the written direct and indirect parts. -/
theorem C54_parts_add {n : Nat} (ys : List (Sample n)) (c : Fin (n + 1)) :
    meanOf (ys.map (rad c)) = meanOf (ys.map (direct c)) + meanOf (ys.map (indirect c)) := by
  unfold meanOf
  have : (ys.map (rad c)).sum = (ys.map (direct c)).sum + (ys.map (indirect c)).sum := by
    induction ys with
    | nil => simp
    | cons y t ih => simp only [List.map_cons, List.sum_cons, ih, rad]; ring
  rw [this]
  simp only [List.length_map]
  ring

/-- Two finite one-bin samples and one NaN sample: the hypotheses hold and the pixel is the mean of the two. -/
def exSamples : List (Sample 0) :=
  [(fun _ => .fin 1, fun _ => .fin 1), (fun _ => .nan, fun _ => .fin 1), (fun _ => .fin 3, fun _ => .fin 1)]

example : pixelRadiance ⟨false, 16, .fin (1 / 1000)⟩ exSamples 0 = .fin 3 := by
  have h1 : ¬ skipped ((fun _ => .fin 1, fun _ => .fin 1) : Sample 0) := by simp [skipped, radiance, XF.isNan]
  have h2 : skipped ((fun _ => .nan, fun _ => .fin 1) : Sample 0) := by simp [skipped, radiance, XF.isNan]
  have h3 : ¬ skipped ((fun _ => .fin 3, fun _ => .fin 1) : Sample 0) := by simp [skipped, radiance, XF.isNan]
  have hs : ∀ s (a : Acc 0), ¬ stops ⟨false, 16, .fin (1 / 1000)⟩ s a := fun s a h => by simpa using h.1
  simp only [pixelRadiance, exSamples, loop, if_neg h1, if_pos h2, if_neg h3, if_neg (hs _ _)]
  simp only [average, accept, Acc.init, radiance, XF.fin_add]
  norm_num [XF.div, XF.mul]

/-! ### C79: bad samples -/

/-- The property at full strength: dropping NaN samples keeps NaN out of the image, i.e. a pixel is never NaN. -/
def C79_full : Prop :=
  ∀ (n : Nat) (g : Settings) (xs : List (Sample n)) (c : Fin (n + 1)), ¬ (pixelRadiance g xs c).isNan

/-- **C79, violated (no samples).** A pixel none of whose samples is accepted is NaN in every bin; in particular every
pixel when `set_samples_per_pixel(0)` was called. -/
theorem C79_violated_none {n : Nat} (g : Settings) (xs : List (Sample n)) (h : accepted xs = []) (c : Fin (n + 1)) :
    (pixelRadiance g xs c).isNan := by
  have : ∀ s, loop g s xs (Acc.init n) = Acc.init n := by
    induction xs with
    | nil => intro s; rfl
    | cons x t ih =>
      intro s
      by_cases hsk : skipped x
      · simp only [loop, if_pos hsk]
        apply ih
        simpa [accepted, hsk] using h
      · simp [accepted, hsk] at h
  show (average _ _ c).isNan
  rw [this]
  simp [average, Acc.init, XF.div, XF.infTimes, XF.mul, XF.isNan]

/-- **C79, violated (later bins).** Only the first bin is tested: a sample that is NaN in another bin is accepted and
makes the pixel NaN. -/
theorem C79_violated_bin : ¬ C79_full := by
  intro h
  let x : Sample 1 := (fun c => if c = 0 then .fin 1 else .nan, fun _ => .fin 0)
  have h1 : ¬ skipped x := by simp [x, skipped, radiance, XF.isNan]
  have hs : ∀ s (a : Acc 1), ¬ stops ⟨false, 16, .fin (1 / 1000)⟩ s a := fun s a h => by simpa using h.1
  apply h 1 ⟨false, 16, .fin (1 / 1000)⟩ [x] 1
  simp only [pixelRadiance, loop, if_neg h1, if_neg (hs _ _)]
  simp [average, accept, Acc.init, radiance, x, XF.isNan, XF.add, XF.mul]

/-- **C79, partial.** If at least one sample is accepted, and every accepted sample is finite in all bins, the pixel is a
number, however many samples were NaN in the first bin. Missing: pixels with no accepted sample, and samples that are NaN
or infinite in a later bin. -/
theorem C79_finite_partial {n : Nat} (g : Settings) (xs : List (Sample n)) (hfin : ∀ x ∈ accepted xs, Finite x)
    (hne : accepted xs ≠ []) (c : Fin (n + 1)) : ∃ r, pixelRadiance g xs c = .fin r := by
  have key : ∀ s (a : Acc n) (ys : List (Sample n)) (zs : List (Sample n)), Holds a ys → (∀ x ∈ accepted zs, Finite x) →
      (ys ≠ [] ∨ accepted zs ≠ []) → ∃ ys', ys' ≠ [] ∧ Holds (loop g s zs a) ys' := by
    intro s a ys zs
    induction zs generalizing s a ys with
    | nil => intro h _ hor; exact ⟨ys, by simpa [accepted] using hor, h⟩
    | cons x t ih =>
      intro h hf hor
      have hft : ∀ y ∈ accepted t, Finite y := by
        intro y hy
        apply hf y
        simp only [accepted, List.mem_filter, decide_not, Bool.not_eq_true', decide_eq_false_iff_not,
          List.mem_cons] at hy ⊢
        exact ⟨Or.inr hy.1, hy.2⟩
      by_cases hsk : skipped x
      · simp only [loop, if_pos hsk]
        exact ih (s + 1) a ys h hft (by simpa [accepted, hsk] using hor)
      · have hacc := holds_accept a ys x h (hf x (by simp [accepted, hsk]))
        simp only [loop, if_neg hsk]
        split
        · exact ⟨_, by simp, hacc⟩
        · exact ih (s + 1) _ _ hacc hft (Or.inl (by simp))
  obtain ⟨ys, hy, hh⟩ := key 0 (Acc.init n) [] xs (holds_init n) hfin (Or.inr hne)
  have h1 : (ys.length : ℝ) ≠ 0 := by
    have := List.length_pos_of_ne_nil hy
    positivity
  refine ⟨(ys.map (rad c)).sum * (1 / (ys.length : ℝ)), ?_⟩
  show average _ _ c = _
  rw [hh.taken]
  simp only [average, hh.total c, XF.div_fin _ _ h1, XF.fin_mul]

/-! ### C80: Russian roulette and the indirect clamp -/

theorem foldmax_spec {n : Nat} (v : Fin (n + 1) → ℝ) (l : List (Fin (n + 1))) (m : ℝ) :
    m ≤ l.foldl (fun m c => if m < v c then v c else m) m ∧
    (∀ c ∈ l, v c ≤ l.foldl (fun m c => if m < v c then v c else m) m) ∧
    (l.foldl (fun m c => if m < v c then v c else m) m = m ∨
      ∃ c ∈ l, l.foldl (fun m c => if m < v c then v c else m) m = v c) := by
  induction l generalizing m with
  | nil => simp
  | cons b t ih =>
    obtain ⟨h1, h2, h3⟩ := ih (if m < v b then v b else m)
    simp only [List.foldl_cons]
    have hb : m ≤ (if m < v b then v b else m) ∧ v b ≤ (if m < v b then v b else m) := by
      by_cases hm : m < v b
      · rw [if_pos hm]; exact ⟨hm.le, le_refl _⟩
      · rw [if_neg hm]; exact ⟨le_refl _, not_lt.1 hm⟩
    refine ⟨le_trans hb.1 h1, ?_, ?_⟩
    · intro c hc
      rcases List.mem_cons.1 hc with rfl | hc
      · exact le_trans hb.2 h1
      · exact h2 c hc
    · rcases h3 with h3 | ⟨c, hc, h3⟩
      · rw [h3]
        by_cases hm : m < v b
        · rw [if_pos hm]; right; exact ⟨b, List.mem_cons_self .., rfl⟩
        · rw [if_neg hm]; left; rfl
      · right; exact ⟨c, List.mem_cons_of_mem _ hc, h3⟩

theorem fold_is_max {n : Nat} (v : Fin (n + 1) → ℝ) :
    (∀ c, v c ≤ (List.finRange (n + 1)).tail.foldl (fun m c => if m < v c then v c else m) (v 0)) ∧
    ∃ c, (List.finRange (n + 1)).tail.foldl (fun m c => if m < v c then v c else m) (v 0) = v c := by
  obtain ⟨h1, h2, h3⟩ := foldmax_spec v (List.finRange (n + 1)).tail (v 0)
  refine ⟨?_, ?_⟩
  · intro c
    have hm := List.mem_finRange c
    rw [List.finRange_succ] at hm h1 h2 ⊢
    rcases List.mem_cons.1 hm with rfl | hm
    · exact h1
    · exact h2 c hm
  · rcases h3 with h3 | ⟨c, _, h3⟩
    · exact ⟨0, h3⟩
    · exact ⟨c, h3⟩

/-- **C80, roulette keeps the expectation.** For a throughput with a positive bin, the survival probability is in
(0, 0.95] and equals the smaller of 0.95 and the largest bin, the path survives exactly when the random number is at most it, and the surviving throughput times the
probability is the throughput: the expected contribution is unchanged. -/
theorem C80_roulette_unbiased {n : Nat} (bounce : Nat) (hb : 3 ≤ bounce) (v : Fin (n + 1) → ℝ)
    (hp : ∃ c, 0 < v c) :
    ∃ M p : ℝ, IsGreatest (Set.range v) M ∧ p = min (95 / 100) M ∧ 0 < p ∧ p ≤ 95 / 100 ∧ ∀ u : ℝ,
      (u ≤ p → ∃ w, roulette bounce v u = some w ∧ ∀ c, w c * p = v c) ∧ (p < u → roulette bounce v u = none) := by
  obtain ⟨h1, c1, h2⟩ := fold_is_max v
  obtain ⟨c, hc⟩ := hp
  have hpos : 0 < pContinue v := by
    unfold pContinue
    exact lt_min (by norm_num) (lt_of_lt_of_le hc (h1 c))
  refine ⟨v c1, pContinue v, ⟨⟨c1, rfl⟩, ?_⟩, by unfold pContinue; rw [h2], hpos, min_le_left _ _,
    fun u => ⟨fun hu => ?_, fun hu => ?_⟩⟩
  · rintro _ ⟨c, rfl⟩
    rw [← h2]; exact h1 c
  · refine ⟨fun c => v c / pContinue v, ?_, ?_⟩
    · unfold roulette
      rw [if_pos hb, if_neg (not_lt.2 hu)]
    · intro c; exact div_mul_cancel₀ _ hpos.ne'
  · unfold roulette
    rw [if_pos hb, if_pos hu]

/-- The first three bounces never end by roulette. -/
theorem C80_roulette_early {n : Nat} (bounce : Nat) (hb : bounce < 3) (v : Fin (n + 1) → ℝ) (u : ℝ) :
    roulette bounce v u = some v := by
  unfold roulette; rw [if_neg (by omega)]

/-- **C80, clamp.** With the default (no threshold) nothing is clamped. With a threshold t ≥ 0, a radiance whose bins are
all at most t is unchanged, and any other radiance is scaled by one common factor in [0, 1), so that its largest bin
is t: colour is preserved and no bin exceeds the threshold. -/
theorem C80_clamp {n : Nat} (v : Fin (n + 1) → ℝ) (t : ℝ) (ht : 0 ≤ t) :
    clampIndirect none v = v ∧
    ((∀ c, v c ≤ t) → clampIndirect (some t) v = v) ∧
    (¬ (∀ c, v c ≤ t) → ∃ k : ℝ, 0 ≤ k ∧ k < 1 ∧ (∀ c, clampIndirect (some t) v c = k * v c) ∧
      (∀ c, clampIndirect (some t) v c ≤ t) ∧ ∃ c, clampIndirect (some t) v c = t) := by
  obtain ⟨h1, c1, h2⟩ := fold_is_max v
  refine ⟨rfl, ?_, ?_⟩
  · intro h
    simp only [clampIndirect]
    rw [if_neg]
    rw [h2]
    exact not_lt.2 (h c1)
  · intro h
    push Not at h
    obtain ⟨c, hc⟩ := h
    have hm : t < v c1 := by rw [← h2]; exact lt_of_lt_of_le hc (h1 c)
    have hm0 : 0 < v c1 := lt_of_le_of_lt ht hm
    have he : clampIndirect (some t) v = fun c => v c * (t / v c1) := by
      simp only [clampIndirect]
      rw [h2, if_pos hm]
    refine ⟨t / v c1, by positivity, by rw [div_lt_one hm0]; exact hm, ?_, ?_, ⟨c1, ?_⟩⟩
    · intro c; rw [he]; ring
    · intro c
      rw [he]
      have h3 : v c ≤ v c1 := by rw [← h2]; exact h1 c
      calc v c * (t / v c1) ≤ v c1 * (t / v c1) := mul_le_mul_of_nonneg_right h3 (by positivity)
        _ = t := by field_simp
    · rw [he]; field_simp

example : clampIndirect (some 2) (fun c : Fin 2 => if c = 0 then 1 else 4) = fun c => if c = 0 then 1 / 2 else 2 := by
  funext c
  have : (List.finRange 2).tail = [1] := by decide
  simp only [clampIndirect, this, List.foldl_cons, List.foldl_nil]
  fin_cases c <;> norm_num

/-! ### C54: the quantity that is compared with the threshold -/

theorem vmax_fin {n : Nat} (v : Fin (n + 1) → ℝ) : vmax (fun c => XF.fin (v c)) =
    .fin ((List.finRange (n + 1)).tail.foldl (fun m c => if m < v c then v c else m) (v 0)) := by
  unfold vmax
  beta_reduce
  generalize (List.finRange (n + 1)).tail = l
  generalize v 0 = m
  induction l generalizing m with
  | nil => rfl
  | cons c t ih =>
    simp only [List.foldl_cons]
    by_cases h : m < v c
    · rw [if_pos (show XF.lt (.fin m) (.fin (v c)) from h), if_pos h, ih]
    · rw [if_neg (show ¬ XF.lt (.fin m) (.fin (v c)) from h), if_neg h, ih]

theorem holds_useAll {n : Nat} (xs : List (Sample n)) (hfin : ∀ x ∈ accepted xs, Finite x) :
    Holds (useAll xs) (accepted xs) := by
  unfold useAll
  have : ∀ (ys zs : List (Sample n)) (a : Acc n), Holds a zs → (∀ x ∈ ys, Finite x) →
      Holds (ys.foldl accept a) (zs ++ ys) := by
    intro ys
    induction ys with
    | nil => intro zs a h _; simpa using h
    | cons y t ih =>
      intro zs a h hf
      have := ih (zs ++ [y]) (accept a y) (holds_accept a zs y h (hf y (by simp))) fun x hx => hf x (by simp [hx])
      simpa using this
  simpa using this (accepted xs) [] (Acc.init n) (holds_init n) hfin

/-- **C54, the stopping rule.** For finite samples whose mean is not negative in any bin, the test of adaptive sampling
says: in every bin the variance of the samples used is below the threshold times (the largest bin of the mean, plus
0.0001). -/
theorem C54_stop_rule {n : Nat} (xs : List (Sample n)) (hfin : ∀ x ∈ accepted xs, Finite x) (hne : accepted xs ≠ [])
    (hpos : ∀ c, 0 ≤ meanOf ((accepted xs).map (rad c))) (t : ℝ) :
    XF.lt (relVariance (useAll xs)) (.fin t) ↔
      ∃ M, IsGreatest (Set.range fun c => meanOf ((accepted xs).map (rad c))) M ∧
        ∀ c, devOf ((accepted xs).map (rad c)) / (accepted xs).length < t * (M + 1 / 10000) := by
  have hh := holds_useAll xs hfin
  set ys := accepted xs with hys
  obtain ⟨m1, c1, m2⟩ := fold_is_max fun c => meanOf (ys.map (rad c))
  obtain ⟨v1, c2, v2⟩ := fold_is_max fun c => devOf (ys.map (rad c)) * (1 / (ys.length : ℝ))
  have hM : 0 < meanOf (ys.map (rad c1)) + 1 / 10000 := by linarith [hpos c1]
  have e1 : vmax (useAll xs).mean = .fin (meanOf (ys.map (rad c1))) := by
    rw [show (useAll xs).mean = fun c => XF.fin (meanOf (ys.map (rad c))) from funext hh.mean, vmax_fin, m2]
  have e2 : vmax (fun c => XF.mul ((useAll xs).m2 c) (useAll xs).inv) =
      .fin (devOf (ys.map (rad c2)) * (1 / (ys.length : ℝ))) := by
    rw [show (fun c => XF.mul ((useAll xs).m2 c) (useAll xs).inv) =
      fun c => XF.fin (devOf (ys.map (rad c)) * (1 / (ys.length : ℝ))) from funext fun c => by
        rw [hh.m2 c, hh.inv hne, XF.fin_mul], vmax_fin, v2]
  have e3 : relVariance (useAll xs) =
      .fin (devOf (ys.map (rad c2)) * (1 / (ys.length : ℝ)) / (meanOf (ys.map (rad c1)) + 1 / 10000)) := by
    unfold relVariance
    rw [e1, e2, XF.fin_add, XF.div_fin _ _ hM.ne']
  rw [e3]
  show _ / _ < t ↔ _
  rw [div_lt_iff₀ hM]
  have hg : IsGreatest (Set.range fun c => meanOf (ys.map (rad c))) (meanOf (ys.map (rad c1))) := by
    refine ⟨⟨c1, rfl⟩, ?_⟩
    rintro _ ⟨c, rfl⟩
    have := m1 c
    rw [m2] at this
    exact this
  constructor
  · intro h
    refine ⟨_, hg, fun c => lt_of_le_of_lt ?_ h⟩
    have := v1 c
    rw [v2] at this
    rw [div_eq_mul_one_div]; exact this
  · rintro ⟨M, hM', hall⟩
    rw [hM'.unique hg] at hall
    rw [← div_eq_mul_one_div]; exact hall c2

/-- The samples 2 and 4 (after dropping the NaN one): variance 1, mean 3, so the loop may stop exactly for thresholds
above 1 / 3.0001. -/
example (t : ℝ) : XF.lt (relVariance (useAll exSamples)) (.fin t) ↔ 1 < t * (3 + 1 / 10000) := by
  have h1 : ¬ skipped ((fun _ => .fin 1, fun _ => .fin 1) : Sample 0) := by simp [skipped, radiance, XF.isNan]
  have h2 : skipped ((fun _ => .nan, fun _ => .fin 1) : Sample 0) := by simp [skipped, radiance, XF.isNan]
  have h3 : ¬ skipped ((fun _ => .fin 3, fun _ => .fin 1) : Sample 0) := by simp [skipped, radiance, XF.isNan]
  have ha : accepted exSamples = [(fun _ => .fin 1, fun _ => .fin 1), (fun _ => .fin 3, fun _ => .fin 1)] := by
    simp [accepted, exSamples, h1, h2, h3]
  have hm : ∀ c, meanOf ((accepted exSamples).map (rad c)) = 3 := by
    intro c; rw [ha]; simp [meanOf, rad, direct, indirect, val]; norm_num
  have hd : ∀ c, devOf ((accepted exSamples).map (rad c)) / (accepted exSamples).length = 1 := by
    intro c
    have := hm c
    unfold devOf
    rw [this, ha]; simp [rad, direct, indirect, val]; norm_num
  have hf : ∀ x ∈ accepted exSamples, Finite x := by
    rw [ha]; simp [Finite]
  rw [C54_stop_rule exSamples hf (by rw [ha]; simp) (fun c => by rw [hm c]; norm_num) t]
  constructor
  · rintro ⟨M, hM, hall⟩
    obtain ⟨c, hc⟩ := hM.1
    have := hall c
    rw [hd, ← hc] at this
    simp only [hm] at this
    exact this
  · intro h
    refine ⟨3, ⟨⟨0, hm 0⟩, ?_⟩, fun c => by rw [hd c]; exact h⟩
    rintro _ ⟨c, rfl⟩
    exact (hm c).le

end
end Huira.Stats
