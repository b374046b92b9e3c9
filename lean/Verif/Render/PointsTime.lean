import Mathlib.Data.List.Chain
import Verif.Render.PointsProps
set_option linter.unusedSimpArgs false
/-!
# C51: weights of the time samples of a moving source, and interpolation between recorded samples
-/
namespace Huira.Points
noncomputable section
open Classical

/-! ### Specification: trapezoidal rule -/

/-- Trapezoidal rule for `g` on the points of a list. -/
def trap (g : ℝ → ℝ) : List ℝ → ℝ
  | a :: b :: t => (b - a) * (g a + g b) / 2 + trap g (b :: t)
  | _ => 0

/-- `dt` of sample `k` for a list of at least two parameters. -/
def dtOf (ps : List ℝ) (k : Nat) : ℝ :=
  if k = 0 then (ps.getD 1 0 - ps.getD 0 0) / 2
  else if k = ps.length - 1 then (ps.getD k 0 - ps.getD (k - 1) 0) / 2
  else (ps.getD (k + 1) 0 - ps.getD (k - 1) 0) / 2

theorem sum_dt (g : ℝ → ℝ) (x y : ℝ) (t : List ℝ) :
    ((List.range (x :: y :: t).length).map fun k => dtOf (x :: y :: t) k * g ((x :: y :: t).getD k 0)).sum =
      trap g (x :: y :: t) := by
  induction t generalizing x y with
  | nil =>
    simp only [List.length_cons, List.length_nil, trap]
    simp [List.range_succ, dtOf]
    ring
  | cons z t ih =>
    have ih := ih y z
    have hl : (x :: y :: z :: t).length = (y :: z :: t).length + 1 := rfl
    have hm : (y :: z :: t).length = (z :: t).length + 1 := rfl
    rw [hl, List.range_succ_eq_map, List.map_cons, List.sum_cons, List.map_map]
    rw [hm, List.range_succ_eq_map, List.map_cons, List.sum_cons, List.map_map] at ih ⊢
    have htail : (List.range (z :: t).length).map
          (((fun k => dtOf (x :: y :: z :: t) k * g ((x :: y :: z :: t).getD k 0)) ∘ Nat.succ) ∘ Nat.succ) =
        (List.range (z :: t).length).map
          ((fun k => dtOf (y :: z :: t) k * g ((y :: z :: t).getD k 0)) ∘ Nat.succ) := by
      apply List.map_congr_left
      intro k hk
      simp only [Function.comp, Nat.succ_eq_add_one]
      have e : dtOf (x :: y :: z :: t) (k + 1 + 1) = dtOf (y :: z :: t) (k + 1) := by
        unfold dtOf
        simp only [List.length_cons, List.getD_cons_succ, Nat.add_sub_cancel]
        rw [if_neg (Nat.succ_ne_zero (k + 1)), if_neg (Nat.succ_ne_zero k)]
        by_cases h : k + 1 + 1 = t.length + 1 + 1
        · rw [if_pos h, if_pos (by omega)]
        · rw [if_neg h, if_neg (by omega)]
      rw [e]
      simp only [List.getD_cons_succ]
    rw [htail]
    have h0 : dtOf (x :: y :: z :: t) 0 = (y - x) / 2 := by simp [dtOf]
    have h1 : dtOf (x :: y :: z :: t) 1 = (z - x) / 2 := by simp [dtOf]
    have h2 : dtOf (y :: z :: t) 0 = (z - y) / 2 := by simp [dtOf]
    simp only [Function.comp, Nat.succ_eq_add_one, Nat.zero_add, h0, h1, List.getD_cons_zero,
      List.getD_cons_succ] at ih ⊢
    rw [h2] at ih
    have : trap g (x :: y :: z :: t) = (y - x) * (g x + g y) / 2 + trap g (y :: z :: t) := rfl
    rw [this, ← ih]
    ring

theorem trap_const (c : ℝ) (x : ℝ) (t : List ℝ) : trap (fun _ => c) (x :: t) = (((x :: t).getLast (by simp)) - x) * c := by
  induction t generalizing x with
  | nil => simp [trap]
  | cons y t ih =>
    simp only [trap, ih y]
    rw [List.getLast_cons (by simp : y :: t ≠ [])]
    ring

/-- Trapezoid is exact for functions that are affine between neighbours: here for one affine function. -/
theorem trap_affine (a b : ℝ) (x : ℝ) (t : List ℝ) : trap (fun s => a + b * s) (x :: t) =
    (((x :: t).getLast (by simp)) - x) * (a + b * (x + (x :: t).getLast (by simp)) / 2) := by
  induction t generalizing x with
  | nil => simp [trap]
  | cons y t ih =>
    simp only [trap, ih y]
    rw [List.getLast_cons (by simp : y :: t ≠ [])]
    ring

/-! ### The parameters of a visible interval -/

/-- Strictly increasing from `ts` to `te`, with at least two entries. -/
def Good (ts te : ℝ) (l : List ℝ) : Prop := ∃ m, l = ts :: m ++ [te] ∧ l.Pairwise (· < ·)

theorem pass_mem (proj : ℝ → ℝ × ℝ) (a : ℝ) (l : List ℝ) :
    ∃ m, (pass proj (a :: l)).1 = a :: m ∧ (l = [] → m = []) ∧ (l ≠ [] → m ≠ [] ∧ m.getLast? = l.getLast?) := by
  induction l generalizing a with
  | nil => exact ⟨[], rfl, fun _ => rfl, fun h => absurd rfl h⟩
  | cons b t ih =>
    obtain ⟨m, h1, h2, h3⟩ := ih b
    have hlast : (b :: m).getLast? = (b :: t).getLast? := by
      by_cases ht : t = []
      · rw [h2 ht, ht]
      · obtain ⟨hm, hl⟩ := h3 ht
        rw [List.getLast?_cons, List.getLast?_cons, hl]
    by_cases hf : far proj a b
    · refine ⟨(a + b) / 2 :: b :: m, ?_, by simp, fun _ => ⟨by simp, ?_⟩⟩
      · simp only [pass, if_pos hf, h1]
      · rw [List.getLast?_cons_cons]; exact hlast
    · refine ⟨b :: m, ?_, by simp, fun _ => ⟨by simp, hlast⟩⟩
      simp only [pass, if_neg hf, h1]

theorem pass_sorted (proj : ℝ → ℝ × ℝ) (l : List ℝ) (h : l.Pairwise (· < ·)) :
    (pass proj l).1.Pairwise (· < ·) ∧ ∀ x ∈ (pass proj l).1, ∀ lo, (∀ y ∈ l, lo ≤ y) → lo ≤ x := by
  induction l with
  | nil => simp [pass]
  | cons a t ih =>
    cases t with
    | nil => simp [pass]
    | cons b t =>
      rw [List.pairwise_cons] at h
      obtain ⟨i1, i2⟩ := ih h.2
      have hab : a < b := h.1 b (List.mem_cons_self ..)
      have hge : ∀ x ∈ (pass proj (b :: t)).1, b ≤ x := fun x hx => i2 x hx b (by
        intro y hy
        rcases List.mem_cons.1 hy with rfl | hy
        · exact le_refl _
        · exact ((List.pairwise_cons.1 h.2).1 y hy).le)
      by_cases hf : far proj a b
      · simp only [pass, if_pos hf]
        refine ⟨?_, ?_⟩
        · rw [List.pairwise_cons, List.pairwise_cons]
          refine ⟨?_, ?_, i1⟩
          · intro x hx
            rcases List.mem_cons.1 hx with rfl | hx
            · linarith
            · exact lt_of_lt_of_le hab (hge x hx)
          · intro x hx
            have := hge x hx
            linarith
        · intro x hx lo hlo
          have ha := hlo a (List.mem_cons_self ..)
          have hb := hlo b (by simp)
          rcases List.mem_cons.1 hx with rfl | hx
          · exact ha
          rcases List.mem_cons.1 hx with rfl | hx
          · linarith
          · exact le_trans hb (hge x hx)
      · simp only [pass, if_neg hf]
        refine ⟨?_, ?_⟩
        · rw [List.pairwise_cons]
          exact ⟨fun x hx => lt_of_lt_of_le hab (hge x hx), i1⟩
        · intro x hx lo hlo
          have ha := hlo a (List.mem_cons_self ..)
          have hb := hlo b (by simp)
          rcases List.mem_cons.1 hx with rfl | hx
          · exact ha
          · exact le_trans hb (hge x hx)

theorem good_pass (proj : ℝ → ℝ × ℝ) (ts te : ℝ) (l : List ℝ) (h : Good ts te l) : Good ts te (pass proj l).1 := by
  obtain ⟨m, rfl, hs⟩ := h
  have hsort := (pass_sorted proj _ hs).1
  obtain ⟨m', h1, _, h3⟩ := pass_mem proj ts (m ++ [te])
  obtain ⟨hne, hl⟩ := h3 (by simp)
  rw [List.cons_append] at hsort ⊢
  rw [h1] at hsort ⊢
  have hte : m'.getLast hne = te := by
    have : m'.getLast? = some te := by rw [hl]; simp
    rw [List.getLast?_eq_getLast_of_ne_nil hne] at this
    simpa using this
  refine ⟨m'.dropLast, ?_, hsort⟩
  rw [List.cons_append, ← hte, List.dropLast_append_getLast hne]

theorem good_subdivide (proj : ℝ → ℝ × ℝ) (ts te : ℝ) (n : Nat) (l : List ℝ) (h : Good ts te l) :
    Good ts te (subdivide proj n l) := by
  induction n generalizing l with
  | zero => exact h
  | succ n ih =>
    unfold subdivide
    split
    · exact ih _ (good_pass proj ts te l h)
    · exact good_pass proj ts te l h

theorem good_initial (N : Nat) (ts te : ℝ) (h : ts < te) : Good ts te (initialParams N ts te) := by
  refine ⟨_, rfl, ?_⟩
  unfold initialParams
  rw [List.cons_append, List.pairwise_cons, List.pairwise_append]
  refine ⟨?_, ?_, by simp, ?_⟩
  · intro x hx
    rcases List.mem_append.1 hx with hx | hx
    · have := (List.mem_filter.1 hx).2
      simp only [decide_eq_true_eq] at this
      exact this.1
    · simp only [List.mem_singleton] at hx
      rw [hx]; exact h
  · by_cases hN : N = 1
    · subst hN
      simp only [List.range_one, List.map_cons, List.map_nil]
      exact (List.pairwise_singleton _ _).filter _
    · apply List.Pairwise.filter
      rw [List.pairwise_map]
      apply List.Pairwise.imp_of_mem _ List.pairwise_lt_range
      intro a b ha hb hab
      rw [if_neg hN, if_neg hN]
      have hb' := List.mem_range.1 hb
      have : (0 : ℝ) < ((N - 1 : Nat) : ℝ) := by
        have : 0 < N - 1 := by omega
        exact_mod_cast this
      rw [div_lt_div_iff_of_pos_right this]
      exact_mod_cast hab
  · intro a ha b hb
    have := (List.mem_filter.1 ha).2
    simp only [decide_eq_true_eq] at this
    simp only [List.mem_singleton] at hb
    rw [hb]; exact this.2

theorem good_sampleParams (proj : ℝ → ℝ × ℝ) (N : Nat) (ts te : ℝ) (h : ts < te) :
    Good ts te (sampleParams proj N ts te) :=
  good_subdivide proj ts te 12 _ (good_initial N ts te h)

/-- Recorded sample times inside the interval are kept by the subdivision. -/
theorem mem_pass (proj : ℝ → ℝ × ℝ) (l : List ℝ) (x : ℝ) (h : x ∈ l) : x ∈ (pass proj l).1 := by
  induction l with
  | nil => simp at h
  | cons a t ih =>
    cases t with
    | nil => simpa [pass] using h
    | cons b t =>
      simp only [pass]
      rcases List.mem_cons.1 h with rfl | h
      · split <;> simp
      · have := ih h
        split <;> simp [this]

theorem mem_subdivide (proj : ℝ → ℝ × ℝ) (n : Nat) (l : List ℝ) (x : ℝ) (h : x ∈ l) : x ∈ subdivide proj n l := by
  induction n generalizing l with
  | zero => exact h
  | succ n ih =>
    unfold subdivide
    split
    · exact ih _ (mem_pass proj l x h)
    · exact mem_pass proj l x h

/-! ### C51 -/

/-- Sum of `weight * value` over the samples of a visible interval: the mean of the trapezoidal rule. -/
theorem weighted_sum (proj : ℝ → ℝ × ℝ) (N : Nat) (ts te : ℝ) (h : ts < te) (g : ℝ → ℝ) :
    ((List.range (sampleParams proj N ts te).length).map fun k =>
      weight (sampleParams proj N ts te) ts te k * g ((sampleParams proj N ts te).getD k 0)).sum =
      trap g (sampleParams proj N ts te) / (te - ts) := by
  obtain ⟨m, hl, hs⟩ := good_sampleParams proj N ts te h
  set l := sampleParams proj N ts te
  obtain ⟨y, t, ht⟩ : ∃ y t, l = ts :: y :: t := by
    cases m with
    | nil => exact ⟨te, [], hl⟩
    | cons y m => exact ⟨y, m ++ [te], hl⟩
  have hw : ∀ k, weight l ts te k = dtOf l k / (te - ts) := by
    intro k
    unfold weight
    rw [if_neg (by rw [ht]; simp)]
    rfl
  simp only [hw]
  have : ∀ k, dtOf l k / (te - ts) * g (l.getD k 0) = dtOf l k * g (l.getD k 0) * (te - ts)⁻¹ := by
    intro k; ring
  simp only [this]
  rw [List.sum_map_mul_right, ht, sum_dt, div_eq_mul_inv]

/-- **C51, one interval.** For every arc (its projection to the image), number of recorded samples and visible interval:
the weights are non-negative and sum to one, whatever the subdivision does. -/
theorem C51_interval_sum (proj : ℝ → ℝ × ℝ) (N : Nat) (ts te : ℝ) (h : ts < te) :
    (weights proj N (ts, te)).sum = 1 ∧ ∀ w ∈ weights proj N (ts, te), 0 ≤ w := by
  constructor
  · have hw := weighted_sum proj N ts te h (fun _ => 1)
    simp only [mul_one] at hw
    unfold weights
    simp only [] at hw ⊢
    rw [hw]
    obtain ⟨m, hl, hs⟩ := good_sampleParams proj N ts te h
    rw [hl]
    have := trap_const 1 ts (m ++ [te])
    simp only [List.cons_append] at this ⊢
    rw [this]
    rw [List.getLast_cons (by simp : m ++ [te] ≠ []), List.getLast_append_singleton, mul_one]
    exact div_self (by linarith)
  · intro w hw
    simp only [weights, List.mem_map, List.mem_range] at hw
    obtain ⟨k, hk, rfl⟩ := hw
    obtain ⟨m, hl, hs⟩ := good_sampleParams proj N ts te h
    set l := sampleParams proj N ts te
    have hmono : ∀ i j, i < j → j < l.length → l.getD i 0 ≤ l.getD j 0 := by
      intro i j hij hj
      have := List.pairwise_iff_getElem.1 hs i j (by omega) hj hij
      have e1 : l.getD i 0 = l[i] := by simp [List.getD, List.getElem?_eq_getElem (show i < l.length by omega)]
      have e2 : l.getD j 0 = l[j] := by simp [List.getD, List.getElem?_eq_getElem hj]
      rw [e1, e2]
      exact this.le
    have hlen : 2 ≤ l.length := by rw [hl]; simp
    have hd : 0 < te - ts := by linarith
    unfold weight
    simp only []
    rw [if_neg (by omega)]
    apply div_nonneg _ hd.le
    by_cases k0 : k = 0
    · rw [if_pos k0]
      have := hmono 0 1 (by omega) (by omega)
      linarith
    · rw [if_neg k0]
      by_cases k1 : k = l.length - 1
      · rw [if_pos k1]
        have := hmono (k - 1) k (by omega) (by omega)
        linarith
      · rw [if_neg k1]
        have := hmono (k - 1) (k + 1) (by omega) (by omega)
        linarith

/-- **C51, energy.** A source of constant irradiance deposits exactly that irradiance, and one whose irradiance changes
linearly over the interval deposits its mean over the interval. -/
theorem C51_interval_energy (proj : ℝ → ℝ × ℝ) (N : Nat) (ts te : ℝ) (h : ts < te) (a b : ℝ) :
    ((List.range (sampleParams proj N ts te).length).map fun k =>
      weight (sampleParams proj N ts te) ts te k * (a + b * (sampleParams proj N ts te).getD k 0)).sum =
      a + b * ((ts + te) / 2) := by
  have hw := weighted_sum proj N ts te h (fun s => a + b * s)
  rw [hw]
  obtain ⟨m, hl, hs⟩ := good_sampleParams proj N ts te h
  rw [hl]
  have := trap_affine a b ts (m ++ [te])
  simp only [List.cons_append] at this ⊢
  rw [this]
  rw [List.getLast_cons (by simp : m ++ [te] ≠ []), List.getLast_append_singleton]
  have : te - ts ≠ 0 := by linarith
  field_simp

/-- **C51, coverage.** The samples start and end at the ends of the visible interval, are strictly increasing, and contain
every recorded sample time inside it. -/
theorem C51_interval_samples (proj : ℝ → ℝ × ℝ) (N : Nat) (ts te : ℝ) (h : ts < te) :
    (∃ m, sampleParams proj N ts te = ts :: m ++ [te]) ∧ (sampleParams proj N ts te).Pairwise (· < ·) ∧
    ∀ k, 2 ≤ N → k < N → ts < (k : ℝ) / ((N - 1 : Nat) : ℝ) → (k : ℝ) / ((N - 1 : Nat) : ℝ) < te →
      (k : ℝ) / ((N - 1 : Nat) : ℝ) ∈ sampleParams proj N ts te := by
  obtain ⟨m, hl, hs⟩ := good_sampleParams proj N ts te h
  refine ⟨⟨m, hl⟩, hs, ?_⟩
  intro k hN hk h1 h2
  apply mem_subdivide
  unfold initialParams
  rw [List.mem_append, List.mem_cons]
  left; right
  rw [List.mem_filter]
  refine ⟨?_, by simp [h1, h2]⟩
  rw [List.mem_map]
  exact ⟨k, List.mem_range.2 hk, by rw [if_neg (by omega)]⟩

/-- Specification: neighbouring samples of a list are at most 3/4 of a pixel apart on the image. -/
def Dense (proj : ℝ → ℝ × ℝ) (l : List ℝ) : Prop :=
  l.IsChain fun a b => ((proj b).1 - (proj a).1) ^ 2 + ((proj b).2 - (proj a).2) ^ 2 ≤ (3 / 4) ^ 2

theorem far_iff (proj : ℝ → ℝ × ℝ) (a b : ℝ) :
    far proj a b ↔ (3 / 4) ^ 2 < ((proj b).1 - (proj a).1) ^ 2 + ((proj b).2 - (proj a).2) ^ 2 := by
  unfold far
  rw [gt_iff_lt, Real.lt_sqrt (by norm_num)]
  constructor <;> intro h <;> nlinarith [h]

theorem pass_stop (proj : ℝ → ℝ × ℝ) (l : List ℝ) (h : (pass proj l).2 = false) :
    (pass proj l).1 = l ∧ Dense proj l := by
  induction l with
  | nil => exact ⟨rfl, List.IsChain.nil⟩
  | cons a t ih =>
    cases t with
    | nil => exact ⟨rfl, List.IsChain.singleton _⟩
    | cons b t =>
      simp only [pass] at h ⊢
      by_cases hf : far proj a b
      · rw [if_pos hf] at h; simp at h
      · rw [if_neg hf] at h ⊢
        obtain ⟨i1, i2⟩ := ih h
        exact ⟨by rw [i1], List.IsChain.cons_cons (not_lt.1 fun h' => hf ((far_iff proj a b).2 h')) i2⟩

/-- **C51, density.** Either neighbouring samples are at most 0.75 pixel apart at the end, or each of the `n` allowed
passes (12 in the code) still had to insert a midpoint. -/
theorem C51_density (proj : ℝ → ℝ × ℝ) (n : Nat) (l : List ℝ) :
    Dense proj (subdivide proj n l) ∨
    ∀ j < n, (pass proj ((fun l => (pass proj l).1)^[j] l)).2 = true := by
  induction n generalizing l with
  | zero => right; intro j hj; omega
  | succ n ih =>
    unfold subdivide
    by_cases h : (pass proj l).2 = true
    · rw [if_pos h]
      rcases ih (pass proj l).1 with h' | h'
      · left; exact h'
      · right
        intro j hj
        cases j with
        | zero => exact h
        | succ j => rw [Function.iterate_succ_apply]; exact h' j (by omega)
    · rw [if_neg h]
      left
      obtain ⟨h1, h2⟩ := pass_stop proj l (by simpa using h)
      rw [h1]; exact h2

/-- Pairs of neighbours that are still far apart on the image are at most `g` apart in time. -/
def FarGap (proj : ℝ → ℝ × ℝ) (g : ℝ) (l : List ℝ) : Prop := l.IsChain fun a b => far proj a b → |b - a| ≤ g

theorem farGap_pass (proj : ℝ → ℝ × ℝ) (g : ℝ) (l : List ℝ) (h : FarGap proj g l) :
    FarGap proj (g / 2) (pass proj l).1 := by
  induction l with
  | nil => exact List.IsChain.nil
  | cons a t ih =>
    cases t with
    | nil => exact List.IsChain.singleton _
    | cons b t =>
      unfold FarGap at h ih ⊢
      rw [List.isChain_cons_cons] at h
      have hr := ih h.2
      obtain ⟨m, hm, -, -⟩ := pass_mem proj b t
      rw [hm] at hr
      simp only [pass, hm]
      by_cases hf : far proj a b
      · rw [if_pos hf]
        have hg := h.1 hf
        have e1 : |(a + b) / 2 - a| = |b - a| / 2 := by
          rw [show (a + b) / 2 - a = (b - a) / 2 by ring, abs_div]; norm_num
        have e2 : |b - (a + b) / 2| = |b - a| / 2 := by
          rw [show b - (a + b) / 2 = (b - a) / 2 by ring, abs_div]; norm_num
        refine List.IsChain.cons_cons (fun _ => ?_) (List.IsChain.cons_cons (fun _ => ?_) hr)
        · rw [e1]; linarith
        · rw [e2]; linarith
      · rw [if_neg hf]
        exact List.IsChain.cons_cons (fun h' => absurd h' hf) hr

theorem farGap_subdivide (proj : ℝ → ℝ × ℝ) (n : Nat) (g : ℝ) (l : List ℝ) (h : FarGap proj g l) :
    FarGap proj (g / 2 ^ n) (subdivide proj n l) := by
  induction n generalizing g l with
  | zero => simpa [subdivide] using h
  | succ n ih =>
    unfold subdivide
    by_cases hp : (pass proj l).2 = true
    · rw [if_pos hp]
      have := ih _ _ (farGap_pass proj g l h)
      rwa [div_div, ← pow_succ'] at this
    · rw [if_neg hp]
      obtain ⟨h1, h2⟩ := pass_stop proj l (by simpa using hp)
      rw [h1]
      exact h2.imp fun a b hab hf => absurd hab (not_le.2 ((far_iff proj a b).1 hf))

/-- **C51, no gaps in a trail.** When a source moves over the image at a rate of at most `L` pixels per unit of the
exposure, and `L` times the length of the visible interval is at most 3072 pixels (3/4 of a pixel times 2 to the power
12), neighbouring samples of its trail are at most 3/4 of a pixel apart: the trail has no gaps. -/
theorem C51_no_gaps (proj : ℝ → ℝ × ℝ) (N : Nat) (ts te L : ℝ) (h : ts < te) (hL : 0 ≤ L)
    (hlip : ∀ a b, ((proj b).1 - (proj a).1) ^ 2 + ((proj b).2 - (proj a).2) ^ 2 ≤ (L * (b - a)) ^ 2)
    (hlen : L * (te - ts) ≤ 3072) : Dense proj (sampleParams proj N ts te) := by
  have h0 : FarGap proj (te - ts) (initialParams N ts te) := by
    obtain ⟨m, hm, hp⟩ := good_initial N ts te h
    have hb : ∀ x ∈ initialParams N ts te, ts ≤ x ∧ x ≤ te := by
      intro x hx
      rw [hm] at hx hp
      rw [List.pairwise_append] at hp
      obtain ⟨hp1, -, hp3⟩ := hp
      rw [List.mem_append] at hx
      rcases hx with hx | hx
      · refine ⟨?_, (hp3 x hx te (by simp)).le⟩
        rcases List.mem_cons.1 hx with rfl | hx
        · exact le_refl _
        · exact ((List.pairwise_cons.1 hp1).1 x hx).le
      · rw [List.mem_singleton] at hx
        rw [hx]; exact ⟨h.le, le_refl _⟩
    have hc : ∀ l : List ℝ, (∀ x ∈ l, ts ≤ x ∧ x ≤ te) → FarGap proj (te - ts) l := by
      intro l
      induction l with
      | nil => intro _; exact List.IsChain.nil
      | cons a t ih =>
        intro hl
        have hi := ih fun x hx => hl x (List.mem_cons_of_mem _ hx)
        cases t with
        | nil => exact List.IsChain.singleton _
        | cons b t =>
          refine List.IsChain.cons_cons (fun _ => ?_) hi
          have h1 := hl a (by simp)
          have h2 := hl b (by simp)
          rw [abs_le]; constructor <;> linarith [h1.1, h1.2, h2.1, h2.2]
    exact hc _ hb
  have hs := farGap_subdivide proj 12 _ _ h0
  refine List.IsChain.imp (fun a b hab => ?_) hs
  by_contra hcon
  have hf := (far_iff proj a b).2 (not_le.1 hcon)
  have hg := hab hf
  have h1 : L * |b - a| ≤ 3 / 4 := by
    have := mul_le_mul_of_nonneg_left hg hL
    have e : L * ((te - ts) / 2 ^ 12) = L * (te - ts) / 4096 := by norm_num; ring
    rw [e] at this
    linarith
  have h2 : (L * (b - a)) ^ 2 ≤ (3 / 4) ^ 2 := by
    rw [← sq_abs (L * (b - a)), abs_mul, abs_of_nonneg hL]
    exact pow_le_pow_left₀ (by positivity) h1 2
  exact hcon ((hlip a b).trans h2)

/-- A source that crosses 3000 pixels diagonally during the exposure: the hypotheses hold. -/
example : Dense (fun t => (1800 * t, 2400 * t)) (sampleParams (fun t => (1800 * t, 2400 * t)) 2 0 1) :=
  C51_no_gaps _ 2 0 1 3000 (by norm_num) (by norm_num) (fun a b => le_of_eq (by ring)) (by norm_num)

/-- The property at full strength: over all visible intervals of a source, the weights sum to the part of the exposure
(which is [0, 1]) during which it is visible. -/
def C51_full : Prop :=
  ∀ (proj : ℝ → ℝ × ℝ) (N : Nat) (ivs : List (ℝ × ℝ)),
    (∀ iv ∈ ivs, 0 ≤ iv.1 ∧ iv.1 < iv.2 ∧ iv.2 ≤ 1) → (ivs.Pairwise fun a b => a.2 ≤ b.1) →
    (ivs.map fun iv => (weights proj N iv).sum).sum = (ivs.map fun iv => iv.2 - iv.1).sum

/-- What the weights really sum to: the number of visible intervals. -/
theorem C51_total (proj : ℝ → ℝ × ℝ) (N : Nat) (ivs : List (ℝ × ℝ)) (h : ∀ iv ∈ ivs, iv.1 < iv.2) :
    (ivs.map fun iv => (weights proj N iv).sum).sum = ivs.length := by
  induction ivs with
  | nil => simp
  | cons a t ih =>
    rw [List.map_cons, List.sum_cons, ih fun iv hiv => h iv (List.mem_cons_of_mem _ hiv),
      (C51_interval_sum proj N a.1 a.2 (h a (List.mem_cons_self ..))).1]
    simp
    ring

/-- **C51, violated.** A source visible for half of the exposure deposits the energy of the whole exposure; one that
crosses the image twice deposits it twice. -/
theorem C51_violated : ¬ C51_full := by
  intro h
  have := h (fun _ => (0, 0)) 2 [(0, 1 / 2)] (by simp; norm_num) (by simp)
  rw [C51_total _ _ _ (by simp)] at this
  norm_num at this

/-- **C51, partial.** A source visible during the whole exposure deposits exactly the energy of the exposure. Missing:
sources that enter or leave the image during it. -/
theorem C51_whole_exposure_partial (proj : ℝ → ℝ × ℝ) (N : Nat) :
    ([((0 : ℝ), (1 : ℝ))].map fun iv => (weights proj N iv).sum).sum = 1 := by
  rw [C51_total _ _ _ (by simp)]; simp

/-! ### Interpolation between recorded samples -/

/-- **C51, interpolation.** Interpolated irradiance takes the recorded values at the recorded times, and in between lies
between two neighbouring recorded values. -/
theorem C51_interp_hits (l : List ℝ) (k : Nat) (h2 : 2 ≤ l.length) (hk : k < l.length) :
    interp l ((k : ℝ) / ((l.length - 1 : Nat) : ℝ)) = l.getD k 0 := by
  have hpos : ((l.length - 1 : Nat) : ℝ) ≠ 0 := by
    have : 0 < l.length - 1 := by omega
    positivity
  unfold interp
  rw [if_neg (by omega), div_mul_cancel₀ _ hpos]
  simp only [Int.floor_natCast, Int.toNat_natCast]
  by_cases hlast : k ≤ l.length - 2
  · rw [min_eq_left hlast]; simp
  · have e : k = l.length - 2 + 1 := by omega
    rw [min_eq_right (by omega)]
    have : ((k : ℝ) - ((l.length - 2 : Nat) : ℝ)) = 1 := by
      rw [e]; push_cast; ring
    rw [this, ← e]; ring

theorem C51_interp_between (l : List ℝ) (t : ℝ) (h2 : 2 ≤ l.length) (h0 : 0 ≤ t) (h1 : t ≤ 1) :
    ∃ k, k + 1 < l.length ∧ (k : ℝ) / ((l.length - 1 : Nat) : ℝ) ≤ t ∧ t ≤ ((k + 1 : Nat) : ℝ) / ((l.length - 1 : Nat) : ℝ) ∧
      ∃ w : ℝ, 0 ≤ w ∧ w ≤ 1 ∧ interp l t = (1 - w) * l.getD k 0 + w * l.getD (k + 1) 0 := by
  have hpos : (0 : ℝ) < ((l.length - 1 : Nat) : ℝ) := by
    have : 0 < l.length - 1 := by omega
    exact_mod_cast this
  set s := t * ((l.length - 1 : Nat) : ℝ) with hs
  have s0 : 0 ≤ s := by positivity
  have s1 : s ≤ ((l.length - 1 : Nat) : ℝ) := by
    rw [hs]; nlinarith
  have hf0 : 0 ≤ ⌊s⌋ := Int.floor_nonneg.2 s0
  have hfc : ((⌊s⌋.toNat : Nat) : ℝ) = (⌊s⌋ : ℝ) := by
    have : ((⌊s⌋.toNat : Nat) : Int) = ⌊s⌋ := Int.toNat_of_nonneg hf0
    exact_mod_cast this
  set k := min ⌊s⌋.toNat (l.length - 2) with hk
  have hle : (k : ℝ) ≤ s := by
    have h1 : (k : ℝ) ≤ (⌊s⌋.toNat : ℝ) := by exact_mod_cast min_le_left _ _
    rw [hfc] at h1
    exact le_trans h1 (Int.floor_le s)
  have hlt : s ≤ (k : ℝ) + 1 := by
    by_cases h : ⌊s⌋.toNat ≤ l.length - 2
    · have : k = ⌊s⌋.toNat := min_eq_left h
      rw [this, hfc]
      exact (Int.lt_floor_add_one s).le
    · have : k = l.length - 2 := min_eq_right (by omega)
      rw [this]
      have e : ((l.length - 1 : Nat) : ℝ) = ((l.length - 2 : Nat) : ℝ) + 1 := by
        have : l.length - 1 = l.length - 2 + 1 := by omega
        rw [this]; push_cast; ring
      linarith
  refine ⟨k, by omega, ?_, ?_, s - k, by linarith, by linarith, ?_⟩
  · rw [div_le_iff₀ hpos]; exact hle
  · rw [le_div_iff₀ hpos]; push_cast; exact hlt
  · unfold interp
    rw [if_neg (by omega)]
    simp only []
    rw [← hs, ← hk]
    ring

/-- A single recorded sample is used at all times. -/
theorem C51_interp_single (v t : ℝ) : interp [v] t = v := by simp [interp]

example : interp [1, 3, 7] (3 / 4) = 5 := by
  have h : ⌊(3 / 4 : ℝ) * ((2 : Nat) : ℝ)⌋ = 1 := by norm_num
  simp only [interp, List.length_cons, List.length_nil]
  norm_num [h]

end
end Huira.Points
