import Verif.Spectral.Model

/-!
# Spectral bins (C66)
-/

set_option linter.unusedSimpArgs false
set_option linter.unusedVariables false

namespace Huira.Spectral

variable {n : ℕ}

theorem foldl_add (l : List (Fin n)) (f : Fin n → ℝ) (s : ℝ) :
    l.foldl (fun s i => s + f i) s = s + (l.map f).sum := by
  induction l generalizing s with
  | nil => simp
  | cons a l ih => simp [ih]; ring

theorem loopSum_eq (f : Fin n → ℝ) : loopSum n f = ∑ i, f i := by
  rw [loopSum, foldl_add, zero_add, ← List.ofFn_eq_map, List.sum_ofFn]

/-! ## Construction -/

/-- A well-formed set of bins: none is empty or reversed and no two share more than an end point. -/
def Disjoint (bins : Fin n → Bin) : Prop :=
  (∀ i, (bins i).min < (bins i).max) ∧
  ∀ i j, i ≠ j → (bins i).max ≤ (bins j).min ∨ (bins j).max ≤ (bins i).min

/-- **C66.**  The bins accepted by the compiler are exactly the well-formed ones among the three forms of arguments. -/
theorem C66_accepts_iff (args : List ℝ) (bins : Fin n → Bin) :
    initBins n args = some bins ↔ dispatch n args = some bins ∧ Disjoint bins := by
  unfold initBins
  cases hd : dispatch n args with
  | none => simp
  | some b =>
    simp only [Option.bind_eq_bind, Option.bind_some, Option.some.injEq]
    constructor
    · intro h
      split_ifs at h with h1 h2
      simp only [Option.some.injEq] at h
      subst h
      refine ⟨rfl, fun i => ?_, fun i j hij => ?_⟩
      · by_contra hc; exact h1 ⟨i, not_lt.mp hc⟩
      · by_contra hc
        push Not at hc h2
        rcases lt_or_gt_of_ne hij with h | h
        · exact absurd (h2 i j h hc.2) (not_le.mpr hc.1)
        · exact absurd (h2 j i h hc.1) (not_le.mpr hc.2)
    · rintro ⟨rfl, h1, h2⟩
      rw [if_neg, if_neg]
      · rintro ⟨i, j, hij, ha, hb⟩
        rcases h2 i j hij.ne with h | h <;> linarith
      · rintro ⟨i, hi⟩; exact absurd (h1 i) (not_lt.mpr hi)

/-- Uniform bins are accepted for every number of bins and every band of positive length; they are contiguous, of equal
width, and cover the band. -/
theorem C66_uniform (hn : 0 < n) (a b : ℝ) :
    (a < b ↔ ∃ bins, initBins n [a, b] = some bins) ∧
    ∀ bins, initBins n [a, b] = some bins →
      (bins ⟨0, hn⟩).min = a * 1e-9 ∧ (bins ⟨n - 1, by omega⟩).max = b * 1e-9 ∧
      (∀ i : Fin n, (bins i).width = (b - a) * 1e-9 / n) ∧
      (∀ (i : ℕ) (hi : i + 1 < n), (bins ⟨i, by omega⟩).max = (bins ⟨i + 1, hi⟩).min) := by
  have hnR : (0 : ℝ) < n := by exact_mod_cast hn
  have hd : dispatch n [a, b] = some (initUniform n a b) := by simp [dispatch, hn]
  have hw : ∀ i : Fin n, (initUniform n a b i).max - (initUniform n a b i).min = (b - a) * 1e-9 / n := by
    intro i; simp only [initUniform]; push_cast; ring
  refine ⟨⟨fun hab => ⟨initUniform n a b, (C66_accepts_iff _ _).mpr ⟨hd, fun i => ?_, fun i j hij => ?_⟩⟩, ?_⟩, ?_⟩
  · have := hw i
    have h2 : 0 < (b - a) * 1e-9 / n := by have : 0 < b - a := by linarith
                                           positivity
    linarith
  · have hs : 0 < (b * 1e-9 - a * 1e-9) / (n : ℝ) := by
      have : 0 < b * 1e-9 - a * 1e-9 := by nlinarith
      positivity
    have mono : ∀ x y : Fin n, x < y → (initUniform n a b x).max ≤ (initUniform n a b y).min := by
      intro x y hxy
      simp only [initUniform]
      have : (((x : ℕ) + 1 : ℕ) : ℝ) ≤ ((y : ℕ) : ℝ) := by exact_mod_cast hxy
      nlinarith
    rcases lt_or_gt_of_ne hij with h | h
    · left; exact mono i j h
    · right; exact mono j i h
  · rintro ⟨bins, hb⟩
    rw [C66_accepts_iff, hd] at hb
    obtain ⟨h1, h2⟩ := hb
    cases h1
    have h3 := h2.1 ⟨0, hn⟩
    have h4 := hw ⟨0, hn⟩
    by_contra hc
    have : (b - a) * 1e-9 / n ≤ 0 := by
      apply div_nonpos_of_nonpos_of_nonneg _ hnR.le
      nlinarith
    linarith
  · intro bins hb
    rw [C66_accepts_iff, hd] at hb
    obtain ⟨h1, h2⟩ := hb
    cases h1
    refine ⟨?_, ?_, fun i => hw i, ?_⟩
    · simp [initUniform]
    · simp only [initUniform]
      have : (((n - 1 : ℕ) + 1 : ℕ) : ℝ) = n := by congr 1; omega
      rw [this]; field_simp; ring
    · intro i hi; simp [initUniform]

/-- From `n + 1` edges (`n ≥ 2`; with `n = 1` two arguments mean a uniform bin, which is the same) bins are accepted exactly
when the edges increase strictly, and bin `i` runs from edge `i` to edge `i + 1`. -/
theorem C66_edges (hn : 2 ≤ n) (args : List ℝ) (hl : args.length = n + 1) (hl' : args.length ≠ 2 * n) :
    ((∃ bins, initBins n args = some bins) ↔ ∀ i, i + 1 < args.length → args.getD i 0 < args.getD (i + 1) 0) ∧
    ∀ bins, initBins n args = some bins → ∀ i : Fin n,
      bins i = ⟨args.getD i 0 * 1e-9, args.getD (i + 1) 0 * 1e-9⟩ := by
  have hd : dispatch n args = some (initEdges n args) := by
    unfold dispatch; rw [if_neg (by omega), if_neg hl', if_pos hl]
  refine ⟨⟨?_, ?_⟩, ?_⟩
  · rintro ⟨bins, hb⟩ i hi
    rw [C66_accepts_iff, hd] at hb
    obtain ⟨h1, h2⟩ := hb
    cases h1
    have := h2.1 ⟨i, by omega⟩
    simp only [initEdges] at this
    nlinarith
  · intro h
    refine ⟨_, (C66_accepts_iff _ _).mpr ⟨hd, fun i => ?_, fun i j hij => ?_⟩⟩
    · have := h i (by omega)
      simp only [initEdges]; nlinarith
    · have mono : ∀ k m : ℕ, k ≤ m → m < args.length → args.getD k 0 ≤ args.getD m 0 := by
        intro k m hkm
        induction m, hkm using Nat.le_induction with
        | base => intro _; exact le_rfl
        | succ m hkm ih => intro hm; exact (ih (by omega)).trans (h m hm).le
      rcases lt_or_gt_of_ne hij with hh | hh
      · left
        have := mono (i + 1) j (by have : (i : ℕ) < j := hh; omega) (by omega)
        simp only [initEdges]; nlinarith
      · right
        have := mono (j + 1) i (by have : (j : ℕ) < i := hh; omega) (by omega)
        simp only [initEdges]; nlinarith
  · intro bins hb i
    rw [C66_accepts_iff, hd] at hb
    obtain ⟨h1, h2⟩ := hb
    cases h1
    rfl

/-- RGB's own bins are well formed, in descending order. -/
theorem rgb_disjoint : Disjoint rgbBins := by
  constructor
  · intro i; fin_cases i <;> simp [rgbBins, initPairs] <;> norm_num
  · intro i j hij
    fin_cases i <;> fin_cases j <;> simp_all [rgbBins, initPairs] <;> norm_num

example : initBins 3 [600, 750, 500, 600, 380, 500] = some rgbBins :=
  (C66_accepts_iff _ _).mpr ⟨by simp [dispatch, rgbBins], rgb_disjoint⟩

/-- A one-element list fills every bin; a list of `n` elements gives each its own; nothing is left uninitialised in
either case. -/
theorem C66_init_list_partial (init : List ℝ) (i : Fin n) :
    (init.length = 1 → ofInit n init i = init[0]?) ∧ (n ≤ init.length → init.length ≠ 1 → ofInit n init i = init[(i : ℕ)]? ∧
      (ofInit n init i).isSome) := by
  have := i.2
  refine ⟨fun h => by simp [ofInit, h], fun h h1 => ?_⟩
  have e : ofInit n init i = init[(i : ℕ)]? := by
    unfold ofInit; rw [if_neg h1, if_pos (by simp only [Nat.min_def]; split <;> omega)]
  refine ⟨e, ?_⟩
  rw [e, List.getElem?_eq_getElem (by omega)]; rfl

/-- A list of intermediate length leaves the remaining bins uninitialised. -/
theorem C66_init_list_violated : ∃ (init : List ℝ) (i : Fin 3), init ≠ [] ∧ ofInit 3 init i = none :=
  ⟨[1, 2], 2, by simp, by simp [ofInit, Nat.min_def]⟩

/-! ## Totals and integrals -/

/-- `from_total` loses nothing: the bins add up to the total, each getting its share by width. -/
theorem C66_from_total (bins : Fin n → Bin) (hn : 0 < n) (hb : Disjoint bins) (t : ℝ) :
    total (fromTotal bins t) = t ∧
    ∀ i j, fromTotal bins t i * (bins j).width = fromTotal bins t j * (bins i).width := by
  have hw : ∀ i, 0 < (bins i).max - (bins i).min := fun i => by have := hb.1 i; linarith
  have hpos : 0 < ∑ i, ((bins i).max - (bins i).min) := by
    haveI : Nonempty (Fin n) := ⟨⟨0, hn⟩⟩
    exact Finset.sum_pos (fun i _ => hw i) Finset.univ_nonempty
  constructor
  · simp only [total, fromTotal, loopSum_eq]
    rw [← Finset.mul_sum, ← Finset.sum_div, div_self hpos.ne', mul_one]
  · intro i j
    simp only [fromTotal, Bin.width]; ring

/-- Length of the part of a bin inside a band. -/
def overlap (b : Bin) (lo hi : ℝ) : ℝ := max 0 (min b.max hi - max b.min lo)

/-- The integral over a band adds each bin's value times the length of its part inside the band, for any band that is not
reversed. -/
theorem C66_band (bins : Fin n → Bin) (hb : Disjoint bins) (d : Fin n → ℝ) (lo hi : ℝ) (h : lo ≤ hi) :
    integrateBand bins d lo hi = ∑ i, d i * overlap (bins i) lo hi := by
  simp only [integrateBand, loopSum_eq]
  apply Finset.sum_congr rfl
  intro i _
  have := hb.1 i
  unfold overlap
  split_ifs with hc
  · rw [max_eq_left, mul_zero]
    rcases hc with hc | hc
    · have := min_le_left (bins i).max hi; have := le_max_right (bins i).min lo; linarith
    · have := min_le_right (bins i).max hi; have := le_max_left (bins i).min lo; linarith
  · push Not at hc
    have h2 : max (bins i).min lo ≤ min (bins i).max hi :=
      max_le (le_min this.le hc.2.le) (le_min hc.1.le h)
    have h3 : 0 ≤ min (bins i).max hi - max (bins i).min lo := by linarith
    rw [max_eq_right h3]

/-- Integration is additive over adjoining bands. -/
theorem C66_band_additive (bins : Fin n → Bin) (hb : Disjoint bins) (d : Fin n → ℝ) (a b c : ℝ) (hab : a ≤ b)
    (hbc : b ≤ c) : integrateBand bins d a b + integrateBand bins d b c = integrateBand bins d a c := by
  rw [C66_band _ hb _ _ _ hab, C66_band _ hb _ _ _ hbc, C66_band _ hb _ _ _ (hab.trans hbc), ← Finset.sum_add_distrib]
  apply Finset.sum_congr rfl
  intro i _
  rw [← mul_add]
  congr 1
  have := hb.1 i
  unfold overlap
  simp only [max_def, min_def]
  split_ifs <;> linarith

/-- Over a band containing all bins it is the plain integral; outside all bins it is zero. -/
theorem C66_band_whole (bins : Fin n → Bin) (hb : Disjoint bins) (d : Fin n → ℝ) (a b : ℝ)
    (h : ∀ i, a ≤ (bins i).min ∧ (bins i).max ≤ b) (hab : a ≤ b) : integrateBand bins d a b = integrate bins d := by
  rw [C66_band _ hb _ _ _ hab, integrate, loopSum_eq]
  apply Finset.sum_congr rfl
  intro i _
  have h1 := hb.1 i
  rw [overlap, min_eq_left (h i).2, max_eq_left (h i).1, max_eq_right (by linarith)]

/-- Reversed bands are not rejected: inside a bin they come out negative, across bins they silently give something else. -/
theorem C66_reversed_band :
    integrateBand rgbBins (fun _ => 1) 700e-9 650e-9 = -50e-9 ∧ integrateBand rgbBins (fun _ => 1) 700e-9 550e-9 = 0 := by
  constructor
  · simp only [integrateBand, loopSum_eq, Fin.sum_univ_three, rgbBins, initPairs]
    simp
    norm_num
  · simp only [integrateBand, loopSum_eq, Fin.sum_univ_three, rgbBins, initPairs]
    simp
    norm_num

/-- `integrate` is the sum of value times width, `total` the sum, `magnitude` the Euclidean norm. -/
theorem C66_sums (bins : Fin n → Bin) (d : Fin n → ℝ) :
    integrate bins d = ∑ i, d i * (bins i).width ∧ total d = ∑ i, d i ∧
    magnitude d ^ 2 = ∑ i, d i ^ 2 ∧ 0 ≤ magnitude d := by
  refine ⟨loopSum_eq _, loopSum_eq _, ?_, Real.sqrt_nonneg _⟩
  rw [magnitude, Real.sq_sqrt, loopSum_eq]
  · exact Finset.sum_congr rfl fun i _ => (pow_two _).symm
  · rw [loopSum_eq]; exact Finset.sum_nonneg fun i _ => mul_self_nonneg _

/-! ## Per-bin arithmetic -/

theorem foldl_update (o : Op) (rhs : Fin n → ℝ) (l : List (Fin n)) (hl : l.Nodup) (d : Fin n → ℝ) (i : Fin n) :
    l.foldl (fun d i => Function.update d i (o.eval (d i) (rhs i))) d i =
      if i ∈ l then o.eval (d i) (rhs i) else d i := by
  induction l generalizing d with
  | nil => simp
  | cons a l ih =>
    rw [List.nodup_cons] at hl
    rw [List.foldl_cons, ih hl.2]
    by_cases hia : i = a
    · subst hia; simp [hl.1]
    · by_cases him : i ∈ l <;> simp [hia, him]

/-- Every operator acts bin by bin, whichever side the scalar is on. -/
theorem C66_per_bin (o : Op) (a b : Fin n → ℝ) (s : ℝ) (i : Fin n) :
    arrayArray o a b i = o.eval (a i) (b i) ∧ arrayScalar o a s i = o.eval (a i) s ∧
    scalarArray o s b i = o.eval s (b i) := by
  have key : ∀ (o : Op) (d rhs : Fin n → ℝ), inPlace o d rhs i = o.eval (d i) (rhs i) := by
    intro o d rhs
    rw [inPlace, foldl_update _ _ _ (List.nodup_finRange n)]
    simp
  refine ⟨key _ _ _, key _ _ _, ?_⟩
  cases o <;> simp only [scalarArray, arrayScalar, key, Op.eval] <;> ring

theorem foldl_max (l : List ℝ) (m : ℝ) :
    (∀ x ∈ m :: l, x ≤ l.foldl (fun m y => if y > m then y else m) m) ∧
    l.foldl (fun m y => if y > m then y else m) m ∈ m :: l := by
  induction l generalizing m with
  | nil => simp
  | cons a l ih =>
    simp only [List.foldl_cons]
    have h := ih (if a > m then a else m)
    refine ⟨?_, ?_⟩
    · intro x hx
      have h0 := h.1 (if a > m then a else m) (by simp)
      rcases List.mem_cons.mp hx with rfl | hx
      · refine le_trans ?_ h0; split_ifs with hh <;> linarith
      · rcases List.mem_cons.mp hx with rfl | hx
        · refine le_trans ?_ h0; split_ifs with hh <;> linarith
        · exact h.1 x (by simp [hx])
    · have := h.2
      rcases List.mem_cons.mp this with e | e
      · rw [e]; split_ifs <;> simp
      · simp [e]

theorem foldl_min (l : List ℝ) (m : ℝ) :
    (∀ x ∈ m :: l, l.foldl (fun m y => if y < m then y else m) m ≤ x) ∧
    l.foldl (fun m y => if y < m then y else m) m ∈ m :: l := by
  induction l generalizing m with
  | nil => simp
  | cons a l ih =>
    simp only [List.foldl_cons]
    have h := ih (if a < m then a else m)
    refine ⟨?_, ?_⟩
    · intro x hx
      have h0 := h.1 (if a < m then a else m) (by simp)
      rcases List.mem_cons.mp hx with rfl | hx
      · refine le_trans h0 ?_; split_ifs with hh <;> linarith
      · rcases List.mem_cons.mp hx with rfl | hx
        · refine le_trans h0 ?_; split_ifs with hh <;> linarith
        · exact h.1 x (by simp [hx])
    · have := h.2
      rcases List.mem_cons.mp this with e | e
      · rw [e]; split_ifs <;> simp
      · simp [e]

/-- `max` and `min` are attained extrema. -/
theorem C66_extrema (l : List ℝ) (h : l ≠ []) :
    (maxVal l ∈ l ∧ ∀ x ∈ l, x ≤ maxVal l) ∧ (minVal l ∈ l ∧ ∀ x ∈ l, minVal l ≤ x) := by
  cases l with
  | nil => exact absurd rfl h
  | cons a l => exact ⟨⟨(foldl_max l a).2, (foldl_max l a).1⟩, ⟨(foldl_min l a).2, (foldl_min l a).1⟩⟩

/-- `valid` accepts exactly finite non-negative values, `valid_ratio` exactly values from 0 to 1. -/
theorem C66_valid (l : List XF) :
    (valid l = true ↔ ∀ x ∈ l, ∃ r : ℝ, x = .fin r ∧ 0 ≤ r) ∧
    (validRatio l = true ↔ ∀ x ∈ l, ∃ r : ℝ, x = .fin r ∧ 0 ≤ r ∧ r ≤ 1) := by
  constructor
  · induction l with
    | nil => simp [valid]
    | cons a l ih =>
      cases a <;> simp [valid, XF.lt, XF.isNan, XF.isInf, ih]
  · induction l with
    | nil => simp [validRatio]
    | cons a l ih =>
      cases a <;> simp [validRatio, XF.lt, XF.isNan, XF.isInf, ih]

/-! ## RGB to spectral (C90) -/

/-- The bins overlap RGB's red band, by more than a tenth of it, counted from the first bin's start to the last one's end:
the test the conversion makes. -/
def Significant (bins : Fin (n + 1) → Bin) : Prop :=
  (min (bins (Fin.last n)).max (rgbBins 0).max - max (bins 0).min (rgbBins 0).min) /
    ((rgbBins 0).max - (rgbBins 0).min) > 0.1

/-- The full property: each bin that lies within the RGB band (380-750 nm) gets the mean of the RGB spectrum over it. -/
def C90_full : Prop := ∀ (n : ℕ) (bins : Fin (n + 1) → Bin) (rgb : Fin 3 → ℝ), Disjoint bins →
  ∀ i, (380e-9 ≤ (bins i).min ∧ (bins i).max ≤ 750e-9) →
    convertRgb bins rgb i * (bins i).width = ∑ k, rgb k * overlap (rgbBins k) (bins i).min (bins i).max

theorem rgb0 : rgbBins 0 = ⟨600e-9, 750e-9⟩ := by
  simp only [rgbBins, initPairs, Bin.mk.injEq]; constructor <;> (simp; norm_num)
theorem rgb1 : rgbBins 1 = ⟨500e-9, 600e-9⟩ := by
  simp only [rgbBins, initPairs, Bin.mk.injEq]; constructor <;> (simp; norm_num)
theorem rgb2 : rgbBins 2 = ⟨380e-9, 500e-9⟩ := by
  simp only [rgbBins, initPairs, Bin.mk.injEq]; constructor <;> (simp; norm_num)

theorem overlap_two (a b c lo hi : ℝ) (hab : a ≤ b) (hbc : b ≤ c) (hlh : lo ≤ hi) :
    overlap ⟨a, b⟩ lo hi + overlap ⟨b, c⟩ lo hi = overlap ⟨a, c⟩ lo hi := by
  simp only [overlap, max_def, min_def]
  split_ifs <;> linarith

theorem overlap_three (a b c d lo hi : ℝ) (hab : a ≤ b) (hbc : b ≤ c) (hcd : c ≤ d) (h1 : a ≤ lo) (h2 : hi ≤ d)
    (hlh : lo ≤ hi) : overlap ⟨c, d⟩ lo hi + overlap ⟨b, c⟩ lo hi + overlap ⟨a, b⟩ lo hi = hi - lo := by
  have e1 := overlap_two a b c lo hi hab hbc hlh
  have e2 := overlap_two a c d lo hi (hab.trans hbc) hcd hlh
  have e3 : overlap ⟨a, d⟩ lo hi = hi - lo := by
    simp only [overlap]; rw [min_eq_right h2, max_eq_right h1, max_eq_right (by linarith)]
  linarith

/-- It holds when the conversion's test succeeds — then for every bin, also outside the RGB band — so no energy is lost
or invented in the band. -/
theorem C90_partial (bins : Fin (n + 1) → Bin) (hb : Disjoint bins) (hs : Significant bins) (rgb : Fin 3 → ℝ) :
    (∀ i, convertRgb bins rgb i * (bins i).width = ∑ k, rgb k * overlap (rgbBins k) (bins i).min (bins i).max) ∧
    (∀ c : ℝ, rgb = (fun _ => c) → ∀ i, 380e-9 ≤ (bins i).min → (bins i).max ≤ 750e-9 → convertRgb bins rgb i = c) := by
  have hmain : ∀ i, convertRgb bins rgb i * (bins i).width =
      ∑ k, rgb k * overlap (rgbBins k) (bins i).min (bins i).max := by
    intro i
    have hw : 0 < (bins i).max - (bins i).min := by have := hb.1 i; linarith
    have e : convertRgb bins rgb i = integrateBand rgbBins rgb (bins i).min (bins i).max / ((bins i).max - (bins i).min) := by
      have hs' := hs
      unfold Significant at hs'
      unfold convertRgb; rw [if_pos hs']
    rw [e, C66_band _ rgb_disjoint _ _ _ (hb.1 i).le, Bin.width, div_mul_cancel₀ _ hw.ne']
  refine ⟨hmain, ?_⟩
  rintro c rfl i h1 h2
  have hw : 0 < (bins i).width := by have := hb.1 i; simp only [Bin.width]; linarith
  have := hmain i
  have key : ∑ k, c * overlap (rgbBins k) (bins i).min (bins i).max = c * (bins i).width := by
    rw [← Finset.mul_sum]
    congr 1
    have hm := hb.1 i
    rw [Fin.sum_univ_three, rgb0, rgb1, rgb2]
    exact overlap_three _ _ _ _ _ _ (by norm_num) (by norm_num) (by norm_num) h1 h2 hm.le
  rw [key] at this
  exact mul_right_cancel₀ hw.ne' this

/-- It fails because the test compares with the red bin alone: a sensor with bins 380-490 and 490-600 nm, entirely inside
the RGB band, gets the grey average — blue light of intensity 3 shows up equally as 1 in both bins. -/
theorem C90_violated : ¬ C90_full := by
  intro h
  let bins : Fin 2 → Bin := fun i => if i = 0 then ⟨380e-9, 490e-9⟩ else ⟨490e-9, 600e-9⟩
  have hd : Disjoint bins := by
    constructor
    · intro i; fin_cases i <;> simp [bins] <;> norm_num
    · intro i j hij; fin_cases i <;> fin_cases j <;> simp_all [bins]
  have h0 := h 1 bins (fun k => if k = 2 then 3 else 0) hd 0 (by simp [bins]; norm_num)
  have e : convertRgb bins (fun k => if k = 2 then 3 else 0) 0 = 1 := by
    unfold convertRgb
    simp only []
    rw [if_neg]
    · simp
    · simp [bins, rgbBins, initPairs]
      norm_num
  rw [e] at h0
  simp only [Fin.sum_univ_three, overlap, rgbBins, initPairs, Bin.width, bins] at h0
  simp at h0
  norm_num at h0

/-- With the 8 visible bins the test succeeds. -/
example : Significant (initUniform 8 380 750) := by
  simp only [Significant, rgbBins, initPairs, initUniform]
  simp [Fin.last]
  norm_num

/-- Photon energies: shorter wavelengths carry more energy. -/
theorem C66_photon_energy (hc : ℝ) (h : 0 < hc) (bins : Fin n → Bin) (i j : Fin n) (hi : 0 < (bins i).center)
    (hij : (bins i).center < (bins j).center) :
    photonEnergies hc bins j < photonEnergies hc bins i ∧ photonEnergies hc bins i * (bins i).center = hc := by
  constructor
  · exact div_lt_div_of_pos_left h hi hij
  · exact div_mul_cancel₀ _ hi.ne'

end Huira.Spectral
