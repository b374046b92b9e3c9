import Verif.Spectral.Props
import Mathlib.MeasureTheory.Integral.IntervalIntegral.Basic
import Mathlib.Analysis.SpecialFunctions.Integrals.Basic

/-!
# Sampled curves averaged over bins (C91)
-/

set_option linter.unusedSimpArgs false
set_option linter.unusedVariables false

open MeasureTheory

namespace Huira.Spectral

/-- The curve through the samples `(w k, v k)`, `k < M`: zero before the first sample, linear between neighbours, constant
from the last sample on. -/
structure IsCurve (w v : ℕ → ℝ) (M : ℕ) (f : ℝ → ℝ) : Prop where
  before : ∀ x, x < w 0 → f x = 0
  between : ∀ k, k + 1 < M → ∀ x, w k ≤ x → x ≤ w (k + 1) →
    f x = v k + (v (k + 1) - v k) * ((x - w k) / (w (k + 1) - w k))
  after : ∀ x, w (M - 1) ≤ x → f x = v (M - 1)

/-- Strictly ascending wavelengths. -/
def Ascending (w : ℕ → ℝ) (M : ℕ) : Prop := ∀ k, k + 1 < M → w k < w (k + 1)

theorem Ascending.lt {w : ℕ → ℝ} {M : ℕ} (h : Ascending w M) {i j : ℕ} (hij : i < j) (hj : j < M) : w i < w j := by
  induction j, (Nat.succ_le_iff.mpr hij) using Nat.le_induction with
  | base => exact h i hj
  | succ m hm ih => exact (ih hm (by omega)).trans (h m hj)

theorem Ascending.le {w : ℕ → ℝ} {M : ℕ} (h : Ascending w M) {i j : ℕ} (hij : i ≤ j) (hj : j < M) : w i ≤ w j := by
  rcases hij.eq_or_lt with rfl | h'
  · exact le_rfl
  · exact (h.lt h' hj).le

/-- What the binary search returns. -/
theorem lowerBound_spec {w : ℕ → ℝ} {M : ℕ} (h : Ascending w M) (t : ℝ) (first count : ℕ) (hfc : first + count ≤ M)
    (h1 : ∀ j < first, w j < t) (h2 : ∀ j, first + count ≤ j → j < M → t ≤ w j) :
    lowerBound w t first count ≤ M ∧ (∀ j < lowerBound w t first count, w j < t) ∧
    ∀ j, lowerBound w t first count ≤ j → j < M → t ≤ w j := by
  induction first, count using lowerBound.induct (w := w) (target := t) with
  | case1 first count hc hw ih =>
    rw [lowerBound, dif_pos hc, if_pos hw]
    refine ih (by omega) (fun j hj => ?_) (fun j hj hM => h2 j (by omega) hM)
    exact (h.le (by omega) (by omega)).trans_lt hw
  | case2 first count hc hw ih =>
    rw [lowerBound, dif_pos hc, if_neg hw]
    refine ih (by omega) h1 (fun j hj hM => ?_)
    exact (not_lt.mp hw).trans (h.le hj hM)
  | case3 first count hc =>
    rw [lowerBound, dif_neg hc]
    exact ⟨by omega, h1, fun j hj hM => h2 j (by omega) hM⟩

theorem lowerBound_spec' {w : ℕ → ℝ} {M : ℕ} (h : Ascending w M) (t : ℝ) :
    lowerBound w t 0 M ≤ M ∧ (∀ j < lowerBound w t 0 M, w j < t) ∧
    ∀ j, lowerBound w t 0 M ≤ j → j < M → t ≤ w j :=
  lowerBound_spec h t 0 M (by omega) (fun j hj => by omega) (fun j hj hM => by omega)

/-- Trapezoid rule for a linear piece. -/
theorem trapezoid {f : ℝ → ℝ} {a b p q : ℝ} (hab : a ≤ b) (hf : ∀ x, a ≤ x → x ≤ b → f x = p + q * x) :
    IntervalIntegrable f volume a b ∧ ∫ x in a..b, f x = 0.5 * (f a + f b) * (b - a) := by
  have hi : IntervalIntegrable (fun x : ℝ => p + q * x) volume a b :=
    (by fun_prop : Continuous fun x : ℝ => p + q * x).intervalIntegrable _ _
  have e : Set.EqOn f (fun x => p + q * x) (Set.uIcc a b) := by
    intro x hx
    rw [Set.uIcc_of_le hab] at hx
    exact hf x hx.1 hx.2
  constructor
  · exact hi.congr (fun x hx => (e (Set.uIoc_subset_uIcc hx)).symm)
  · rw [intervalIntegral.integral_congr e, intervalIntegral.integral_add (by simp) (by
      exact (by fun_prop : Continuous fun x : ℝ => q * x).intervalIntegrable _ _),
      intervalIntegral.integral_const_mul, integral_id, intervalIntegral.integral_const,
      hf a le_rfl hab, hf b hab le_rfl]
    simp only [smul_eq_mul]
    ring

section
variable {w v : ℕ → ℝ} {M : ℕ} {f : ℝ → ℝ}

/-- The curve is linear between neighbouring samples, and after the last. -/
theorem IsCurve.piece (hf : IsCurve w v M f) (hw : Ascending w M) {k : ℕ} (hk : 1 ≤ k) (hkM : k ≤ M) {a b : ℝ}
    (ha : w (k - 1) ≤ a) (hab : a ≤ b) (hb : k < M → b ≤ w k) :
    IntervalIntegrable f volume a b ∧ ∫ x in a..b, f x = 0.5 * (f a + f b) * (b - a) := by
  obtain ⟨j, rfl⟩ : ∃ j, k = j + 1 := ⟨k - 1, by omega⟩
  simp only [Nat.add_sub_cancel] at ha
  by_cases h : j + 1 < M
  · have hlt := hw j h
    refine trapezoid (p := v j - (v (j + 1) - v j) * (w j / (w (j + 1) - w j)))
      (q := (v (j + 1) - v j) / (w (j + 1) - w j)) hab fun x hx hx' => ?_
    rw [hf.between j h x (ha.trans hx) (hx'.trans (hb h))]
    have : w (j + 1) - w j ≠ 0 := by linarith
    field_simp
    ring
  · have e : M - 1 = j := by omega
    refine trapezoid (p := v j) (q := 0) hab fun x hx hx' => ?_
    have := hf.after x (by rw [e]; exact ha.trans hx)
    rw [this, e]; ring

theorem getD_eq (l : List ℝ) {k : ℕ} (h : k < l.length) : l.getD k 0 = l[k] := by
  rw [List.getD_eq_getElem?_getD, List.getElem?_eq_getElem h]; rfl

theorem IsCurve.sample (hf : IsCurve w v M f) (hw : Ascending w M) {k : ℕ} (hk : k < M) : f (w k) = v k := by
  by_cases h : k + 1 < M
  · rw [hf.between k h _ le_rfl (hw k h).le]; simp
  · have e : M - 1 = k := by omega
    have := hf.after (w k) (by rw [e])
    rw [this, e]

theorem IsCurve.lerp_eq (hf : IsCurve w v M f) {k : ℕ} (hk : 1 ≤ k) (hkM : k < M) {x : ℝ} (h1 : w (k - 1) ≤ x)
    (h2 : x ≤ w k) : lerp w v (k - 1) k x = f x := by
  obtain ⟨j, rfl⟩ : ∃ j, k = j + 1 := ⟨k - 1, by omega⟩
  simp only [Nat.add_sub_cancel] at h1 ⊢
  rw [hf.between j hkM x h1 h2, lerp]
  ring

/-- Before the first sample nothing is accumulated. -/
theorem IsCurve.integral_before (hf : IsCurve w v M f) {a : ℝ} (ha : a ≤ w 0) :
    IntervalIntegrable f volume a (w 0) ∧ ∫ x in a..(w 0), f x = 0 := by
  have e : ∀ x ∈ Set.Ioo a (w 0), f x = (fun _ => (0 : ℝ)) x := fun x hx => hf.before x hx.2
  constructor
  · have h0 : IntervalIntegrable (fun _ : ℝ => (0 : ℝ)) volume a (w 0) := by simp
    refine h0.congr_uIoo ?_
    rw [Set.uIoo_of_le ha]
    exact fun x hx => (e x hx).symm
  · rw [intervalIntegral.integral_congr_Ioo_of_le ha e]; simp

/-- Invariant of the accumulation: the part of the integral up to the last knot has been added, and the next sample is `k`. -/
structure Inv (w v : ℕ → ℝ) (M : ℕ) (f : ℝ → ℝ) (lo hi : ℝ) (k : ℕ) (a : Acc) : Prop where
  pos : 1 ≤ k
  le : k ≤ M
  below : w (k - 1) < hi
  prev : ∃ pl, a.prev = some (pl, f pl) ∧ w (k - 1) ≤ pl ∧ pl ≤ hi ∧ (k < M → pl ≤ w k) ∧
    IntervalIntegrable f volume lo pl ∧ a.integral = ∫ x in lo..pl, f x

theorem interior_inv (hf : IsCurve w v M f) (hw : Ascending w M) {lo hi : ℝ} (k : ℕ) (a : Acc)
    (h : Inv w v M f lo hi k a) :
    ∃ k', Inv w v M f lo hi k' (interior w v M hi k a) ∧ (k' < M → hi ≤ w k') := by
  induction k, a using interior.induct (w := w) (v := v) (M := M) (hi := hi) with
  | case1 k a hk hw' ih =>
    rw [interior, dif_pos hk, if_pos hw']
    refine ih ?_
    obtain ⟨pl, e, h1, h2, h3, h4, h5⟩ := h.prev
    have hp := hf.piece hw h.pos h.le h1 (h3 hk) (fun _ => le_rfl)
    refine ⟨by omega, by omega, hw', w k, ?_, le_rfl, hw'.le, fun hk2 => (hw k hk2).le, h4.trans hp.1, ?_⟩
    · simp [Acc.knot, e, hf.sample hw hk]
    · simp only [Acc.knot, e]
      rw [h5, ← intervalIntegral.integral_add_adjacent_intervals h4 hp.1, hp.2, hf.sample hw hk]
  | case2 k a hk hw' =>
    rw [interior, dif_pos hk, if_neg hw']
    exact ⟨k, h, fun _ => not_lt.mp hw'⟩
  | case3 k a hk =>
    rw [interior, dif_neg hk]
    exact ⟨k, h, fun h' => absurd h' hk⟩

/-- The right edge closes the integral. -/
theorem finish (hf : IsCurve w v M f) (hw : Ascending w M) {lo hi : ℝ} {k : ℕ} {a : Acc} (h : Inv w v M f lo hi k a)
    (hk : k < M → hi ≤ w k) :
    (match a.prev with
      | some (pl, pv) => a.integral + 0.5 * (pv + (if lowerBound w hi 0 M < M then
          lerp w v (lowerBound w hi 0 M - 1) (lowerBound w hi 0 M) hi else v (M - 1))) * (hi - pl)
      | none => a.integral) = ∫ x in lo..hi, f x := by
  obtain ⟨s1, s2, s3⟩ := lowerBound_spec' hw hi
  have ek : lowerBound w hi 0 M = k := by
    have hk1 := h.pos
    have hk2 := h.le
    have hb := h.below
    apply le_antisymm
    · by_contra hc
      have := s2 k (by omega)
      have := hk (by omega)
      linarith
    · by_contra hc
      have := s3 (k - 1) (by omega) (by omega)
      linarith
  rw [ek]
  obtain ⟨pl, e, h1, h2, h3, h4, h5⟩ := h.prev
  have hp := hf.piece hw h.pos h.le h1 h2 hk
  have hr : (if k < M then lerp w v (k - 1) k hi else v (M - 1)) = f hi := by
    split_ifs with hkM
    · exact hf.lerp_eq h.pos hkM h.below.le (hk hkM)
    · have : M = k := by have := h.le; omega
      rw [hf.after hi (by rw [this]; exact h.below.le)]
  rw [e, hr]
  simp only
  rw [h5, ← intervalIntegral.integral_add_adjacent_intervals h4 hp.1, hp.2]

/-- **C91.**  For every strictly ascending sampling and every bin that starts no later than the last sample, the value put into
the bin is exactly the mean of the curve over the bin; a bin beyond the last sample gets zero. -/
theorem C91_mean (hf : IsCurve w v M f) (hw : Ascending w M) (hM : 0 < M) (lo hi : ℝ) (hlh : lo < hi) :
    (lo ≤ w (M - 1) → meanOver w v M lo hi = (∫ x in lo..hi, f x) / (hi - lo)) ∧
    (w (M - 1) < lo → meanOver w v M lo hi = 0) := by
  obtain ⟨s1, s2, s3⟩ := lowerBound_spec' hw lo
  have hne : hi - lo ≠ 0 := by linarith
  constructor
  · intro hl
    have hL : lowerBound w lo 0 M < M := by
      by_contra hc
      have := s2 (M - 1) (by omega)
      linarith
    unfold meanOver
    simp only []
    rw [if_neg (by omega)]
    set L := lowerBound w lo 0 M with hLd
    have hlo := s3 L le_rfl hL
    by_cases h1 : w L ≥ hi ∧ L = 0
    · rw [if_pos h1]
      have hz : ∫ x in lo..hi, f x = 0 := by
        have e : ∀ x ∈ Set.Ioo lo hi, f x = (fun _ => (0 : ℝ)) x := fun x hx =>
          hf.before x (hx.2.trans_le (by rw [← h1.2]; exact h1.1))
        rw [intervalIntegral.integral_congr_Ioo_of_le hlh.le e]; simp
      rw [hz, zero_div]
    rw [if_neg h1]
    by_cases h2 : L > 0 ∧ w L ≥ hi
    · rw [if_pos h2]
      have hb := s2 (L - 1) (by omega)
      have hp := hf.piece hw (k := L) (by omega) (by omega) hb.le hlh.le (fun _ => h2.2)
      rw [hf.lerp_eq (by omega) hL hb.le hlo, hf.lerp_eq (by omega) hL (hb.le.trans hlh.le) h2.2, hp.2]
      field_simp
    rw [if_neg h2]
    have hLhi : w L < hi := by
      by_contra hc
      rcases Nat.eq_zero_or_pos L with h0 | h0
      · exact h1 ⟨not_lt.mp hc, h0⟩
      · exact h2 ⟨h0, not_lt.mp hc⟩
    congr 1
    by_cases h3 : L > 0 ∧ w L > lo
    · rw [if_pos h3]
      have hb := s2 (L - 1) (by omega)
      obtain ⟨k', hi', hk'⟩ := interior_inv hf hw (lo := lo) (hi := hi) L
        ⟨0, some (lo, lerp w v (L - 1) L lo)⟩
        ⟨by omega, by omega, hb.trans hlh, lo, by rw [hf.lerp_eq (by omega) hL hb.le hlo], hb.le, hlh.le,
          fun _ => hlo, by simp, by simp⟩
      exact finish hf hw hi' hk'
    · rw [if_neg h3]
      rw [interior, dif_pos hL, if_pos hLhi]
      have hstart : IntervalIntegrable f volume lo (w L) ∧ ∫ x in lo..(w L), f x = 0 := by
        rcases Nat.eq_zero_or_pos L with h0 | h0
        · rw [h0] at hlo ⊢; exact hf.integral_before hlo
        · have : w L = lo := le_antisymm (not_lt.mp fun hc => h3 ⟨h0, hc⟩) hlo
          rw [this]; simp
      obtain ⟨k', hi', hk'⟩ := interior_inv hf hw (lo := lo) (hi := hi) (L + 1)
        (Acc.knot ⟨0, none⟩ (w L) (v L))
        ⟨by omega, by omega, hLhi, w L, by simp [Acc.knot, hf.sample hw hL], le_rfl, hLhi.le,
          fun h' => (hw L h').le, hstart.1, by simp [Acc.knot, hstart.2]⟩
      exact finish hf hw hi' hk'
  · intro hl
    have hL : lowerBound w lo 0 M = M := by
      by_contra hc
      have := s3 (M - 1) (by omega) (by omega)
      linarith
    unfold meanOver
    simp only []
    rw [if_pos hL]

end

/-- Such a curve exists for every sampling. -/
theorem exists_curve {w v : ℕ → ℝ} {M : ℕ} (hM : 0 < M) (hw : Ascending w M) : ∃ f, IsCurve w v M f := by
  classical
  refine ⟨fun x => if x < w 0 then 0 else if h : ∃ k, k + 1 < M ∧ w k ≤ x ∧ x ≤ w (k + 1) then
    v h.choose + (v (h.choose + 1) - v h.choose) * ((x - w h.choose) / (w (h.choose + 1) - w h.choose))
    else v (M - 1), ?_, ?_, ?_⟩
  · intro x hx; simp [hx]
  · intro k hk x h1 h2
    have hx : ¬ x < w 0 := not_lt.mpr ((hw.le (Nat.zero_le k) (by omega)).trans h1)
    have hex : ∃ k, k + 1 < M ∧ w k ≤ x ∧ x ≤ w (k + 1) := ⟨k, hk, h1, h2⟩
    rw [if_neg hx, dif_pos hex]
    obtain ⟨c1, c2, c3⟩ := hex.choose_spec
    set c := hex.choose
    have hkl := hw k hk
    have hcl := hw c c1
    rcases lt_trichotomy c k with h | h | h
    · have := hw.le (i := c + 1) (j := k) (by omega) (by omega)
      have ex : x = w k := le_antisymm (c3.trans this) h1
      have ex2 : w (c + 1) = w k := le_antisymm this (by rw [← ex]; exact c3)
      have eck : c + 1 = k := by
        by_contra hne
        have := hw.lt (i := c + 1) (j := k) (by omega) (by omega)
        linarith
      subst eck
      rw [ex, div_self (by linarith), sub_self, zero_div]; ring
    · rw [h]
    · have := hw.le (i := k + 1) (j := c) (by omega) (by omega)
      have ex : x = w (k + 1) := le_antisymm h2 (this.trans c2)
      have ex2 : w c = w (k + 1) := le_antisymm (by rw [← ex]; exact c2) this
      have eck : c = k + 1 := by
        by_contra hne
        have := hw.lt (i := k + 1) (j := c) (by omega) (by omega)
        linarith
      rw [eck] at hcl ⊢
      rw [ex, div_self (by linarith), sub_self, zero_div]; ring
  · intro x hx
    have h0 : ¬ x < w 0 := not_lt.mpr ((hw.le (Nat.zero_le _) (by omega)).trans hx)
    rw [if_neg h0]
    split_ifs with hex
    · obtain ⟨c1, c2, c3⟩ := hex.choose_spec
      set c := hex.choose
      have hcl := hw c c1
      have e : c + 1 = M - 1 := by
        by_contra hne
        have := hw.lt (i := c + 1) (j := M - 1) (by omega) (by omega)
        linarith
      have ex : x = w (c + 1) := le_antisymm c3 (by rw [e]; exact hx)
      rw [ex, div_self (by linarith), e]; ring
    · rfl

/-- **C91.**  `integrate_over_data` throws exactly on lists of different length, empty lists or wavelengths that do not ascend
strictly; otherwise every bin that starts within or before the data holds the mean over the bin (edges in nanometres) of the
curve through the samples, and every later bin holds zero. -/
theorem C91_integrate {n : ℕ} (bins : Fin n → Bin) (hb : ∀ i, (bins i).min < (bins i).max) (ws vs : List ℝ) :
    (integrateData bins ws vs = none ↔ ws.length ≠ vs.length ∨ ws = [] ∨ ¬ ws.IsChain (· < ·)) ∧
    ∀ r, integrateData bins ws vs = some r → ∀ f, IsCurve (fun k => ws.getD k 0) (fun k => vs.getD k 0) ws.length f → ∀ i,
      ((bins i).min * 1e9 ≤ ws.getD (ws.length - 1) 0 →
        r i = (∫ x in ((bins i).min * 1e9)..((bins i).max * 1e9), f x) / ((bins i).max * 1e9 - (bins i).min * 1e9)) ∧
      (ws.getD (ws.length - 1) 0 < (bins i).min * 1e9 → r i = 0) := by
  have hchain : (∃ k, 1 ≤ k ∧ k < ws.length ∧ ws.getD k 0 ≤ ws.getD (k - 1) 0) ↔ ¬ ws.IsChain (· < ·) := by
    rw [List.isChain_iff_getElem]
    push Not
    constructor
    · rintro ⟨k, h1, h2, h3⟩
      refine ⟨k - 1, by omega, ?_⟩
      rw [getD_eq _ h2, getD_eq _ (by omega)] at h3
      have e : k - 1 + 1 = k := by omega
      simpa only [e] using h3
    · rintro ⟨i, hi, h⟩
      refine ⟨i + 1, by omega, by omega, ?_⟩
      rw [getD_eq _ (by omega), getD_eq _ (by omega)]
      simpa using h
  constructor
  · unfold integrateData
    rw [← hchain]
    split_ifs with h1 h2 h3 <;> simp_all
  · intro r hr f hf i
    unfold integrateData at hr
    split_ifs at hr with h1 h2 h3
    have hM : 0 < ws.length := List.length_pos_iff.mpr h2
    have hw : Ascending (fun k => ws.getD k 0) ws.length := by
      intro k hk
      by_contra hc
      exact h3 ⟨k + 1, by omega, hk, by simpa using not_lt.mp hc⟩
    simp only [Option.some.injEq] at hr
    subst hr
    have := hb i
    exact C91_mean hf hw hM _ _ (by nlinarith)

/-- The asymmetry: the constant curve 1 sampled at 400 and 500 nm counts half in a bin 350-450 but fully in 450-550. -/
theorem C91_asymmetry : meanOver (fun k => 400 + 100 * (k : ℝ)) (fun _ => 1) 2 350 450 = 0.5 ∧
    meanOver (fun k => 400 + 100 * (k : ℝ)) (fun _ => 1) 2 450 550 = 1 := by
  have lb : ∀ t : ℝ, lowerBound (fun k : ℕ => 400 + 100 * (k : ℝ)) t 0 2 =
      if (500 : ℝ) < t then 2 else if 400 < t then 1 else 0 := by
    intro t
    rw [lowerBound, dif_pos (by norm_num)]
    norm_num
    split_ifs with h1 h2 h2
    · rw [lowerBound, dif_neg (by norm_num)]
    · rw [lowerBound, dif_pos (by norm_num), if_pos (by norm_num; linarith), lowerBound, dif_neg (by norm_num)]
    · rw [lowerBound, dif_pos (by norm_num), if_neg (by norm_num; linarith), lowerBound, dif_neg (by norm_num)]
  constructor
  · simp only [meanOver, lb]
    rw [interior, interior]
    simp [Acc.knot, lerp]
    norm_num
  · simp only [meanOver, lb]
    rw [interior, interior]
    simp [Acc.knot, lerp]
    norm_num

example : Ascending (fun k => 400 + 100 * (k : ℝ)) 2 := by
  intro k hk; push_cast; linarith

end Huira.Spectral
