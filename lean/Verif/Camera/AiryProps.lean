import Mathlib.Analysis.Real.Pi.Bounds
import Verif.Camera.AiryEnergy

/-!
# C130: the point spread function of a circular aperture is its diffraction pattern
-/

set_option linter.unusedSimpArgs false

namespace Huira.Airy

open Real MeasureTheory

theorem bessel_small {x : ℝ} (h0 : 0 ≤ x) (h1 : x < 8) : besselJ1 x = x * (num1 (x ^ 2) / den1 (x ^ 2)) := by
  have : x < 8.0 := by norm_num; exact h1
  simp only [besselJ1, abs_of_nonneg h0, if_pos this]
  rw [← sq, mul_div_assoc]

theorem bessel_large {x : ℝ} (h : 8 ≤ x) : besselJ1 x = vT x / √x := by
  have h0 : 0 < x := by linarith
  have : ¬ x < 8.0 := by norm_num; exact h
  simp only [besselJ1, abs_of_pos h0, if_neg this]
  rw [Real.sqrt_div (by norm_num), vT, pA, pB]
  have e8 : (8.0 : ℝ) = 8 := by norm_num
  have e1 : 64 * (x⁻¹) ^ 2 = 8 / x * (8 / x) := by field_simp; norm_num
  have e2 : 8 * x⁻¹ = 8 / x := by field_simp
  rw [e8, e1, e2]
  generalize tailP (8 / x * (8 / x)) = a
  generalize tailQ (8 / x * (8 / x)) = b
  generalize cos (x - 2.356194491) = c
  generalize sin (x - 2.356194491) = d
  generalize √0.636619772 = k
  ring

/-- **C130**: `bessel_j1` is the Bessel function of order one to within `5e-8`, for every argument. -/
theorem C130_bessel {x : ℝ} (hx : 0 ≤ x) : |besselJ1 x - J1 x| ≤ 5 / 10 ^ 8 := by
  rcases lt_or_ge x 8 with h | h
  · rw [bessel_small hx h, J1, ← mul_sub, abs_mul, abs_of_nonneg hx]
    have := quotient_error (y := x ^ 2) (by positivity) (by nlinarith)
    calc _ ≤ 8 * (2 / 10 ^ 9) := mul_le_mul h.le this (abs_nonneg _) (by norm_num)
      _ ≤ _ := by norm_num
  · have h0 : 0 < x := by linarith
    have hs : 0 < √x := Real.sqrt_pos.2 h0
    have e : besselJ1 x - J1 x = -(uJ x - vT x) / √x := by
      rw [bessel_large h, uJ]; field_simp; ring
    rw [e, abs_div, abs_neg, abs_of_pos hs, div_le_iff₀ hs]
    have h8 : 2.8 ≤ √x := by
      refine Real.le_sqrt_of_sq_le ?_
      norm_num; linarith
    refine (tail_error h).trans ?_
    calc (1.4e-7 : ℝ) = 5 / 10 ^ 8 * 2.8 := by norm_num
      _ ≤ _ := by gcongr

example : |besselJ1 3 - J1 3| ≤ 5 / 10 ^ 8 ∧ |besselJ1 30 - J1 30| ≤ 5 / 10 ^ 8 :=
  ⟨C130_bessel (by norm_num), C130_bessel (by norm_num)⟩

/-- The amplitude is an average of cosines, so it never exceeds one. -/
theorem fraunhofer_le_one {D : ℝ} (hD : 0 < D) (f lam r : ℝ) : |fraunhofer D f lam r| ≤ 1 := by
  have hR : 0 < D / 2 := by positivity
  rw [fraunhofer, abs_div, abs_of_pos (show 0 < π * (D / 2) ^ 2 by positivity), div_le_one (by positivity)]
  set a := 2 * π / lam * (r / f)
  have inner : ∀ ρ : ℝ, 0 ≤ ρ → ‖∫ φ in (0 : ℝ)..(2 * π), cos (a * (ρ * sin φ)) * ρ‖ ≤ 2 * π * ρ := by
    intro ρ hρ
    have := intervalIntegral.norm_integral_le_of_norm_le_const (a := 0) (b := 2 * π) (C := ρ)
      (f := fun φ => cos (a * (ρ * sin φ)) * ρ) (fun φ _ => by
        rw [Real.norm_eq_abs, abs_mul, abs_of_nonneg hρ]
        calc _ ≤ 1 * ρ := by gcongr; exact abs_cos_le_one _
          _ = ρ := one_mul ρ)
    rw [sub_zero, abs_of_pos (by positivity)] at this
    linarith
  have h := intervalIntegral.norm_integral_le_of_norm_le (μ := volume) (a := 0) (b := D / 2) hR.le
    (f := fun ρ => ∫ φ in (0 : ℝ)..(2 * π), cos (a * (ρ * sin φ)) * ρ) (g := fun ρ => 2 * π * ρ)
    (Filter.Eventually.of_forall fun ρ hρ => inner ρ hρ.1.le) (Continuous.intervalIntegrable (by fun_prop) _ _)
  rw [Real.norm_eq_abs, intervalIntegral.integral_const_mul, integral_id] at h
  calc _ ≤ _ := h
    _ = _ := by ring

/-- Near the axis the amplitude is one. -/
theorem jq_near {y : ℝ} (h0 : 0 ≤ y) (h1 : y ≤ 1 / 10 ^ 8) : |2 * jq y - 1| ≤ 1 / (4 * 10 ^ 8) := by
  have h := (tail_le (f := fun k => jc k * y ^ k) 1 fun k hk => by
    rw [jc_succ k, abs_mul, abs_mul, abs_neg, abs_mul, abs_of_nonneg (pow_nonneg h0 _), abs_of_nonneg (pow_nonneg h0 _), pow_succ,
      abs_of_pos (show (0 : ℝ) < 4 * (k + 1) * (k + 2) by positivity)]
    have hk1 : (1 : ℝ) ≤ k := by exact_mod_cast hk
    have h3 : 0 ≤ |jc (k + 1)| * y ^ k := by positivity
    have h2 : y * 2 ≤ 4 * ((k : ℝ) + 1) * (k + 2) := by nlinarith
    nlinarith).2
  change |jq y - _| ≤ _ at h
  norm_num [jc, Nat.factorial, abs_mul, abs_of_nonneg h0] at h
  rw [abs_le] at h ⊢
  norm_num at h1 ⊢
  constructor <;> linarith [h.1, h.2]

/-- The physical distance of a pixel offset from the axis. -/
noncomputable def distance (px py x y : ℝ) : ℝ := √((x * px) ^ 2 + (y * py) ^ 2)

theorem evaluate_far {n : ℕ} {D f px py : ℝ} {wave : Fin n → ℝ} {x y : ℝ} {i : Fin n} (h : ¬ distance px py x y < 1e-20) :
    (makePsf D f px py).evaluate wave x y i =
      (2 * besselJ1 (π * distance px py x y / (wave i * (f / D))) / (π * distance px py x y / (wave i * (f / D)))) ^ 2 := by
  have e : √((x * px) * (x * px) + (y * py) * (y * py)) = distance px py x y := by rw [distance, sq, sq]
  simp only [makePsf, Disk.make, Disk.evaluate, e, if_neg h]
  norm_num
  ring

theorem evaluate_near {n : ℕ} {D f px py : ℝ} {wave : Fin n → ℝ} {x y : ℝ} {i : Fin n} (h : distance px py x y < 1e-20) :
    (makePsf D f px py).evaluate wave x y i = 1 := by
  have e : √((x * px) * (x * px) + (y * py) * (y * py)) = distance px py x y := by rw [distance, sq, sq]
  simp only [makePsf, Disk.make, Disk.evaluate, e, if_pos h]
  norm_num

theorem squares_close {a b e : ℝ} (hb : |b| ≤ 1) (h : |a - b| ≤ e) (he : e ≤ 1 / 10) : |a ^ 2 - b ^ 2| ≤ 21 / 10 * e := by
  have : a ^ 2 - b ^ 2 = (a - b) * ((a - b) + 2 * b) := by ring
  rw [this, abs_mul]
  have h2 : |(a - b) + 2 * b| ≤ 21 / 10 := by
    calc _ ≤ |a - b| + |2 * b| := abs_add_le _ _
      _ ≤ e + 2 * 1 := by
        have : |2 * b| = 2 * |b| := by rw [abs_mul, abs_of_pos (by norm_num : (0:ℝ) < 2)]
        linarith
      _ ≤ 21 / 10 := by linarith
  have h0 : 0 ≤ e := (abs_nonneg _).trans h
  calc _ ≤ e * (21 / 10) := mul_le_mul h h2 (abs_nonneg _) h0
    _ = _ := by ring

/-- **C130**: at every pixel offset, in every channel, the point spread function of a circular aperture of diameter `D`
with focal length `f` is the intensity of the light diffracted by the hole, to within `3e-8` of the peak (a quarter of
the spacing of single-precision numbers there), whatever the
pitch of the pixels, for all wavelengths and f-numbers whose product is at least `1e-15` metres. -/
theorem C130_airy {n : ℕ} {D f px py : ℝ} {wave : Fin n → ℝ} (hD : 0 < D) (hf : 0 < f)
    (hw : ∀ i, 1 / 10 ^ 15 ≤ wave i * (f / D)) (x y : ℝ) (i : Fin n) :
    |(makePsf D f px py).evaluate wave x y i - fraunhofer D f (wave i) (distance px py x y) ^ 2| ≤ 3 / 10 ^ 8 := by
  have hwi := hw i
  set q := wave i * (f / D) with hq
  have hq0 : 0 < q := lt_of_lt_of_le (by norm_num) hwi
  have hdist : 0 ≤ distance px py x y := Real.sqrt_nonneg _
  set r := distance px py x y with hr
  have harg : π * D * r / (wave i * f) = π * r / q := by
    have : wave i ≠ 0 := by
      rintro h0; rw [hq, h0] at hq0; simp at hq0
    rw [hq]; field_simp
  have hF : fraunhofer D f (wave i) r = 2 * jq ((π * r / q) ^ 2) := by rw [fraunhofer_eq hD.ne', harg]
  have h1 := fraunhofer_le_one hD f (wave i) r
  rw [hF] at h1 ⊢
  set t := π * r / q with ht
  have ht0 : 0 ≤ t := by positivity
  by_cases hn : r < 1e-20
  · rw [evaluate_near hn]
    have htt : t ≤ 1 / 10 ^ 4 := by
      rw [ht, div_le_iff₀ hq0]
      have hpi := Real.pi_le_four
      have : π * r ≤ 4 * 1e-20 := mul_le_mul (hpi) hn.le hdist (by norm_num)
      norm_num at this hwi ⊢
      linarith
    have hy : t ^ 2 ≤ 1 / 10 ^ 8 := by nlinarith
    have := jq_near (sq_nonneg t) hy
    have h3 := squares_close (a := 1) (e := 1 / (4 * 10 ^ 8)) h1 (by rw [abs_sub_comm]; exact this) (by norm_num)
    rw [one_pow] at h3
    exact h3.trans (by norm_num)
  · rw [evaluate_far hn]
    have hr0 : 0 < r := by
      push Not at hn
      exact lt_of_lt_of_le (by norm_num) hn
    have ht1 : 0 < t := by positivity
    have key : |2 * besselJ1 t / t - 2 * jq (t ^ 2)| ≤ 125 / 10 ^ 10 := by
      rcases lt_or_ge t 8 with h | h
      · have e : 2 * besselJ1 t / t - 2 * jq (t ^ 2) = 2 * (num1 (t ^ 2) / den1 (t ^ 2) - jq (t ^ 2)) := by
          rw [bessel_small ht0 h]; field_simp
        rw [e, abs_mul, abs_of_pos (by norm_num : (0:ℝ) < 2)]
        have := quotient_error (y := t ^ 2) (by positivity) (by nlinarith)
        norm_num at this ⊢
        linarith
      · have e : 2 * besselJ1 t / t - 2 * jq (t ^ 2) = 2 * (besselJ1 t - J1 t) / t := by
          rw [J1]; field_simp
        rw [e, abs_div, abs_of_pos ht1, abs_mul, abs_of_pos (by norm_num : (0:ℝ) < 2), div_le_iff₀ ht1]
        have := C130_bessel ht0
        norm_num at this ⊢
        linarith
    have h3 := squares_close h1 key (by norm_num)
    exact h3.trans (by norm_num)

/-- A camera with a lens of 50 mm at f/2, 5 µm pixels and green light meets the hypotheses. -/
example (x y : ℝ) : |(makePsf 0.025 0.05 5e-6 5e-6).evaluate (fun _ : Fin 1 => 550e-9) x y 0 -
    fraunhofer 0.025 0.05 550e-9 (distance 5e-6 5e-6 x y) ^ 2| ≤ 3 / 10 ^ 8 :=
  C130_airy (by norm_num) (by norm_num) (by intro i; norm_num) x y 0

/-- **C130**: the pattern is one on the axis and at most one (plus `3e-8`) everywhere, and never negative. -/
theorem C130_peak {n : ℕ} {D f px py : ℝ} {wave : Fin n → ℝ} (hD : 0 < D) (hf : 0 < f)
    (hw : ∀ i, 1 / 10 ^ 15 ≤ wave i * (f / D)) (x y : ℝ) (i : Fin n) :
    (makePsf D f px py).evaluate wave 0 0 i = 1 ∧ 0 ≤ (makePsf D f px py).evaluate wave x y i ∧
      (makePsf D f px py).evaluate wave x y i ≤ 1 + 3 / 10 ^ 8 := by
  refine ⟨evaluate_near (by norm_num [distance]), ?_, ?_⟩
  · by_cases h : distance px py x y < 1e-20
    · rw [evaluate_near h]; norm_num
    · rw [evaluate_far h]; positivity
  · have h1 := C130_airy (px := px) (py := py) hD hf hw x y i
    have h2 := fraunhofer_le_one hD f (wave i) (distance px py x y)
    have h3 : fraunhofer D f (wave i) (distance px py x y) ^ 2 ≤ 1 := by rw [← sq_abs]; exact pow_le_one₀ (abs_nonneg _) h2
    linarith [(abs_le.1 h1).2]

/-- **C130**: it depends only on the distance from the axis in the focal plane, measured with the pitch of each direction. -/
theorem C130_round {n : ℕ} {D f px py : ℝ} {wave : Fin n → ℝ} {x y x' y' : ℝ} (h : (x * px) ^ 2 + (y * py) ^ 2 = (x' * px) ^ 2 + (y' * py) ^ 2) :
    (makePsf D f px py).evaluate wave x y = (makePsf D f px py).evaluate wave x' y' := by
  have e : distance px py x y = distance px py x' y' := by rw [distance, distance, h]
  funext i
  by_cases hn : distance px py x y < 1e-20
  · rw [evaluate_near hn, evaluate_near (e ▸ hn)]
  · rw [evaluate_far hn, evaluate_far (e ▸ hn), e]

example (wave : Fin 3 → ℝ) : (makePsf 0.025 0.05 5e-6 10e-6).evaluate wave 2 0 = (makePsf 0.025 0.05 5e-6 10e-6).evaluate wave 0 (-1) :=
  C130_round (by norm_num)

theorem num1_pos {y : ℝ} (h1 : y ≤ 14.681) : 0 < num1 y := by
  obtain ⟨h, rfl⟩ : ∃ h, y = 14.681 - h := ⟨14.681 - y, by ring⟩
  have hh : 0 ≤ h := by linarith
  have e : num1 (14.681 - h) = num1 14.681 + (-num1 14.681 + num1 (14.681 - h)) := by ring
  have e2 : -num1 14.681 + num1 (14.681 - h) ≥ 0 := by
    have h2 : 0 ≤ h ^ 2 := by positivity
    have h3 : 0 ≤ h ^ 3 := by positivity
    have h4 : 0 ≤ h ^ 4 := by positivity
    have h5 : 0 ≤ h ^ 5 := by positivity
    simp only [num1]
    norm_num
    nlinarith
  have e3 : 0 < num1 14.681 := by norm_num [num1]
  linarith

theorem num1_neg : num1 14.682 < 0 := by norm_num [num1]

/-- **C130**: the first dark ring, which limits the resolution, lies at 1.22 times wavelength times f-number: the pattern is
positive inside 1.2196, and is zero at a distance between 1.2196 and 1.2198. -/
theorem C130_dark_ring {n : ℕ} {D f p : ℝ} {wave : Fin n → ℝ} (hD : 0 < D) (hf : 0 < f) (hp : 0 < p) {i : Fin n}
    (hw : 1 / 10 ^ 15 ≤ wave i * (f / D)) :
    (∀ x y, distance p p x y ≤ 1.2196 * (wave i * (f / D)) → 0 < (makePsf D f p p).evaluate wave x y i) ∧
      ∃ r, 1.2196 * (wave i * (f / D)) < r ∧ r < 1.2198 * (wave i * (f / D)) ∧
        ∀ x y, distance p p x y = r → (makePsf D f p p).evaluate wave x y i = 0 := by
  set q := wave i * (f / D) with hq
  have hq0 : 0 < q := lt_of_lt_of_le (by norm_num) hw
  have pi1 := Real.pi_lt_d6
  have pi2 := Real.pi_gt_d6
  constructor
  · intro x y h
    by_cases hn : distance p p x y < 1e-20
    · rw [evaluate_near hn]; norm_num
    rw [evaluate_far hn]
    have hr0 : 0 < distance p p x y := by
      push Not at hn
      exact lt_of_lt_of_le (by norm_num) hn
    set t := π * distance p p x y / (wave i * (f / D)) with ht
    have ht1 : 0 < t := by positivity
    have ht2 : t ≤ 3.83149 := by
      rw [ht, div_le_iff₀ hq0]
      calc π * distance p p x y ≤ 3.141593 * (1.2196 * q) := mul_le_mul pi1.le h hr0.le (by norm_num)
        _ ≤ _ := by norm_num; nlinarith
    have h8 : t < 8 := by norm_num at ht2; linarith
    have hy : t ^ 2 ≤ 14.681 := by norm_num at ht2 ⊢; nlinarith
    rw [bessel_small ht1.le h8]
    have hd : 0 < den1 (t ^ 2) := by linarith [den1_large (sq_nonneg t)]
    have := num1_pos hy
    positivity
  · have hc : ContinuousOn num1 (Set.Icc 14.681 14.682) := by
      have : Continuous num1 := by unfold num1; fun_prop
      exact this.continuousOn
    have hz : (0 : ℝ) ∈ Set.Icc (num1 14.682) (num1 14.681) := ⟨num1_neg.le, (num1_pos le_rfl).le⟩
    obtain ⟨y, ⟨hy1, hy2⟩, hy⟩ := intermediate_value_Icc' (by norm_num : (14.681 : ℝ) ≤ 14.682) hc hz
    have hy0 : 0 < y := by norm_num at hy1; linarith
    have hs : √y ^ 2 = y := Real.sq_sqrt hy0.le
    have hs1 : 3.8315 < √y := by
      refine Real.lt_sqrt_of_sq_lt ?_
      norm_num at hy1 ⊢; linarith
    have hs2 : √y < 3.8318 := by
      rw [Real.sqrt_lt' (by norm_num)]
      norm_num at hy2 ⊢; linarith
    refine ⟨√y * q / π, ?_, ?_, ?_⟩
    · rw [lt_div_iff₀ Real.pi_pos]
      have : 1.2196 * π < √y := by norm_num at pi1 hs1 ⊢; linarith
      nlinarith
    · rw [div_lt_iff₀ Real.pi_pos]
      have : √y < 1.2198 * π := by norm_num at pi2 hs2 ⊢; linarith
      nlinarith
    · intro x' y' hr
      have hs0 : 0 < √y := Real.sqrt_pos.2 hy0
      have hn : ¬ distance p p x' y' < 1e-20 := by
        rw [hr, not_lt, le_div_iff₀ Real.pi_pos]
        have a1 : (1e-20 : ℝ) * π ≤ 1e-19 := by norm_num at pi1 ⊢; linarith
        have a2 : (1e-19 : ℝ) ≤ √y * q := by
          calc (1e-19 : ℝ) ≤ 1 * (1 / 10 ^ 15) := by norm_num
            _ ≤ _ := mul_le_mul (by norm_num at hs1; linarith) hw (by norm_num) hs0.le
        linarith
      rw [evaluate_far hn, hr, ← hq]
      have e : π * (√y * q / π) / q = √y := by field_simp
      rw [e, bessel_small hs0.le (by norm_num at hs2; linarith), hs, hy]
      simp

example : ∃ r : ℝ, 1.2196 * ((550e-9 : ℝ) * (0.05 / 0.025)) < r ∧ r < 1.2198 * ((550e-9 : ℝ) * (0.05 / 0.025)) := by
  obtain ⟨r, h1, h2, _⟩ := (C130_dark_ring (n := 1) (D := 0.025) (f := 0.05) (p := 5e-6) (wave := fun _ => 550e-9) (i := 0)
    (by norm_num) (by norm_num) (by norm_num) (by norm_num)).2
  exact ⟨r, h1, h2⟩

end Huira.Airy
