import Verif.Photometry.Model
import Mathlib.Tactic

/-!
# Black bodies, magnitudes, star photometry (C97)
-/

set_option linter.unusedSimpArgs false
set_option linter.unusedVariables false

namespace Huira.Phot

noncomputable section
open Real

theorem consts_pos : 0 < hPlanck ∧ 0 < cLight ∧ 0 < kBoltz ∧ 0 < au := by
  refine ⟨?_, ?_, ?_, ?_⟩ <;> norm_num [hPlanck, cLight, kBoltz, au]

theorem photonEnergy_pos {l : ℝ} (h : 0 < l) : 0 < photonEnergy l := by
  obtain ⟨h1, h2, h3, _⟩ := consts_pos
  unfold photonEnergy; positivity

theorem planck_pos {t l : ℝ} (ht : 0 < t) (hl : 0 < l) : 0 < planck t l := by
  obtain ⟨h1, h2, h3, _⟩ := consts_pos
  unfold planck
  have : 1 < exp (((hPlanck * cLight) / kBoltz) / (l * t)) := by
    rw [one_lt_exp_iff]; positivity
  have : 0 < exp (((hPlanck * cLight) / kBoltz) / (l * t)) - 1 := by linarith
  positivity

theorem planck_mono {t t' l : ℝ} (ht : 0 < t) (htt : t < t') (hl : 0 < l) : planck t l < planck t' l := by
  obtain ⟨h1, h2, h3, _⟩ := consts_pos
  unfold planck
  have ht' : 0 < t' := ht.trans htt
  have e1 : 1 < exp (((hPlanck * cLight) / kBoltz) / (l * t')) := by rw [one_lt_exp_iff]; positivity
  have e2 : exp (((hPlanck * cLight) / kBoltz) / (l * t')) < exp (((hPlanck * cLight) / kBoltz) / (l * t)) := by
    rw [exp_lt_exp]
    apply div_lt_div_of_pos_left (by positivity) (by positivity)
    exact mul_lt_mul_of_pos_left htt hl
  apply div_lt_div_of_pos_left (by positivity) (by linarith)
  linarith

/-! ## Trapezoids -/

/-- Strictly increasing abscissae. -/
abbrev Increasing (xs : List ℝ) : Prop := xs.Pairwise (· < ·)

theorem integrate_pos : ∀ (xs : List ℝ) (f : ℝ → ℝ), 2 ≤ xs.length → Increasing xs → (∀ x ∈ xs, 0 < f x) →
    0 < integrate xs (xs.map f)
  | [], _, h, _, _ => by simp at h
  | [_], _, h, _, _ => by simp at h
  | [a, b], f, _, hp, hf => by
    have : a < b := by simpa using hp
    have h1 := hf a (by simp)
    have h2 := hf b (by simp)
    simp only [List.map, integrate, add_zero]
    have : 0 < b - a := by linarith
    positivity
  | a :: b :: c :: xs, f, _, hp, hf => by
    have hp' := List.pairwise_cons.1 hp
    have hab : a < b := hp'.1 b (by simp)
    have ih := integrate_pos (b :: c :: xs) f (by simp) hp'.2 (fun x hx => hf x (List.mem_cons_of_mem _ hx))
    have h1 := hf a (by simp)
    have h2 := hf b (by simp)
    simp only [List.map_cons, integrate] at ih ⊢
    have : 0 < b - a := by linarith
    have : 0 < 1 / 2 * (f a + f b) * (b - a) := by positivity
    linarith

theorem integrate_add : ∀ (xs : List ℝ) (f g : ℝ → ℝ) (k : ℝ),
    integrate xs (xs.map fun x => f x + k * g x) = integrate xs (xs.map f) + k * integrate xs (xs.map g)
  | [], _, _, _ => by simp [integrate]
  | [_], _, _, _ => by simp [integrate]
  | a :: b :: xs, f, g, k => by
    have ih := integrate_add (b :: xs) f g k
    simp only [List.map_cons, integrate] at ih ⊢
    rw [ih]; ring

theorem integrate_lt {xs : List ℝ} {f g : ℝ → ℝ} (h : 2 ≤ xs.length) (hp : Increasing xs) (hfg : ∀ x ∈ xs, f x < g x) :
    integrate xs (xs.map f) < integrate xs (xs.map g) := by
  have h1 := integrate_pos xs (fun x => g x + (-1) * f x) h hp (fun x hx => by linarith [hfg x hx])
  rw [integrate_add] at h1
  linarith

/-- **C97.**  The trapezoid rule is exact for straight lines over any increasing or not sampling. -/
theorem C97_trapezoid : ∀ (x0 : ℝ) (xs : List ℝ) (a b : ℝ),
    integrate (x0 :: xs) ((x0 :: xs).map fun x => a * x + b) =
      a * (((x0 :: xs).getLast (by simp)) ^ 2 - x0 ^ 2) / 2 + b * ((x0 :: xs).getLast (by simp) - x0)
  | x0, [], a, b => by simp [integrate]
  | x0, x1 :: xs, a, b => by
    have ih := C97_trapezoid x1 xs a b
    rw [List.getLast_cons (by simp)]
    simp only [List.map_cons, integrate] at ih ⊢
    rw [ih]; ring

/-! ## Sampling -/

theorem linspace_length (lo hi : ℝ) (N : ℕ) : (linspace lo hi N).length = N := by simp [linspace]

theorem linspace_increasing {lo hi : ℝ} (h : lo < hi) (N : ℕ) : Increasing (linspace lo hi N) := by
  unfold linspace Increasing
  rw [List.pairwise_map]
  have := List.pairwise_lt_range (n := N)
  refine List.Pairwise.imp_of_mem ?_ this
  intro i j hi' hj hij
  have hN : (1 : ℝ) < N := by
    have : j < N := List.mem_range.1 hj
    have : 1 < N := by omega
    exact_mod_cast this
  have : 0 < (hi - lo) / ((N : ℝ) - 1) := div_pos (by linarith) (by linarith)
  have h2 : (i : ℝ) < j := by exact_mod_cast hij
  nlinarith

theorem linspace_ge {lo hi : ℝ} (h : lo ≤ hi) (N : ℕ) : ∀ x ∈ linspace lo hi N, lo ≤ x ∧ x ≤ hi := by
  intro x hx
  obtain ⟨i, hi', rfl⟩ := List.mem_map.1 hx
  have hiN : i < N := List.mem_range.1 hi'
  have h0 : (i : ℝ) ≤ (N : ℝ) - 1 := by
    have : i + 1 ≤ N := hiN
    have : ((i : ℝ) + 1) ≤ N := by exact_mod_cast this
    linarith
  have hi0 : (0 : ℝ) ≤ i := Nat.cast_nonneg _
  rcases eq_or_lt_of_le (show (0 : ℝ) ≤ (N : ℝ) - 1 by linarith) with h1 | h1
  · rw [← h1]; simp [h]
  · have hs : 0 ≤ (hi - lo) / ((N : ℝ) - 1) := div_nonneg (by linarith) h1.le
    refine ⟨by nlinarith, ?_⟩
    have : (i : ℝ) * ((hi - lo) / ((N : ℝ) - 1)) ≤ ((N : ℝ) - 1) * ((hi - lo) / ((N : ℝ) - 1)) := by gcongr
    rw [mul_div_cancel₀ _ h1.ne'] at this
    linarith

/-- **C97.**  Wavelengths are sampled from one end of the band to the other, evenly. -/
theorem C97_linspace (lo hi : ℝ) (N : ℕ) (hN : 2 ≤ N) :
    (linspace lo hi N).length = N ∧ (linspace lo hi N)[0]? = some lo ∧ (linspace lo hi N)[N - 1]? = some hi ∧
    ∀ i, i + 1 < N → ∃ a b, (linspace lo hi N)[i]? = some a ∧ (linspace lo hi N)[i + 1]? = some b ∧
      b - a = (hi - lo) / (N - 1) := by
  have h1 : (0 : ℝ) < (N : ℝ) - 1 := by
    have : (2 : ℝ) ≤ N := by exact_mod_cast hN
    linarith
  have hg : ∀ i, i < N → (linspace lo hi N)[i]? = some (lo + (i : ℝ) * ((hi - lo) / ((N : ℝ) - 1))) := by
    intro i hi'
    simp [linspace, List.getElem?_map, List.getElem?_range hi']
  refine ⟨linspace_length _ _ _, ?_, ?_, fun i hi' => ⟨_, _, hg i (by omega), hg (i + 1) hi', ?_⟩⟩
  · rw [hg 0 (by omega)]; simp
  · rw [hg (N - 1) (by omega), Nat.cast_sub (by omega)]
    congr 1
    push_cast
    field_simp
    ring
  · push_cast; ring

/-- **C97.**  The radiance of a black body is positive in every bin and grows with the temperature. -/
theorem C97_black_body {n : ℕ} (bins : Fin n → ℝ × ℝ) (hb : ∀ i, 0 < (bins i).1 ∧ (bins i).1 < (bins i).2) (t t' : ℝ)
    (ht : 0 < t) (htt : t < t') (steps : ℕ) (hs : 2 ≤ steps) (i : Fin n) :
    0 < blackBody bins t steps i ∧ blackBody bins t steps i < blackBody bins t' steps i := by
  obtain ⟨h1, h2⟩ := hb i
  have hm : ∀ x ∈ linspace (bins i).1 (bins i).2 steps, 0 < x := fun x hx => h1.trans_le (linspace_ge h2.le steps x hx).1
  have hl : 2 ≤ (linspace (bins i).1 (bins i).2 steps).length := by rw [linspace_length]; exact hs
  have hi := linspace_increasing h2 steps
  exact ⟨integrate_pos _ _ hl hi fun x hx => planck_pos ht (hm x hx),
    integrate_lt hl hi fun x hx => planck_mono ht htt (hm x hx)⟩

/-! ## Magnitudes -/

theorem vBand_pos (m : ℝ) : 0 < vBandIrradiance m := by unfold vBandIrradiance; positivity

theorem vBand_shift (m d : ℝ) : vBandIrradiance (m + d) = vBandIrradiance m * (10 : ℝ) ^ (-0.4 * d) := by
  unfold vBandIrradiance
  rw [mul_add, rpow_add (by norm_num)]; ring

theorem pow_five : (10 : ℝ) ^ (-0.4 * 5 : ℝ) = 1 / 100 := by
  rw [show (-0.4 * 5 : ℝ) = ((-2 : ℤ) : ℝ) by norm_num, rpow_intCast]; norm_num

/-- The magnitude scale: a function `f` of the magnitude is a brightness when five magnitudes are a factor of a hundred, a
smaller magnitude is brighter, and equal steps are equal ratios. -/
structure MagnitudeScale (f : ℝ → ℝ) : Prop where
  pos : ∀ m, 0 < f m
  five : ∀ m, f (m + 5) = f m / 100
  strict : ∀ m m', m < m' → f m' < f m
  ratio : ∀ m m' d, f (m + d) / f m = f (m' + d) / f m'

theorem scale_of {f : ℝ → ℝ} {k : ℝ} (hk : 0 < k) (hf : ∀ m, f m = k * vBandIrradiance m) : MagnitudeScale f where
  pos m := by rw [hf]; exact mul_pos hk (vBand_pos m)
  five m := by rw [hf, hf, vBand_shift, pow_five]; ring
  strict m m' h := by
    rw [hf, hf]
    apply mul_lt_mul_of_pos_left _ hk
    unfold vBandIrradiance
    have : (10 : ℝ) ^ (-0.4 * m') < (10 : ℝ) ^ (-0.4 * m) := rpow_lt_rpow_of_exponent_lt (by norm_num) (by linarith)
    linarith
  ratio m m' d := by
    rw [hf, hf, hf, hf, vBand_shift, vBand_shift]
    have := vBand_pos m
    have := vBand_pos m'
    field_simp

/-- Wavelength bins of positive wavelengths. -/
def GoodBins {n : ℕ} (bins : Fin n → ℝ × ℝ) : Prop := ∀ i, 0 < (bins i).1 ∧ (bins i).1 < (bins i).2

theorem vlam_eq (N : ℕ) : vbandLambda N = linspace 350e-9 850e-9 N := rfl

theorem vlam_pos {N : ℕ} {x : ℝ} (h : x ∈ vbandLambda N) : 0 < x := by
  rw [vlam_eq] at h
  have := (linspace_ge (by norm_num) N x h).1
  have h0 : (0 : ℝ) < 350e-9 := by norm_num
  linarith

theorem response_pos (l : ℝ) : 0 < vbandResponse l := exp_pos _

theorem mag_form {n : ℕ} (bins : Fin (n + 1) → ℝ × ℝ) (hb : GoodBins bins) (albedo : Fin (n + 1) → ℝ) (i : Fin (n + 1)) :
    ∃ k > 0, ∀ m, magToIrradiance bins m albedo i = albedo i * (k * vBandIrradiance m) := by
  have ht : ∀ j, 0 < blackBody bins 5778 100 j := fun j =>
    (C97_black_body bins hb 5778 5779 (by norm_num) (by norm_num) 100 (by norm_num) j).1
  have hsum : 0 < ∑ j, blackBody bins 5778 100 j := Finset.sum_pos (fun j _ => ht j) Finset.univ_nonempty
  have hv : 0 < integrate (vbandLambda 500) ((vbandLambda 500).map fun l => planck 5778 l * vbandResponse l) := by
    apply integrate_pos
    · rw [vlam_eq, linspace_length]; norm_num
    · rw [vlam_eq]; exact linspace_increasing (by norm_num) _
    · intro x hx; exact mul_pos (planck_pos (by norm_num) (vlam_pos hx)) (response_pos _)
  have hlo : 0 < (bandOf bins).1 := by
    unfold bandOf
    rw [Finset.lt_inf'_iff]
    intro j _; exact (hb j).1
  have hlh : (bandOf bins).1 < (bandOf bins).2 := by
    have h1 : (bandOf bins).1 ≤ (bins 0).1 := Finset.inf'_le _ (Finset.mem_univ 0)
    have h2 : (bins 0).2 ≤ (bandOf bins).2 := Finset.le_sup' (fun i => (bins i).2) (Finset.mem_univ 0)
    linarith [(hb 0).2]
  have hfull : 0 < integrate (linspace (bandOf bins).1 (bandOf bins).2 500)
      ((linspace (bandOf bins).1 (bandOf bins).2 500).map (planck 5778)) := by
    apply integrate_pos
    · rw [linspace_length]; norm_num
    · exact linspace_increasing hlh _
    · intro x hx
      exact planck_pos (by norm_num) (hlo.trans_le (linspace_ge hlh.le _ x hx).1)
  have he : 0 < photonEnergy (((bins i).1 + (bins i).2) / 2) := photonEnergy_pos (by linarith [(hb i).1, (hb i).2])
  refine ⟨blackBody bins 5778 100 i * (integrate (linspace (bandOf bins).1 (bandOf bins).2 500)
      ((linspace (bandOf bins).1 (bandOf bins).2 500).map (planck 5778)) /
      integrate (vbandLambda 500) ((vbandLambda 500).map fun l => planck 5778 l * vbandResponse l) /
      ∑ j, blackBody bins 5778 100 j) * photonEnergy (((bins i).1 + (bins i).2) / 2), ?_, fun m => ?_⟩
  · exact mul_pos (mul_pos (ht i) (div_pos (div_pos hfull hv) hsum)) he
  · unfold magToIrradiance
    generalize blackBody bins 5778 100 = T
    generalize integrate _ _ = A
    generalize integrate _ _ = B
    ring

/-- **C97.**  The V-band flux and the irradiance of an object given by its magnitude follow the magnitude scale in every channel, and
the irradiance is proportional to the albedo. -/
theorem C97_magnitude {n : ℕ} (bins : Fin (n + 1) → ℝ × ℝ) (hb : GoodBins bins) (albedo : Fin (n + 1) → ℝ) :
    MagnitudeScale vBandIrradiance ∧ vBandIrradiance 0 = 8.75e9 ∧
    (∀ i, 0 < albedo i → MagnitudeScale fun m => magToIrradiance bins m albedo i) ∧
    (∀ i m, albedo i = 0 → magToIrradiance bins m albedo i = 0) ∧
    (∀ i m s, magToIrradiance bins m (fun j => s * albedo j) i = s * magToIrradiance bins m albedo i) := by
  refine ⟨scale_of (k := 1) one_pos fun m => (one_mul _).symm, by simp [vBandIrradiance], fun i hi => ?_, fun i m h => ?_, fun i m s => ?_⟩
  · obtain ⟨k, hk, h⟩ := mag_form bins hb albedo i
    exact scale_of (k := albedo i * k) (mul_pos hi hk) fun m => by rw [h]; ring
  · obtain ⟨k, hk, h'⟩ := mag_form bins hb albedo i
    rw [h', h, zero_mul]
  · unfold magToIrradiance; simp only; ring

/-! ## Stars -/

theorem photons_pos {t : ℝ} (ht : 0 < t) : 0 < vbandPhotons t := by
  unfold vbandPhotons
  apply integrate_pos
  · rw [vlam_eq, linspace_length]; norm_num
  · rw [vlam_eq]; exact linspace_increasing (by norm_num) _
  · intro x hx
    have := vlam_pos hx
    exact div_pos (mul_pos (response_pos _) (planck_pos ht this)) (photonEnergy_pos this)

/-- Stars with these colour indices have a positive temperature. -/
theorem temperature_pos {bv : ℝ} (h : -0.62 / 0.92 < bv) : 0 < temperature bv := by
  rw [div_lt_iff₀ (by norm_num)] at h
  unfold temperature
  have h1 : 0 < 0.92 * bv + 0.62 := by linarith
  have h2 : 0 < 0.92 * bv + 1.7 := by linarith
  positivity

theorem temperature_anti {a b : ℝ} (h : -0.62 / 0.92 < a) (hab : a < b) : temperature b < temperature a := by
  rw [div_lt_iff₀ (by norm_num)] at h
  unfold temperature
  have h1 : 1 / (0.92 * b + 0.62) < 1 / (0.92 * a + 0.62) := one_div_lt_one_div_of_lt (by linarith) (by linarith)
  have h2 : 1 / (0.92 * b + 1.7) < 1 / (0.92 * a + 1.7) := one_div_lt_one_div_of_lt (by linarith) (by linarith)
  linarith

/-- The flux of photons in the V band of a star that looks like a black body of temperature `t` filling the solid angle `w`
(specification: response, radiance and photon energy at 1000 wavelengths, by trapezoids). -/
def apparentPhotons (t w : ℝ) : ℝ :=
  integrate (vbandLambda 1000) ((vbandLambda 1000).map fun l => w * planck t l * vbandResponse l / photonEnergy l)

theorem apparentPhotons_eq (t w : ℝ) : apparentPhotons t w = w * vbandPhotons t := by
  unfold apparentPhotons vbandPhotons
  generalize vbandLambda 1000 = L
  have := integrate_add L (fun _ => (0 : ℝ)) (fun l => vbandResponse l * planck t l / photonEnergy l) w
  have h0 := integrate_add L (fun _ => (0 : ℝ)) (fun _ => (0 : ℝ)) 1
  simp only [zero_add, mul_zero, one_mul] at this h0
  have h00 : integrate L (L.map fun _ => (0 : ℝ)) = 0 := by linarith
  rw [h00, zero_add] at this
  rw [← this]
  congr 1
  apply List.map_congr_left
  intro l _
  ring

/-- **C97.**  A star with both magnitudes measured gets the visual magnitude `VT − 0.09 (BT − VT)`, a temperature that depends on
its colour only and decreases as it gets redder, and a solid angle such that the black body of that temperature sends exactly the
photon flux of that magnitude in the V band; a star with one magnitude gets that one. For all colours `BT − VT > −0.7928…`. -/
theorem C97_star_partial (b v : ℝ) (h : -0.62 / (0.92 * 0.85) < b - v) :
    (∃ t w, processMagnitude (some b) (some v) = some (v - 0.09 * (b - v), t, w) ∧ 0 < t ∧ 0 < w ∧
      apparentPhotons t w = 8.75e9 * (10 : ℝ) ^ (-0.4 * (v - 0.09 * (b - v))) ∧
      ∀ b' v', b - v < b' - v' → ∃ m' t' w', processMagnitude (some b') (some v') = some (m', t', w') ∧ t' < t) ∧
    (∃ t w, processMagnitude none (some v) = some (v, t, w) ∧ 0 < t ∧ 0 < w ∧
      apparentPhotons t w = 8.75e9 * (10 : ℝ) ^ (-0.4 * v)) ∧
    (∃ t w, processMagnitude (some b) none = some (b, t, w) ∧ 0 < t ∧ 0 < w ∧
      apparentPhotons t w = 8.75e9 * (10 : ℝ) ^ (-0.4 * b)) ∧
    processMagnitude none none = none := by
  have key : ∀ m bv, -0.62 / 0.92 < bv → 0 < temperature bv ∧ 0 < vBandIrradiance m / vbandPhotons (temperature bv) ∧
      apparentPhotons (temperature bv) (vBandIrradiance m / vbandPhotons (temperature bv)) = 8.75e9 * (10 : ℝ) ^ (-0.4 * m) := by
    intro m bv hb
    have ht := temperature_pos hb
    have hp := photons_pos ht
    refine ⟨ht, div_pos (vBand_pos m) hp, ?_⟩
    rw [apparentPhotons_eq, div_mul_cancel₀ _ hp.ne']; rfl
  have hc : -0.62 / 0.92 < 0.85 * (b - v) := by
    rw [div_lt_iff₀ (by norm_num)] at h ⊢; linarith
  obtain ⟨h1, h2, h3⟩ := key (v - 0.09 * (b - v)) _ hc
  obtain ⟨i1, i2, i3⟩ := key v 0.3 (by norm_num)
  obtain ⟨j1, j2, j3⟩ := key b 0.3 (by norm_num)
  refine ⟨⟨_, _, rfl, h1, h2, h3, fun b' v' hbv =>
    ⟨_, _, _, rfl, ?_⟩⟩, ⟨_, _, rfl, i1, i2, i3⟩, ⟨_, _, rfl, j1, j2, j3⟩, rfl⟩
  exact temperature_anti hc (by linarith)

/-- **C97.**  The rendered brightness of a star follows the magnitude scale in every channel: two stars of the same colour differ by
a factor of a hundred per five magnitudes. -/
theorem C97_star_brightness {n : ℕ} (bins : Fin n → ℝ × ℝ) (hb : GoodBins bins) (color : ℝ)
    (hc : -0.62 / (0.92 * 0.85) < color) (i : Fin n) :
    ∃ f : ℝ → ℝ, MagnitudeScale f ∧ ∀ v m t w, processMagnitude (some (v + color)) (some v) = some (m, t, w) →
      starIrradiance bins t w i = f v := by
  have hc' : -0.62 / 0.92 < 0.85 * color := by
    rw [div_lt_iff₀ (by norm_num)] at hc ⊢; linarith
  have ht := temperature_pos hc'
  have hp := photons_pos ht
  have hbb := (C97_black_body bins hb _ _ ht (lt_add_one _) 100 (by norm_num) i).1
  have hk : 0 < (10 : ℝ) ^ (-0.4 * (-(0.09 * color))) := by positivity
  refine ⟨fun v => (blackBody bins (temperature (0.85 * color)) 100 i / vbandPhotons (temperature (0.85 * color)) *
    (10 : ℝ) ^ (-0.4 * (-(0.09 * color)))) * vBandIrradiance v, scale_of (mul_pos (div_pos hbb hp) hk) fun _ => rfl, ?_⟩
  intro v m t w h
  simp only [processMagnitude, vmagColor, Option.map, Option.some.injEq, Prod.mk.injEq] at h
  obtain ⟨rfl, rfl, rfl⟩ := h
  rw [show v + color - v = color by ring]
  unfold starIrradiance
  rw [show v - 0.09 * color = v + -(0.09 * color) by ring, vBand_shift]
  ring

/-- **C97 in full**: every star with measured magnitudes has a positive temperature. -/
def C97_full : Prop := ∀ b v : ℝ, ∃ m t w, processMagnitude (some b) (some v) = some (m, t, w) ∧ 0 < t

/-- **C97, violated.**  A star whose two magnitudes differ by a whole magnitude towards the blue gets a negative temperature. -/
theorem C97_violated : ¬ C97_full := by
  intro h
  obtain ⟨m, t, w, h1, h2⟩ := h 9 10
  simp only [processMagnitude, vmagColor, Option.map, Option.some.injEq, Prod.mk.injEq] at h1
  obtain ⟨-, rfl, -⟩ := h1
  norm_num [temperature] at h2

/-- Non-vacuity: the sun's colour and bins of the visible band meet the hypotheses. -/
example : -0.62 / (0.92 * 0.85) < (0.76 : ℝ) ∧ GoodBins (fun i : Fin 3 => ![((400e-9 : ℝ), (500e-9 : ℝ)), (500e-9, 600e-9), (600e-9, 700e-9)] i) := by
  refine ⟨by norm_num, fun i => ?_⟩
  fin_cases i <;> norm_num

end
end Huira.Phot
