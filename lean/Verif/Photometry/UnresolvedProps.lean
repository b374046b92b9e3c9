import Verif.Photometry.PhysicsProps
import Mathlib.Analysis.SpecialFunctions.Integrals.Basic
import Mathlib.Analysis.Calculus.MeanValue

/-!
# Brightness of unresolved objects (C96)

The observer is at the origin.  An emitter obeys the inverse square law; a Lambertian sphere is dimmest from behind and brightest at
full phase, but reflects only three eighths of the light it should; an asteroid follows the H–G phase law and the inverse squares,
but the two distances are multiplied by the astronomical unit instead of divided by it.
-/

set_option linter.unusedSimpArgs false
set_option linter.unusedVariables false

namespace Huira.Phot

noncomputable section
open Real

theorem len_nonneg (a : V3) : 0 ≤ V3.len a := Real.sqrt_nonneg _
theorem len_neg (a : V3) : V3.len (-a) = V3.len a := by unfold V3.len V3.dot; simp
theorem len_smul (s : ℝ) (a : V3) : V3.len (s * a) = |s| * V3.len a := by
  unfold V3.len
  rw [V3.dot_smul_left, V3.dot_smul_right, ← mul_assoc, Real.sqrt_mul (mul_self_nonneg s), Real.sqrt_mul_self_eq_abs]
theorem abs_dot_le (a b : V3) : |V3.dot a b| ≤ V3.len a * V3.len b := by
  apply abs_le_of_sq_le_sq _ (mul_nonneg (len_nonneg a) (len_nonneg b))
  have := V3.cauchy_schwarz a b
  have h1 := V3.len_sq a
  have h2 := V3.len_sq b
  calc V3.dot a b ^ 2 = V3.dot a b * V3.dot a b := sq _
    _ ≤ _ := this
    _ = (V3.len a * V3.len b) ^ 2 := by rw [← h1, ← h2]; ring

/-! ## Emitter -/

/-- **C96.**  The power of an emitter is what passes through any sphere about it: irradiance times the area of the sphere of that
radius; doubling the distance quarters the irradiance. -/
theorem C96_emitter (power : ℝ) (pos : V3) (h : V3.len pos ≠ 0) :
    emitterIrradiance power pos * (4 * π * V3.len pos ^ 2) = power ∧
    ∀ q : V3, V3.len q = 2 * V3.len pos → emitterIrradiance power q = emitterIrradiance power pos / 4 := by
  have hp := pi_pos.ne'
  refine ⟨?_, fun q hq => ?_⟩
  · unfold emitterIrradiance; field_simp
  · unfold emitterIrradiance; rw [hq]; field_simp; ring

/-! ## Sphere -/

theorem phase_deriv (a : ℝ) : HasDerivAt lambertPhase (-(π - a) * sin a / π) a := by
  unfold lambertPhase
  have h1 : HasDerivAt (fun x => (π - x) * cos x) ((-1) * cos a + (π - a) * (-sin a)) a :=
    ((hasDerivAt_id a).const_sub π).mul (hasDerivAt_cos a)
  have h2 := ((hasDerivAt_sin a).add h1).div_const π
  refine h2.congr_deriv ?_
  ring

theorem phase_cont : Continuous lambertPhase := by
  rw [continuous_iff_continuousAt]; exact fun a => (phase_deriv a).continuousAt

theorem phase_anti : StrictAntiOn lambertPhase (Set.Icc 0 π) := by
  apply strictAntiOn_of_deriv_neg (convex_Icc 0 π) phase_cont.continuousOn
  intro x hx
  rw [interior_Icc] at hx
  rw [(phase_deriv x).deriv]
  have hs := sin_pos_of_pos_of_lt_pi hx.1 hx.2
  have h1 : 0 < (π - x) * sin x := mul_pos (by linarith [hx.2]) hs
  have := div_pos h1 pi_pos
  have e : -(π - x) * sin x / π = -((π - x) * sin x / π) := by ring
  linarith

theorem phase_zero : lambertPhase 0 = 1 := by unfold lambertPhase; simp [pi_ne_zero]
theorem phase_pi : lambertPhase π = 0 := by unfold lambertPhase; simp

/-- An antiderivative of `sin · lambertPhase`. -/
def phaseInt (a : ℝ) : ℝ := (a / 2 - sin (2 * a) / 4 - (π - a) * cos (2 * a) / 4 - sin (2 * a) / 8) / π

theorem phaseInt_deriv (a : ℝ) : HasDerivAt phaseInt (sin a * lambertPhase a) a := by
  have hs : HasDerivAt (fun x => sin (2 * x)) (cos (2 * a) * 2) a := by
    have := ((hasDerivAt_id a).const_mul 2).sin
    simpa using this
  have hc : HasDerivAt (fun x => cos (2 * x)) (-sin (2 * a) * 2) a := by
    have := ((hasDerivAt_id a).const_mul 2).cos
    simpa using this
  have h1 : HasDerivAt (fun x => (π - x) * cos (2 * x)) ((-1) * cos (2 * a) + (π - a) * (-sin (2 * a) * 2)) a :=
    ((hasDerivAt_id a).const_sub π).mul hc
  have h2 := (((((hasDerivAt_id a).div_const 2).sub (hs.div_const 4)).sub (h1.div_const 4)).sub (hs.div_const 8)).div_const π
  refine h2.congr_deriv ?_
  unfold lambertPhase
  rw [cos_two_mul, sin_two_mul]
  have e : cos a ^ 2 = 1 - sin a ^ 2 := by rw [cos_sq']
  field_simp
  rw [e]; ring

theorem phase_integral : ∫ a in (0 : ℝ)..π, sin a * lambertPhase a = 3 / 4 := by
  rw [intervalIntegral.integral_eq_sub_of_hasDerivAt (fun a _ => phaseInt_deriv a)
    ((continuous_sin.mul phase_cont).intervalIntegrable _ _)]
  unfold phaseInt
  simp only [mul_zero, sin_zero, cos_zero, sin_two_pi, cos_two_pi, sub_self, zero_mul, zero_div]
  field_simp
  ring

/-- The light a sphere sends into all directions: its irradiance over the whole sphere of radius `distance` about it, in zones of
equal phase (specification). -/
def reflectedTotal (albedo radius incident distance : ℝ) : ℝ :=
  ∫ a in (0 : ℝ)..π, sphereAt albedo radius incident a distance * (2 * π * distance ^ 2 * sin a)

theorem reflectedTotal_eq (albedo radius incident : ℝ) {d : ℝ} (hd : d ≠ 0) :
    reflectedTotal albedo radius incident d = 3 / 8 * (albedo * (incident * (π * radius ^ 2))) := by
  unfold reflectedTotal sphereAt
  have : (fun a => albedo * (π * radius * radius) * incident * lambertPhase a / (4 * π * d * d) * (2 * π * d ^ 2 * sin a)) =
      fun a => (albedo * incident * π * radius ^ 2 / 2) * (sin a * lambertPhase a) := by
    funext a
    have := pi_pos.ne'
    field_simp
    ring
  rw [this, intervalIntegral.integral_const_mul, phase_integral]
  ring

/-- **C96, sphere.**  A sphere in sunlight is brightest at full phase and dark from behind, strictly dimmer at every larger phase
angle; its irradiance falls with the square of the distance and is proportional to its albedo, cross section and the incident
light. -/
theorem C96_sphere_partial (albedo radius incident d : ℝ) (ha : 0 < albedo) (hr : 0 < radius) (hi : 0 < incident) (hd : 0 < d) :
    StrictAntiOn (fun a => sphereAt albedo radius incident a d) (Set.Icc 0 π) ∧ sphereAt albedo radius incident π d = 0 ∧
    sphereAt albedo radius incident 0 d = albedo * incident * radius ^ 2 / (4 * d ^ 2) ∧
    (∀ a d', 0 < d' → sphereAt albedo radius incident a d' * d' ^ 2 = sphereAt albedo radius incident a d * d ^ 2) ∧
    (∀ a s, sphereAt (s * albedo) radius incident a d = s * sphereAt albedo radius incident a d ∧
      sphereAt albedo radius (s * incident) a d = s * sphereAt albedo radius incident a d ∧
      sphereAt albedo (s * radius) incident a d = s ^ 2 * sphereAt albedo radius incident a d) := by
  have hp := pi_pos
  refine ⟨?_, ?_, ?_, fun a d' hd' => ?_, fun a s => ⟨?_, ?_, ?_⟩⟩
  · intro x hx y hy hxy
    have := phase_anti hx hy hxy
    simp only [sphereAt]
    apply div_lt_div_of_pos_right _ (by positivity)
    exact mul_lt_mul_of_pos_left this (by positivity)
  · simp [sphereAt, phase_pi]
  · simp only [sphereAt, phase_zero]; field_simp
  · simp only [sphereAt]; field_simp
  all_goals (simp only [sphereAt]; ring)

/-- **C96, sphere in full**: a Lambertian sphere sends out the fraction `albedo` of the light it intercepts. -/
def C96_sphere_full : Prop := ∀ albedo radius incident d : ℝ, 0 ≤ albedo → albedo ≤ 1 → 0 < radius → 0 < incident → 0 < d →
  reflectedTotal albedo radius incident d = albedo * (incident * (π * radius ^ 2))

/-- **C96, sphere, violated.**  It sends out three eighths of that, for every albedo, size and distance. -/
theorem C96_sphere_violated : ¬ C96_sphere_full ∧ ∀ albedo radius incident d : ℝ, 0 < d →
    reflectedTotal albedo radius incident d = 3 / 8 * (albedo * (incident * (π * radius ^ 2))) := by
  refine ⟨fun h => ?_, fun a r i d hd => reflectedTotal_eq a r i hd.ne'⟩
  have h1 := h 1 1 1 1 (by norm_num) le_rfl one_pos one_pos one_pos
  rw [reflectedTotal_eq _ _ _ one_ne_zero] at h1
  have := pi_pos
  linarith

/-- **C96, sphere.**  With exact arithmetic the sphere is rendered with the phase angle between the directions to the light and to
the observer: 0 when the light is behind the observer, `π` when the sphere is between the light and the observer. -/
theorem C96_sphere_phase (albedo radius incident : ℝ) (pos light : V3) (h1 : V3.len pos ≠ 0) (h2 : V3.len (light - pos) ≠ 0) :
    ∃ a ∈ Set.Icc 0 π, sphereIrradiance id albedo radius incident pos light = some (sphereAt albedo radius incident a (V3.len pos)) ∧
      V3.dot (light - pos) (-pos) = V3.len (light - pos) * V3.len pos * cos a := by
  have e : V3.dot ((-1 / V3.len pos) * pos) (V3.normalize (light - pos)) =
      V3.dot (light - pos) (-pos) / (V3.len (light - pos) * V3.len pos) := by
    rw [V3.normalize_eq]
    simp only [V3.dot, V3.hmul_x, V3.hmul_y, V3.hmul_z, V3.neg_x, V3.neg_y, V3.neg_z]
    field_simp
  have hcs : |V3.dot (light - pos) (-pos)| ≤ V3.len (light - pos) * V3.len pos := by
    have := abs_dot_le (light - pos) (-pos)
    rwa [len_neg] at this
  have hpos : 0 < V3.len (light - pos) * V3.len pos :=
    mul_pos (lt_of_le_of_ne (len_nonneg _) (Ne.symm h2)) (lt_of_le_of_ne (len_nonneg _) (Ne.symm h1))
  have hb : |V3.dot (light - pos) (-pos) / (V3.len (light - pos) * V3.len pos)| ≤ 1 := by
    rw [abs_div, abs_of_pos hpos, div_le_one hpos]; exact hcs
  rw [abs_le] at hb
  refine ⟨arccos (V3.dot (light - pos) (-pos) / (V3.len (light - pos) * V3.len pos)), ⟨arccos_nonneg _, arccos_le_pi _⟩, ?_, ?_⟩
  · unfold sphereIrradiance
    simp only [id]
    rw [e, if_neg (by rw [not_or]; exact ⟨by linarith [hb.1], by linarith [hb.2]⟩)]
  · rw [cos_arccos hb.1 hb.2]; field_simp

/-- **C96, sphere.**  The cosine is not clamped: as soon as its rounding exceeds one, as it may with the light behind the observer,
an exception is thrown. -/
theorem C96_sphere_unclamped (fl : ℝ → ℝ) (albedo radius incident : ℝ) (pos light : V3) (h1 : V3.len pos ≠ 0)
    (hs : ∃ s : ℝ, 0 < s ∧ light = s * (-pos)) (hf : 1 < fl 1) : sphereIrradiance fl albedo radius incident pos light = none := by
  obtain ⟨s, hs, rfl⟩ := hs
  have hp : 0 < V3.len pos := lt_of_le_of_ne (len_nonneg _) (Ne.symm h1)
  have hd : V3.len (s * (-pos) - pos) = (s + 1) * V3.len pos := by
    have : s * (-pos) - pos = (-(s + 1)) * pos := by ext <;> simp <;> ring
    rw [this, len_smul, abs_of_neg (by linarith)]; ring
  have e : V3.dot ((-1 / V3.len pos) * pos) (V3.normalize (s * (-pos) - pos)) = 1 := by
    rw [V3.normalize_eq, hd]
    have hl : V3.len pos ^ 2 = pos.x * pos.x + pos.y * pos.y + pos.z * pos.z := by rw [sq]; exact V3.len_sq pos
    have hs1 : s + 1 ≠ 0 := by linarith
    simp only [V3.dot, V3.hmul_x, V3.hmul_y, V3.hmul_z, V3.neg_x, V3.neg_y, V3.neg_z, V3.sub_x, V3.sub_y, V3.sub_z]
    field_simp
    rw [hl]; ring
  unfold sphereIrradiance
  simp only
  rw [e, if_pos (Or.inr hf)]

/-! ## Asteroid -/

/-- The apparent magnitude in the H–G system, with distances in astronomical units (specification). -/
def hgMagnitude (H G alpha rAu dAu : ℝ) : ℝ :=
  H + 5 * logb 10 (rAu * dAu) -
    2.5 * logb 10 ((1 - G) * exp (-(3.33 * (tan (alpha / 2)) ^ (0.64 : ℝ))) + G * exp (-(1.87 * (tan (alpha / 2)) ^ (1.22 : ℝ))))

/-- **C96, asteroid in full**: the magnitude is that of the H–G system. -/
def C96_asteroid_full : Prop := ∀ H G alpha r d : ℝ, 0 ≤ G → G ≤ 1 → 0 ≤ alpha → alpha < π → 0 < r → 0 < d →
  asteroidMagnitude H G alpha r d = hgMagnitude H G alpha (r / au) (d / au)

theorem asteroid_offset {H G alpha r d : ℝ} (hr : 0 < r) (hd : 0 < d) :
    asteroidMagnitude H G alpha r d = hgMagnitude H G alpha (r / au) (d / au) + 20 * logb 10 au := by
  have ha := consts_pos.2.2.2
  unfold asteroidMagnitude hgMagnitude phi1 phi2
  simp only [neg_mul]
  rw [show r * au * (d * au) = (r / au * (d / au)) * au ^ 4 by field_simp, logb_mul (by positivity) (by positivity), logb_pow]
  push_cast
  ring

theorem log_au : 11 < logb 10 au := by
  rw [lt_logb_iff_rpow_lt (by norm_num) consts_pos.2.2.2, show (11 : ℝ) = ((11 : ℕ) : ℝ) by norm_num, rpow_natCast]
  norm_num [au]

/-- **C96, asteroid, violated.**  The magnitude is too faint by `20 log₁₀ AU`, more than 220 magnitudes, for every asteroid and
geometry. -/
theorem C96_asteroid_violated : ¬ C96_asteroid_full ∧ ∀ H G alpha r d : ℝ, 0 < r → 0 < d →
    hgMagnitude H G alpha (r / au) (d / au) + 220 < asteroidMagnitude H G alpha r d := by
  have key : ∀ H G alpha r d : ℝ, 0 < r → 0 < d →
      hgMagnitude H G alpha (r / au) (d / au) + 220 < asteroidMagnitude H G alpha r d := fun H G alpha r d hr hd => by
    rw [asteroid_offset hr hd]; linarith [log_au]
  refine ⟨fun h => ?_, key⟩
  have h1 := h 15 0 0 1 1 le_rfl (by norm_num) le_rfl pi_pos one_pos one_pos
  have h2 := key 15 0 0 1 1 one_pos one_pos
  linarith

theorem tan_mono {a b : ℝ} (ha : 0 ≤ a) (hab : a < b) (hb : b < π) : 0 ≤ tan (a / 2) ∧ tan (a / 2) < tan (b / 2) := by
  refine ⟨tan_nonneg_of_nonneg_of_le_pi_div_two (by linarith) (by linarith), ?_⟩
  exact tan_lt_tan_of_lt_of_lt_pi_div_two (by linarith) (by linarith) (by linarith)

theorem phi_anti {a b : ℝ} (ha : 0 ≤ a) (hab : a < b) (hb : b < π) : phi1 b < phi1 a ∧ phi2 b < phi2 a := by
  obtain ⟨h1, h2⟩ := tan_mono ha hab hb
  unfold phi1 phi2
  rw [exp_lt_exp, exp_lt_exp]
  have := rpow_lt_rpow h1 h2 (show (0 : ℝ) < 0.64 by norm_num)
  have := rpow_lt_rpow h1 h2 (show (0 : ℝ) < 1.22 by norm_num)
  constructor <;> linarith

theorem mix_pos {G x y : ℝ} (h0 : 0 ≤ G) (h1 : G ≤ 1) (hx : 0 < x) (hy : 0 < y) : 0 < (1 - G) * x + G * y := by
  rcases eq_or_lt_of_le h0 with rfl | h
  · simpa using hx
  · have := mul_pos h hy
    have := mul_nonneg (by linarith : 0 ≤ 1 - G) hx.le
    linarith

/-- **C96, asteroid.**  Up to that constant the magnitudes are right: at the same phase angle an asteroid dims with the square of both
distances, it is fainter at every larger phase angle, and each unit of the absolute magnitude is one magnitude. -/
theorem C96_asteroid_partial (H G : ℝ) (hG : 0 ≤ G) (hG' : G ≤ 1) :
    (∀ alpha r d s t, 0 < r → 0 < d → 0 < s → 0 < t →
      asteroidMagnitude H G alpha (s * r) (t * d) = asteroidMagnitude H G alpha r d + 5 * logb 10 (s * t)) ∧
    (∀ a b r d, 0 ≤ a → a < b → b < π → 0 < r → 0 < d → asteroidMagnitude H G a r d < asteroidMagnitude H G b r d) ∧
    (∀ alpha r d h, asteroidMagnitude (H + h) G alpha r d = asteroidMagnitude H G alpha r d + h) := by
  have ha := consts_pos.2.2.2
  refine ⟨fun alpha r d s t hr hd hs ht => ?_, fun a b r d h0 hab hb hr hd => ?_, fun alpha r d h => ?_⟩
  · unfold asteroidMagnitude
    simp only
    rw [show s * r * au * (t * d * au) = (s * t) * (r * au * (d * au)) by ring, logb_mul (by positivity) (by positivity)]
    ring
  · obtain ⟨p1, p2⟩ := phi_anti h0 hab hb
    have q1 : 0 < phi1 b := exp_pos _
    have q2 : 0 < phi2 b := exp_pos _
    have hm : (1 - G) * phi1 b + G * phi2 b < (1 - G) * phi1 a + G * phi2 a := by
      have := mix_pos hG hG' (sub_pos.2 p1) (sub_pos.2 p2)
      linarith
    have := logb_lt_logb (by norm_num : (1 : ℝ) < 10) (mix_pos hG hG' q1 q2) hm
    unfold asteroidMagnitude
    simp only
    linarith
  · unfold asteroidMagnitude; simp only; ring

/-- **C96, asteroid.**  The irradiance follows: for the same phase angle, the product with the squares of both distances is the same
wherever the asteroid is. -/
theorem C96_asteroid_inverse_square {n : ℕ} (bins : Fin (n + 1) → ℝ × ℝ) (hb : GoodBins bins) (H G : ℝ)
    (albedo : Fin (n + 1) → ℝ) (i : Fin (n + 1)) (alpha r d s t : ℝ) (hr : 0 < r) (hd : 0 < d) (hs : 0 < s) (ht : 0 < t) :
    magToIrradiance bins (asteroidMagnitude H G alpha (s * r) (t * d)) albedo i =
      magToIrradiance bins (asteroidMagnitude H G alpha r d) albedo i / (s ^ 2 * t ^ 2) := by
  have ha := consts_pos.2.2.2
  have h1 : asteroidMagnitude H G alpha (s * r) (t * d) = asteroidMagnitude H G alpha r d + 5 * logb 10 (s * t) := by
    unfold asteroidMagnitude
    simp only
    rw [show s * r * au * (t * d * au) = (s * t) * (r * au * (d * au)) by ring, logb_mul (by positivity) (by positivity)]
    ring
  obtain ⟨k, hk, h⟩ := mag_form bins hb albedo i
  rw [h, h, h1, vBand_shift]
  have e : (10 : ℝ) ^ (-0.4 * (5 * logb 10 (s * t))) = 1 / (s ^ 2 * t ^ 2) := by
    rw [show (-0.4 * (5 * logb 10 (s * t)) : ℝ) = logb 10 (s * t) * ((-2 : ℤ) : ℝ) by push_cast; ring, rpow_mul (by norm_num),
      rpow_logb (by norm_num) (by norm_num) (by positivity), rpow_intCast]
    rw [zpow_neg]
    field_simp
  rw [e]; ring

/-- **C96, asteroid.**  The phase angle is the angle at the asteroid between the directions to the light and to the observer, also
when the rounded cosine would leave `[-1, 1]`, and the distances are those to the light and the observer; an asteroid at the light or
at the observer is refused. -/
theorem C96_asteroid_geometry (pos light : V3) :
    (asteroidGeometry pos light = none ↔ V3.len pos = 0 ∨ V3.len (light - pos) = 0) ∧
    ∀ a r d, asteroidGeometry pos light = some (a, r, d) → r = V3.len (light - pos) ∧ d = V3.len pos ∧ 0 < r ∧ 0 < d ∧
      a ∈ Set.Icc 0 π ∧ V3.dot (light - pos) (-pos) = r * d * cos a := by
  have n1 := len_nonneg (light - pos)
  have n2 := len_nonneg pos
  have hl := len_neg pos
  unfold asteroidGeometry
  simp only [hl]
  constructor
  · split_ifs with h
    · simp only [true_iff]
      rcases h with h | h
      · exact Or.inr (le_antisymm h n1)
      · exact Or.inl (le_antisymm h n2)
    · simp only [reduceCtorEq, false_iff]
      rintro (h' | h')
      · exact h (Or.inr h'.le)
      · exact h (Or.inl h'.le)
  · intro a r d h
    split_ifs at h with h'
    rw [not_or, not_le, not_le] at h'
    simp only [Option.some.injEq, Prod.mk.injEq] at h
    obtain ⟨rfl, rfl, rfl⟩ := h
    refine ⟨rfl, rfl, h'.1, h'.2, ⟨arccos_nonneg _, arccos_le_pi _⟩, ?_⟩
    have hpos := mul_pos h'.1 h'.2
    have e : V3.dot ((1 / V3.len (light - pos)) * (light - pos)) ((1 / V3.len pos) * (-pos)) =
        V3.dot (light - pos) (-pos) / (V3.len (light - pos) * V3.len pos) := by
      have := h'.1.ne'
      have := h'.2.ne'
      simp only [V3.dot, V3.hmul_x, V3.hmul_y, V3.hmul_z, V3.neg_x, V3.neg_y, V3.neg_z]
      field_simp
    have hcs : |V3.dot (light - pos) (-pos)| ≤ V3.len (light - pos) * V3.len pos := by
      have := abs_dot_le (light - pos) (-pos)
      rwa [len_neg] at this
    have hb : |V3.dot (light - pos) (-pos) / (V3.len (light - pos) * V3.len pos)| ≤ 1 := by
      rw [abs_div, abs_of_pos hpos, div_le_one hpos]; exact hcs
    rw [abs_le] at hb
    rw [e, min_eq_right hb.2, max_eq_right hb.1, cos_arccos hb.1 hb.2, mul_div_cancel₀ _ hpos.ne']

/-- Non-vacuity: an asteroid at 2 AU from the sun, seen from 1 AU, and a sphere a kilometre away. -/
example : ∃ a, asteroidGeometry ⟨1, 0, 0⟩ ⟨3, 0, 0⟩ = some (a, 2, 1) := by
  have h1 : V3.len (⟨3, 0, 0⟩ - ⟨1, 0, 0⟩ : V3) = 2 := by
    simp [V3.len, V3.dot]; norm_num
  have h2 : V3.len (-⟨1, 0, 0⟩ : V3) = 1 := by simp [V3.len, V3.dot]
  unfold asteroidGeometry
  simp only [h1, h2]
  norm_num

end
end Huira.Phot
