import Verif.Photometry.PhysicsProps
import Mathlib.Analysis.SpecialFunctions.Trigonometric.Deriv

/-!
# Directions of stars and proper motion (C98)
-/

set_option linter.unusedSimpArgs false
set_option linter.unusedVariables false

namespace Huira.Phot

noncomputable section
open Real

/-- The unit vector to right ascension `ra` and declination `dec` (specification). -/
def skyDirection (ra dec : ℝ) : V3 := ⟨cos dec * cos ra, cos dec * sin ra, sin dec⟩

theorem sky_dot (ra dec : ℝ) : V3.dot (skyDirection ra dec) (skyDirection ra dec) = 1 := by
  have h1 := sin_sq_add_cos_sq ra
  have h2 := sin_sq_add_cos_sq dec
  simp only [V3.dot, skyDirection]
  calc _ = cos dec ^ 2 * (sin ra ^ 2 + cos ra ^ 2) + sin dec ^ 2 := by ring
    _ = 1 := by rw [h1, mul_one]; linarith

/-- The right ascension and declination a star is drawn at. -/
def raAt (ra dec pmRA pmDEC years : ℝ) : ℝ := ra + pmRA * masToRad * years / cos (dec + pmDEC * masToRad * years)
def decAt (dec pmDEC years : ℝ) : ℝ := dec + pmDEC * masToRad * years

theorem star_eq (ra dec pmRA pmDEC years : ℝ) :
    starDirection ra dec pmRA pmDEC years = skyDirection (raAt ra dec pmRA pmDEC years) (decAt dec pmDEC years) := by
  have h := sky_dot (raAt ra dec pmRA pmDEC years) (decAt dec pmDEC years)
  unfold starDirection
  simp only
  change V3.normalize (skyDirection (raAt ra dec pmRA pmDEC years) (decAt dec pmDEC years)) = _
  rw [V3.normalize_eq, V3.len, h]
  simp only [sqrt_one, div_one]
  ext <;> simp

/-- **C98.**  A star's direction is a unit vector; at J2000 it is the direction of the catalogue's right ascension and declination, and
without proper motion it is so at every time; the declination moves linearly in time. -/
theorem C98_direction (ra dec pmRA pmDEC years : ℝ) :
    V3.dot (starDirection ra dec pmRA pmDEC years) (starDirection ra dec pmRA pmDEC years) = 1 ∧
    starDirection ra dec pmRA pmDEC 0 = skyDirection ra dec ∧ starDirection ra dec 0 0 years = skyDirection ra dec ∧
    (starDirection ra dec pmRA pmDEC years).z = sin (dec + pmDEC * (π / 180 / 3600 / 1000) * years) ∧
    starDirection ra dec pmRA 0 years = skyDirection (ra + pmRA * (π / 180 / 3600 / 1000) * years / cos dec) dec := by
  have hm : π / 180 / 3600 / 1000 = masToRad := by unfold masToRad; ring
  rw [hm]
  refine ⟨by rw [star_eq]; exact sky_dot _ _, ?_, ?_, ?_, ?_⟩
  · rw [star_eq]; simp [raAt, decAt]
  · rw [star_eq]; simp [raAt, decAt]
  · rw [star_eq]; rfl
  · rw [star_eq]; simp [raAt, decAt]

/-- **C98.**  At the epoch a star moves with the catalogue's proper motion: `pmDEC` milliarcseconds a year to the north and `pmRA`
to the east, measured on the sky, whatever its declination. -/
theorem C98_proper_motion (ra dec pmRA pmDEC : ℝ) (h : cos dec ≠ 0) :
    HasDerivAt (fun y => (starDirection ra dec pmRA pmDEC y).x)
      ((π / 648000000) * (pmDEC * (-(sin dec * cos ra)) + pmRA * (-sin ra))) 0 ∧
    HasDerivAt (fun y => (starDirection ra dec pmRA pmDEC y).y)
      ((π / 648000000) * (pmDEC * (-(sin dec * sin ra)) + pmRA * cos ra)) 0 ∧
    HasDerivAt (fun y => (starDirection ra dec pmRA pmDEC y).z) ((π / 648000000) * (pmDEC * cos dec)) 0 := by
  have hm : π / 648000000 = masToRad := by unfold masToRad; norm_num
  rw [hm]
  simp only [star_eq, skyDirection]
  have hd : HasDerivAt (fun y => decAt dec pmDEC y) (pmDEC * masToRad) 0 := by
    unfold decAt
    simpa using ((hasDerivAt_id (0 : ℝ)).const_mul (pmDEC * masToRad)).const_add dec
  have hd0 : decAt dec pmDEC 0 = dec := by simp [decAt]
  have hr0 : raAt ra dec pmRA pmDEC 0 = ra := by simp [raAt]
  have hr : HasDerivAt (fun y => raAt ra dec pmRA pmDEC y) (pmRA * masToRad / cos dec) 0 := by
    unfold raAt
    have h1 : HasDerivAt (fun y : ℝ => pmRA * masToRad * y) (pmRA * masToRad) 0 := by
      simpa using (hasDerivAt_id (0 : ℝ)).const_mul (pmRA * masToRad)
    have h2 : HasDerivAt (fun y => cos (dec + pmDEC * masToRad * y)) (-sin dec * (pmDEC * masToRad)) 0 := by
      have := hd.cos
      rw [hd0] at this
      exact this
    have h3 := (h1.div h2 (by simpa using h)).const_add ra
    refine h3.congr_deriv ?_
    simp only [mul_zero, add_zero, zero_mul, sub_zero]
    field_simp
  have hsd := hd.sin
  have hcd := hd.cos
  have hsr := hr.sin
  have hcr := hr.cos
  rw [hd0] at hsd hcd
  rw [hr0] at hsr hcr
  refine ⟨(hcd.mul hcr).congr_deriv ?_, (hcd.mul hsr).congr_deriv ?_, hsd.congr_deriv ?_⟩
  · rw [hr0, hd0]; field_simp
  · rw [hr0, hd0]; field_simp
  · ring

/-- The velocity above is tangent to the sky and as fast as the proper motion. -/
theorem C98_speed (ra dec pmRA pmDEC : ℝ) :
    let v : V3 := ⟨pmDEC * (-(sin dec * cos ra)) + pmRA * (-sin ra), pmDEC * (-(sin dec * sin ra)) + pmRA * cos ra, pmDEC * cos dec⟩
    V3.dot v v = pmRA ^ 2 + pmDEC ^ 2 ∧ V3.dot v (skyDirection ra dec) = 0 := by
  have h1 : sin ra ^ 2 = 1 - cos ra ^ 2 := by linarith [sin_sq_add_cos_sq ra]
  have h2 : sin dec ^ 2 = 1 - cos dec ^ 2 := by linarith [sin_sq_add_cos_sq dec]
  simp only [V3.dot, skyDirection]
  constructor <;> grind

/-- **C98 in full**: a star catalogued at some epoch is drawn at its catalogued position when the scene's time is that epoch. -/
def C98_epoch_full : Prop := ∀ ra dec pmRA pmDEC epoch : ℝ,
  cos dec ≠ 0 → cos (normalizeEpoch ra dec pmRA pmDEC epoch epoch).2 ≠ 0 →
  starDirection (normalizeEpoch ra dec pmRA pmDEC epoch epoch).1 (normalizeEpoch ra dec pmRA pmDEC epoch epoch).2 pmRA pmDEC
    (epoch - 2000) = skyDirection ra dec

theorem normalize_dec (ra dec pmRA pmDEC eR eD : ℝ) :
    (normalizeEpoch ra dec pmRA pmDEC eR eD).2 = dec + pmDEC * masToRad * (2000 - eD) := by
  unfold normalizeEpoch
  split_ifs with h
  · rw [h.2]; simp
  · rfl

theorem normalize_ra (ra dec pmRA pmDEC eR eD : ℝ) :
    (normalizeEpoch ra dec pmRA pmDEC eR eD).1 =
      ra + pmRA * masToRad * (2000 - eR) / cos (dec + pmDEC * masToRad * (2000 - eD)) := by
  unfold normalizeEpoch
  split_ifs with h
  · rw [h.1]; simp
  · rfl

/-- **C98.**  A star catalogued at J2000 is kept.  A star catalogued at another epoch is drawn at that epoch with the catalogued
declination and, when it has no motion in declination, exactly at its catalogued position; otherwise its right ascension is off by
its motion times the change of `1/cos` of the declination. -/
theorem C98_epoch_partial (ra dec pmRA pmDEC epoch : ℝ) :
    normalizeEpoch ra dec pmRA pmDEC 2000 2000 = (ra, dec) ∧
    (let s := normalizeEpoch ra dec pmRA pmDEC epoch epoch
     starDirection s.1 s.2 pmRA pmDEC (epoch - 2000) =
      skyDirection (ra + pmRA * masToRad * (epoch - 2000) *
        (1 / cos dec - 1 / cos (dec - pmDEC * masToRad * (epoch - 2000)))) dec) ∧
    (let s := normalizeEpoch ra dec pmRA 0 epoch epoch
     starDirection s.1 s.2 pmRA 0 (epoch - 2000) = skyDirection ra dec) := by
  refine ⟨by simp [normalizeEpoch], ?_, ?_⟩
  · simp only
    rw [star_eq, normalize_dec, normalize_ra]
    have e1 : decAt (dec + pmDEC * masToRad * (2000 - epoch)) pmDEC (epoch - 2000) = dec := by unfold decAt; ring
    have e2 : raAt (ra + pmRA * masToRad * (2000 - epoch) / cos (dec + pmDEC * masToRad * (2000 - epoch)))
        (dec + pmDEC * masToRad * (2000 - epoch)) pmRA pmDEC (epoch - 2000) =
        ra + pmRA * masToRad * (epoch - 2000) * (1 / cos dec - 1 / cos (dec - pmDEC * masToRad * (epoch - 2000))) := by
      unfold raAt
      rw [show dec + pmDEC * masToRad * (2000 - epoch) + pmDEC * masToRad * (epoch - 2000) = dec by ring,
        show dec - pmDEC * masToRad * (epoch - 2000) = dec + pmDEC * masToRad * (2000 - epoch) by ring]
      ring
    rw [e1, e2]
  · simp only
    rw [star_eq, normalize_dec, normalize_ra]
    simp only [zero_mul, add_zero, raAt, decAt]
    congr 1
    ring

/-- **C98, violated.**  With motion in both coordinates the star is not where the catalogue put it. -/
theorem C98_epoch_violated : ¬ C98_epoch_full := by
  intro h
  have hm : masToRad ≠ 0 := by unfold masToRad; have := pi_pos; positivity
  have h1 := h 0 0 (π / 2 / masToRad) (-(π / 3) / masToRad) 2001 (by simp) (by
    rw [normalize_dec, div_mul_cancel₀ _ hm]
    rw [show (0 : ℝ) + -(π / 3) * (2000 - 2001) = π / 3 by ring, cos_pi_div_three]; norm_num)
  have h2 := (C98_epoch_partial 0 0 (π / 2 / masToRad) (-(π / 3) / masToRad) 2001).2.1
  simp only at h2
  rw [h1, div_mul_cancel₀ _ hm, div_mul_cancel₀ _ hm] at h2
  rw [show (0 : ℝ) - -(π / 3) * (2001 - 2000) = π / 3 by ring, cos_pi_div_three, cos_zero] at h2
  have h3 := congrArg V3.x h2
  simp only [skyDirection, cos_zero, one_mul] at h3
  rw [show (0 : ℝ) + π / 2 * (2001 - 2000) * (1 / 1 - 1 / (1 / 2)) = -(π / 2) by ring, cos_neg, cos_pi_div_two] at h3
  exact one_ne_zero h3

/-- Non-vacuity: Barnard's star has motions in both coordinates and is not at a pole. -/
example : cos (4.7 / 180 * π) ≠ 0 := by
  apply ne_of_gt
  apply cos_pos_of_mem_Ioo
  have := pi_pos
  constructor <;> linarith

end
end Huira.Phot
