import Verif.Geometry.EllipsoidModel
import Verif.Materials.FrameProps
import Mathlib.Tactic
import Mathlib.Analysis.Real.Pi.Bounds
import Mathlib.Analysis.SpecialFunctions.Trigonometric.Bounds

/-!
# Ellipsoids: intersections, bounds, surface data (C67)
-/

set_option linter.unusedSimpArgs false
set_option linter.unusedVariables false

namespace Huira.Ellipsoid

noncomputable section
open Real Classical V3 Huira.Sampling

/-! ## Specification -/

/-- The point of a ray at parameter `t`. -/
def along (ray : Ray) (t : ℝ) : V3 := ⟨ray.o.x + t * ray.d.x, ray.o.y + t * ray.d.y, ray.o.z + t * ray.d.z⟩

/-- A point is on the ellipsoid with the given radii. -/
def OnSurface (r p : V3) : Prop := (p.x / r.x) ^ 2 + (p.y / r.y) ^ 2 + (p.z / r.z) ^ 2 = 1

/-- All radii are positive. -/
def Positive (r : V3) : Prop := 0 < r.x ∧ 0 < r.y ∧ 0 < r.z

/-- `neg` may be the sign bit of `x`: it is determined unless `x` is a zero. -/
def SignBit (neg : Bool) (x : ℝ) : Prop := (x < 0 → neg = true) ∧ (0 < x → neg = false)

/-- A parameter at which the ray meets the ellipsoid within its extent. -/
def Meets (r : V3) (ray : Ray) (t : ℝ) : Prop := ray.tnear ≤ t ∧ (t : WithTop ℝ) ≤ ray.tfar ∧ OnSurface r (along ray t)

/-! ## The quadratic -/

theorem speed_pos {r : V3} (hr : Positive r) {ray : Ray} (hd : ray.d ≠ V3.zero) : 0 < speed r ray := by
  obtain ⟨h1, h2, h3⟩ := hr
  apply len_pos
  intro e
  apply hd
  have x1 := congrArg V3.x e
  have x2 := congrArg V3.y e
  have x3 := congrArg V3.z e
  simp only [scaled, cmul, invR, V3.zero] at x1 x2 x3
  ext
  · simpa [V3.zero, h1.ne'] using x1
  · simpa [V3.zero, h2.ne'] using x2
  · simpa [V3.zero, h3.ne'] using x3

theorem unit_unit {r : V3} (hr : Positive r) {ray : Ray} (hd : ray.d ≠ V3.zero) : dot (unitDir r ray) (unitDir r ray) = 1 := by
  have hL := speed_pos hr hd
  unfold unitDir
  rw [dot_smul_left, dot_smul_right]
  have : dot (scaled r ray.d) (scaled r ray.d) = speed r ray * speed r ray := (len_sq _).symm
  rw [this]; field_simp

/-- The scaled point at parameter `t`. -/
theorem scaled_along {r : V3} (hr : Positive r) {ray : Ray} (hd : ray.d ≠ V3.zero) (t : ℝ) :
    scaled r ray.o + (t * speed r ray) * unitDir r ray = scaled r (along ray t) := by
  have hL := speed_pos hr hd
  have e : ∀ a : ℝ, t * speed r ray * (1 / speed r ray * a) = t * a := fun a => by field_simp
  ext <;> simp only [unitDir, add_x, add_y, add_z, hmul_x, hmul_y, hmul_z, e] <;>
    simp only [scaled, cmul, along, invR] <;> ring

theorem onSurface_iff_scaled (r p : V3) : OnSurface r p ↔ dot (scaled r p) (scaled r p) = 1 := by
  unfold OnSurface
  constructor <;> intro h <;> rw [← h] <;> simp only [dot, scaled, cmul, invR] <;> ring

theorem onSurface_iff {r : V3} (hr : Positive r) {ray : Ray} (hd : ray.d ≠ V3.zero) (t : ℝ) :
    OnSurface r (along ray t) ↔
      (t * speed r ray) ^ 2 + 2 * dot (scaled r ray.o) (unitDir r ray) * (t * speed r ray) +
        (dot (scaled r ray.o) (scaled r ray.o) - 1) = 0 := by
  rw [onSurface_iff_scaled, ← scaled_along hr hd]
  have hu := unit_unit hr hd
  generalize unitDir r ray = D at *
  generalize scaled r ray.o = O at *
  generalize t * speed r ray = x at *
  have e : dot (O + x * D) (O + x * D) = dot O O + 2 * dot O D * x + x ^ 2 * dot D D := by
    simp [dot]; ring
  rw [e, hu]
  constructor <;> intro h <;> linarith

/-- What `roots` delivers. -/
theorem roots_spec {r : V3} (hr : Positive r) {ray : Ray} (hd : ray.d ≠ V3.zero) {neg : Bool}
    (hn : SignBit neg (dot (scaled r ray.o) (unitDir r ray))) :
    match roots r ray neg with
    | none => ∀ t, ¬ OnSurface r (along ray t)
    | some (t0, none) => t0 = 0 ∧ ∀ t, OnSurface r (along ray t) ↔ t = t0
    | some (t0, some t1) => t0 ≤ t1 ∧ ∀ t, OnSurface r (along ray t) ↔ t = t0 ∨ t = t1 := by
  have hL := speed_pos hr hd
  have key := fun t => onSurface_iff hr hd t
  unfold roots
  simp only
  generalize speed r ray = L at *
  obtain ⟨B, hB⟩ : ∃ B, B = 2 * dot (scaled r ray.o) (unitDir r ray) := ⟨_, rfl⟩
  obtain ⟨C, hC⟩ : ∃ C, C = dot (scaled r ray.o) (scaled r ray.o) - 1 := ⟨_, rfl⟩
  rw [← hB, ← hC]
  simp only [← hB, ← hC] at key
  have hn' : SignBit neg B := ⟨fun h => hn.1 (by linarith), fun h => hn.2 (by linarith)⟩
  clear hn hB hC
  by_cases hD : B * B - 4 * C < 0
  · rw [if_pos hD]
    intro t
    rw [key]
    intro h
    nlinarith [sq_nonneg (2 * (t * L) + B)]
  · rw [if_neg hD]
    push Not at hD
    have hs := mul_self_sqrt hD
    have hs0 := sqrt_nonneg (B * B - 4 * C)
    generalize sqrt (B * B - 4 * C) = s at *
    obtain ⟨q, hq⟩ : ∃ q, q = -0.5 * (B + (if neg = true then -s else s)) := ⟨_, rfl⟩
    rw [← hq]
    have hroot : q * q + B * q + C = 0 := by
      cases neg <;> simp at hq <;> rw [hq] <;> nlinarith
    by_cases hq0 : q = 0
    · rw [if_pos hq0]
      -- then B and s are both zero
      have hB0 : B = 0 := by
        by_contra hne
        rcases lt_or_gt_of_ne hne with h | h
        · have := hn'.1 h; subst this; simp at hq; nlinarith
        · have := hn'.2 h; subst this; simp at hq; nlinarith
      have hC0 : C = 0 := by rw [hq0, hB0] at hroot; linarith
      refine ⟨by rw [hq0]; simp, fun t => ?_⟩
      rw [key, hB0, hC0, hq0]
      simp [hL.ne']
    · rw [if_neg hq0]
      have hsum : q + C / q = -B := by field_simp; linarith
      have hprod : q * (C / q) = C := by field_simp
      have hiff : ∀ t, OnSurface r (along ray t) ↔ t = q / L ∨ t = C / q / L := by
        intro t
        rw [key, eq_div_iff hL.ne', eq_div_iff hL.ne']
        have e : (t * L) ^ 2 + B * (t * L) + C = (t * L - q) * (t * L - C / q) := by
          rw [← neg_eq_iff_eq_neg.mpr hsum] at *
          linear_combination -hprod
        rw [e, mul_eq_zero, sub_eq_zero, sub_eq_zero]
      by_cases hgt : q > C / q
      · rw [if_pos hgt]
        exact ⟨(div_le_div_iff_of_pos_right hL).mpr hgt.le, fun t => by rw [hiff]; tauto⟩
      · rw [if_neg hgt]
        push Not at hgt
        exact ⟨(div_le_div_iff_of_pos_right hL).mpr hgt, hiff⟩

/-! ## Intersections -/

/-- **C67.**  For every ellipsoid and ray from `tnear = 0` (as every ray of the renderer): the callback reports a hit exactly
if the ray meets the ellipsoid within its extent; the hit is then the nearest such point. -/
theorem C67_nearest (r : V3) (hr : Positive r) (ray : Ray) (hd : ray.d ≠ V3.zero) (h0 : ray.tnear = 0) (hf : 0 ≤ ray.tfar)
    (neg : Bool) (hn : SignBit neg (dot (scaled r ray.o) (unitDir r ray))) :
    (∃ (t : ℝ) (h : Hit), intersectNoFilter r ray neg = ⟨some (t : WithTop ℝ), some h⟩ ∧ h = hitAt r ray t ∧ Meets r ray t ∧
      ∀ t', Meets r ray t' → t ≤ t') ∨
    (intersectNoFilter r ray neg = ⟨some ray.tfar, none⟩ ∧ ∀ t, ¬ Meets r ray t) := by
  have hs := roots_spec hr hd hn
  unfold intersectNoFilter intersect
  rcases hroots : roots r ray neg with _ | ⟨t0, _ | t1⟩
  · rw [hroots] at hs
    exact Or.inr ⟨rfl, fun t ht => hs t ht.2.2⟩
  · rw [hroots] at hs
    obtain ⟨rfl, hs⟩ := hs
    left
    have h1 : ¬ ((0 : ℝ) < ray.tnear ∨ ((0 : ℝ) : WithTop ℝ) > ray.tfar) := by
      rw [h0]; push Not; exact ⟨le_rfl, hf⟩
    refine ⟨0, hitAt r ray 0, ?_, rfl, ⟨h0.le, hf, (hs 0).mpr rfl⟩, fun t' ht' => ((hs t').mp ht'.2.2).ge⟩
    simp only [testHit, if_neg h1, if_true]
  · rw [hroots] at hs
    obtain ⟨hle, hs⟩ := hs
    by_cases h1 : t0 < ray.tnear ∨ (t0 : WithTop ℝ) > ray.tfar
    · by_cases h2 : t1 < ray.tnear ∨ (t1 : WithTop ℝ) > ray.tfar
      · right
        refine ⟨?_, fun t ht => ?_⟩
        · simp only [testHit, if_pos h1, if_pos h2, Bool.false_eq_true, if_false]
        · rcases (hs t).mp ht.2.2 with rfl | rfl
          · rcases h1 with h | h
            · exact absurd ht.1 (not_le.mpr h)
            · exact absurd ht.2.1 (not_le.mpr h)
          · rcases h2 with h | h
            · exact absurd ht.1 (not_le.mpr h)
            · exact absurd ht.2.1 (not_le.mpr h)
      · left
        refine ⟨t1, hitAt r ray t1, ?_, rfl, ?_, fun t' ht' => ?_⟩
        · simp only [testHit, if_pos h1, if_neg h2, Bool.false_eq_true, if_false, if_true]
        · push Not at h2; exact ⟨h2.1, h2.2, (hs t1).mpr (Or.inr rfl)⟩
        · rcases (hs t').mp ht'.2.2 with rfl | rfl
          · rcases h1 with h | h
            · exact absurd ht'.1 (not_le.mpr h)
            · exact absurd ht'.2.1 (not_le.mpr h)
          · exact le_rfl
    · left
      refine ⟨t0, hitAt r ray t0, ?_, rfl, ?_, fun t' ht' => ?_⟩
      · simp only [testHit, if_neg h1, if_true]
      · push Not at h1; exact ⟨h1.1, h1.2, (hs t0).mpr (Or.inl rfl)⟩
      · rcases (hs t').mp ht'.2.2 with rfl | rfl
        · exact le_rfl
        · exact hle

/-- The gradient of the ellipsoid's equation (up to a factor of two): the outward normal direction. -/
def outward (r p : V3) : V3 := ⟨p.x / r.x ^ 2, p.y / r.y ^ 2, p.z / r.z ^ 2⟩

theorem rMax_pos {r : V3} (hr : Positive r) : 0 < rMax r := lt_of_lt_of_le hr.1 ((le_max_left _ _).trans (le_max_left _ _))

/-- **C67.**  At a hit, the geometric normal is a positive multiple of the outward normal, the texture coordinates are in
[0, 1], and the position recomputed from them is the point of the ray. -/
theorem C67_hit_data (r : V3) (hr : Positive r) (ray : Ray) (hd : ray.d ≠ V3.zero) (t : ℝ) (ht : OnSurface r (along ray t)) :
    (∃ k : ℝ, k > 0 ∧ (hitAt r ray t).ng = k * outward r (along ray t)) ∧ 0 < dot (hitAt r ray t).ng (along ray t) ∧
    (0 ≤ (hitAt r ray t).u ∧ (hitAt r ray t).u ≤ 1) ∧ (0 ≤ (hitAt r ray t).v ∧ (hitAt r ray t).v ≤ 1) ∧
    ∀ s, surface r (hitAt r ray t).u (hitAt r ray t).v = some s →
      s.position = along ray t ∧ s.normal = V3.normalize (outward r (along ray t)) := by
  have hpi := pi_pos
  have hm := rMax_pos hr
  obtain ⟨r1, r2, r3⟩ := hr
  have hsc := (onSurface_iff_scaled r _).mp ht
  have e := scaled_along ⟨r1, r2, r3⟩ hd t
  have hng : (hitAt r ray t).ng = rMax r * outward r (along ray t) := by
    simp only [hitAt, e]
    ext <;> simp only [hmul_x, hmul_y, hmul_z, cmul, scaled, invR, outward] <;> ring
  have hon : dot (outward r (along ray t)) (along ray t) = 1 := by
    rw [← ht]; simp only [dot, outward]; ring
  have hunit : V3.normalize (scaled r (along ray t)) = scaled r (along ray t) := by
    rw [V3.normalize_eq, len, hsc]; ext <;> simp
  have hu : (hitAt r ray t).u = (atan2 (scaled r (along ray t)).y (scaled r (along ray t)).x + π) / (2 * π) := by
    simp only [hitAt, e, hunit]
  have hv : (hitAt r ray t).v = arccos (scaled r (along ray t)).z / π := by simp only [hitAt, e, hunit]
  refine ⟨⟨rMax r, hm, hng⟩, ?_, ?_, ?_, ?_⟩
  · rw [hng, dot_smul_left, hon]; linarith
  · rw [hu]
    have a1 := Complex.neg_pi_lt_arg (⟨(scaled r (along ray t)).x, (scaled r (along ray t)).y⟩ : ℂ)
    have a2 := Complex.arg_le_pi (⟨(scaled r (along ray t)).x, (scaled r (along ray t)).y⟩ : ℂ)
    unfold atan2
    constructor
    · apply div_nonneg <;> linarith
    · rw [div_le_one (by positivity)]; linarith
  · rw [hv]
    have a1 := arccos_nonneg (scaled r (along ray t)).z
    have a2 := arccos_le_pi (scaled r (along ray t)).z
    exact ⟨by positivity, by rw [div_le_one hpi]; exact a2⟩
  · intro s hs
    have hphi : (hitAt r ray t).u * 2 * π - π = atan2 (scaled r (along ray t)).y (scaled r (along ray t)).x := by
      rw [hu]; field_simp; ring
    have htheta : (hitAt r ray t).v * π = arccos (scaled r (along ray t)).z := by rw [hv]; field_simp
    obtain ⟨P, hP⟩ : ∃ P, P = scaled r (along ray t) := ⟨_, rfl⟩
    rw [← hP] at hphi htheta hsc
    have hnorm : ‖(⟨P.x, P.y⟩ : ℂ)‖ = sqrt (1 - P.z ^ 2) := by
      rw [Complex.norm_eq_sqrt_sq_add_sq]; congr 1; simp only [dot] at hsc; linarith
    have hc1 : sin (arccos P.z) * cos (atan2 P.y P.x) = P.x := by
      rw [sin_arccos, ← hnorm]; exact Complex.norm_mul_cos_arg _
    have hc2 : sin (arccos P.z) * sin (atan2 P.y P.x) = P.y := by
      rw [sin_arccos, ← hnorm]; exact Complex.norm_mul_sin_arg _
    have hc3 : cos (arccos P.z) = P.z := by
      simp only [dot] at hsc
      exact cos_arccos (by nlinarith [mul_self_nonneg P.x, mul_self_nonneg P.y])
        (by nlinarith [mul_self_nonneg P.x, mul_self_nonneg P.y])
    have hX : r.x * P.x = (along ray t).x := by rw [hP]; simp only [scaled, cmul, invR]; field_simp
    have hY : r.y * P.y = (along ray t).y := by rw [hP]; simp only [scaled, cmul, invR]; field_simp
    have hZ : r.z * P.z = (along ray t).z := by rw [hP]; simp only [scaled, cmul, invR]; field_simp
    simp only [surface, hphi, htheta, Option.bind_eq_some_iff, Option.map_eq_some_iff] at hs
    obtain ⟨nn, hnn, tt, htt, bb, hbb, rfl⟩ := hs
    constructor
    · simp only [mul_assoc, hc1, hc2, hc3]
      ext
      · exact hX
      · exact hY
      · exact hZ
    · unfold V3.normalize? at hnn
      split_ifs at hnn with hz
      obtain rfl := Option.some.inj hnn
      simp only [hc1, hc2, hc3]
      have ev : (⟨P.x * (rMax r / r.x), P.y * (rMax r / r.y), P.z * (rMax r / r.z)⟩ : V3) =
          rMax r * outward r (along ray t) := by
        ext <;> simp only [hmul_x, hmul_y, hmul_z, outward, ← hX, ← hY, ← hZ] <;> field_simp
      rw [ev]
      have hne : outward r (along ray t) ≠ V3.zero := by
        intro h; rw [h] at hon; simp [dot, V3.zero] at hon
      have hl := len_pos hne
      have el : len (rMax r * outward r (along ray t)) = rMax r * len (outward r (along ray t)) := by
        unfold len
        rw [dot_smul_left, dot_smul_right, ← mul_assoc, sqrt_mul (mul_self_nonneg _), sqrt_mul_self hm.le]
      rw [V3.normalize_eq, V3.normalize_eq, el]
      ext <;> simp only [hmul_x, hmul_y, hmul_z] <;> field_simp

/-- **C67.**  The bounding box handed to Embree contains the ellipsoid and is the smallest such box. -/
theorem C67_bounds (r : V3) (hr : Positive r) :
    (∀ p, OnSurface r p → (bounds r).1.x ≤ p.x ∧ p.x ≤ (bounds r).2.x ∧ (bounds r).1.y ≤ p.y ∧ p.y ≤ (bounds r).2.y ∧
      (bounds r).1.z ≤ p.z ∧ p.z ≤ (bounds r).2.z) ∧
    (∀ lo hi : V3, (∀ p, OnSurface r p → lo.x ≤ p.x ∧ p.x ≤ hi.x ∧ lo.y ≤ p.y ∧ p.y ≤ hi.y ∧ lo.z ≤ p.z ∧ p.z ≤ hi.z) →
      lo.x ≤ (bounds r).1.x ∧ (bounds r).2.x ≤ hi.x ∧ lo.y ≤ (bounds r).1.y ∧ (bounds r).2.y ≤ hi.y ∧
      lo.z ≤ (bounds r).1.z ∧ (bounds r).2.z ≤ hi.z) := by
  obtain ⟨r1, r2, r3⟩ := hr
  have one : ∀ a b : ℝ, 0 < b → (a / b) ^ 2 ≤ 1 → -b ≤ a ∧ a ≤ b := by
    intro a b hb h
    have h2 := abs_le_of_sq_le_sq' (show (a / b) ^ 2 ≤ 1 ^ 2 by simpa using h) (by norm_num)
    rw [le_div_iff₀ hb, div_le_iff₀ hb] at h2
    constructor <;> linarith [h2.1, h2.2]
  constructor
  · intro p hp
    unfold OnSurface at hp
    have q1 := one p.x r.x r1 (by nlinarith [sq_nonneg (p.y / r.y), sq_nonneg (p.z / r.z)])
    have q2 := one p.y r.y r2 (by nlinarith [sq_nonneg (p.x / r.x), sq_nonneg (p.z / r.z)])
    have q3 := one p.z r.z r3 (by nlinarith [sq_nonneg (p.y / r.y), sq_nonneg (p.x / r.x)])
    exact ⟨q1.1, q1.2, q2.1, q2.2, q3.1, q3.2⟩
  · intro lo hi h
    have a1 := h ⟨r.x, 0, 0⟩ (by simp [OnSurface, r1.ne'])
    have a2 := h ⟨-r.x, 0, 0⟩ (by simp [OnSurface, neg_div, r1.ne'])
    have b1 := h ⟨0, r.y, 0⟩ (by simp [OnSurface, r2.ne'])
    have b2 := h ⟨0, -r.y, 0⟩ (by simp [OnSurface, neg_div, r2.ne'])
    have c1 := h ⟨0, 0, r.z⟩ (by simp [OnSurface, r3.ne'])
    have c2 := h ⟨0, 0, -r.z⟩ (by simp [OnSurface, neg_div, r3.ne'])
    exact ⟨a2.1, a1.2.1, b2.2.2.1, b1.2.2.2.1, c2.2.2.2.2.1, c1.2.2.2.2.2⟩

/-! ## The surface frame -/

theorem normalize?_some {a t : V3} (h : V3.normalize? a = some t) : dot t t = 1 ∧ a ≠ V3.zero ∧ t = V3.normalize a := by
  unfold V3.normalize? at h
  split_ifs at h with h0
  obtain rfl := Option.some.inj h
  have hz : a ≠ V3.zero := fun e => h0 (dot_self_eq_zero.mpr e)
  exact ⟨dot_normalize hz, hz, rfl⟩

theorem normalize?_of_ne {a : V3} (h : a ≠ V3.zero) : V3.normalize? a = some (V3.normalize a) := by
  unfold V3.normalize?
  rw [if_neg (fun e => h (dot_self_eq_zero.mp e))]

/-- Squared length of the derivative of the position with respect to longitude. -/
def dpduSq (r : V3) (u v : ℝ) : ℝ :=
  (r.x * sin (v * π) * sin (u * 2 * π - π)) ^ 2 + (r.y * sin (v * π) * cos (u * 2 * π - π)) ^ 2

/-- The normal's direction at the given coordinates. -/
def gradAt (r : V3) (u v : ℝ) : V3 :=
  ⟨(sin (v * π) * cos (u * 2 * π - π)) * (rMax r / r.x), (sin (v * π) * sin (u * 2 * π - π)) * (rMax r / r.y),
    cos (v * π) * (rMax r / r.z)⟩

theorem gradAt_ne (r : V3) (hr : Positive r) (u v : ℝ) : gradAt r u v ≠ V3.zero := by
  have hm := (rMax_pos hr).ne'
  obtain ⟨r1, r2, r3⟩ := hr
  intro e
  have x1 := congrArg V3.x e
  have x2 := congrArg V3.y e
  have x3 := congrArg V3.z e
  simp only [gradAt, V3.zero, mul_eq_zero, div_eq_zero_iff, hm, r1.ne', r2.ne', r3.ne', or_false] at x1 x2 x3
  have h1 := sin_sq_add_cos_sq (v * π)
  have h2 := sin_sq_add_cos_sq (u * 2 * π - π)
  rw [x3] at h1
  rcases x1 with h | h
  · rw [h] at h1; norm_num at h1
  · rcases x2 with h' | h'
    · rw [h'] at h1; norm_num at h1
    · rw [h, h'] at h2; norm_num at h2

/-- **C67.**  Away from the poles — wherever the derivative along the parallel is at least 1e-4 m — the surface frame is
defined, orthonormal and right handed, and its tangent points east. -/
theorem C67_frame_partial (r : V3) (hr : Positive r) (u v : ℝ) (h : 1e-8 ≤ dpduSq r u v) :
    ∃ s, surface r u v = some s ∧ Orthonormal s.tangent s.bitangent s.normal ∧
      ∃ k : ℝ, 0 < k ∧ s.tangent = k * (⟨-r.x * sin (v * π) * sin (u * 2 * π - π), r.y * sin (v * π) * cos (u * 2 * π - π), 0⟩ : V3) := by
  have hg := gradAt_ne r hr u v
  have hgu := dot_normalize hg
  obtain ⟨dp, hdp⟩ : ∃ dp : V3, dp = ⟨-r.x * sin (v * π) * sin (u * 2 * π - π), r.y * sin (v * π) * cos (u * 2 * π - π), 0⟩ := ⟨_, rfl⟩
  have hsq : dot dp dp = dpduSq r u v := by rw [hdp]; simp only [dot, dpduSq]; ring
  have hdne : dp ≠ V3.zero := by
    intro e; rw [e] at hsq; simp [dot, V3.zero] at hsq; rw [← hsq] at h; norm_num at h
  have hdu := dot_normalize hdne
  have horth : dot dp (gradAt r u v) = 0 := by
    obtain ⟨r1, r2, r3⟩ := hr
    rw [hdp]; simp only [dot, gradAt]; field_simp; ring
  have horth' : dot (V3.normalize dp) (V3.normalize (gradAt r u v)) = 0 := by
    rw [V3.normalize_eq, V3.normalize_eq, dot_smul_left, dot_smul_right, horth]; ring
  have hk := len_pos hdne
  have hkd : V3.normalize dp = (1 / len dp) * dp := rfl
  have hsurf : surface r u v = (V3.normalize? (gradAt r u v)).bind fun n =>
      (V3.normalize? (if dot dp dp < 1e-8 then ⟨1, 0, 0⟩ else dp)).bind fun t =>
      (V3.normalize? (V3.cross n t)).map fun b =>
        ⟨⟨r.x * sin (v * π) * cos (u * 2 * π - π), r.y * sin (v * π) * sin (u * 2 * π - π), r.z * cos (v * π)⟩, n, t, b⟩ := by
    rw [hdp]; rfl
  rw [if_neg (by rw [hsq]; exact not_lt.mpr h), normalize?_of_ne hg, Option.bind_some, normalize?_of_ne hdne, Option.bind_some] at hsurf
  generalize V3.normalize dp = t at *
  generalize V3.normalize (gradAt r u v) = n at *
  have hcc : dot (V3.cross n t) (V3.cross n t) = 1 := by
    have : dot (V3.cross n t) (V3.cross n t) = dot n n * dot t t - dot t n * dot t n := by simp only [dot, cross]; ring
    rw [this, hgu, hdu, horth']; ring
  have hcne : V3.cross n t ≠ V3.zero := by intro e; rw [e] at hcc; simp [dot, V3.zero] at hcc
  have hcn : V3.normalize (V3.cross n t) = V3.cross n t := by
    rw [V3.normalize_eq, len, hcc]; ext <;> simp
  rw [normalize?_of_ne hcne, Option.map_some, hcn] at hsurf
  refine ⟨_, hsurf, ?_, 1 / len dp, by positivity, by rw [← hdp]; exact hkd⟩
  clear hsurf hcn hcne hkd hdp hg horth
  obtain ⟨t1, t2, t3⟩ := t
  obtain ⟨n1, n2, n3⟩ := n
  simp only [dot] at hgu hdu horth'
  constructor <;> simp only [dot, cross, V3.mk.injEq] <;> (try refine ⟨?_, ?_, ?_⟩) <;> grind

/-- **C67.**  If the second radius is at least 0.1 mm the surface data is defined everywhere, with unit normal and tangent. -/
theorem C67_defined_partial (r : V3) (hr : Positive r) (hy : 1e-4 ≤ r.y) (u v : ℝ) :
    ∃ s, surface r u v = some s ∧ dot s.normal s.normal = 1 ∧ dot s.tangent s.tangent = 1 ∧ dot s.bitangent s.bitangent = 1 := by
  by_cases h : 1e-8 ≤ dpduSq r u v
  · obtain ⟨s, hs, ho, _⟩ := C67_frame_partial r hr u v h
    exact ⟨s, hs, ho.nn, ho.tt, ho.bb⟩
  push Not at h
  have hg := gradAt_ne r hr u v
  obtain ⟨dp, hdp⟩ : ∃ dp : V3, dp = ⟨-r.x * sin (v * π) * sin (u * 2 * π - π), r.y * sin (v * π) * cos (u * 2 * π - π), 0⟩ := ⟨_, rfl⟩
  have hsq : dot dp dp = dpduSq r u v := by rw [hdp]; simp only [dot, dpduSq]; ring
  have hsurf : surface r u v = (V3.normalize? (gradAt r u v)).bind fun n =>
      (V3.normalize? (if dot dp dp < 1e-8 then ⟨1, 0, 0⟩ else dp)).bind fun t =>
      (V3.normalize? (V3.cross n t)).map fun b =>
        ⟨⟨r.x * sin (v * π) * cos (u * 2 * π - π), r.y * sin (v * π) * sin (u * 2 * π - π), r.z * cos (v * π)⟩, n, t, b⟩ := by
    rw [hdp]; rfl
  have h1 : (⟨1, 0, 0⟩ : V3) ≠ V3.zero := by intro e; have := congrArg V3.x e; simp [V3.zero] at this
  have hn1 : V3.normalize ⟨1, 0, 0⟩ = (⟨1, 0, 0⟩ : V3) := by ext <;> simp [V3.normalize_eq, len, dot]
  rw [if_pos (by rw [hsq]; exact h), normalize?_of_ne hg, Option.bind_some, normalize?_of_ne h1, Option.bind_some, hn1] at hsurf
  have hl := len_pos hg
  have hcne : V3.cross (V3.normalize (gradAt r u v)) ⟨1, 0, 0⟩ ≠ V3.zero := by
    intro e
    have x2 := congrArg V3.y e
    have x3 := congrArg V3.z e
    have hm := (rMax_pos hr).ne'
    obtain ⟨r1, r2, r3⟩ := hr
    simp only [cross, V3.normalize_eq, hmul_x, hmul_y, hmul_z, V3.zero, mul_zero, mul_one, sub_zero, zero_sub, neg_eq_zero,
      mul_eq_zero, div_eq_zero_iff, one_ne_zero, hl.ne', false_or] at x2 x3
    simp only [gradAt, mul_eq_zero, div_eq_zero_iff, hm, r1.ne', r2.ne', r3.ne', or_false] at x2 x3
    have s1 := sin_sq_add_cos_sq (v * π)
    have s2 := sin_sq_add_cos_sq (u * 2 * π - π)
    rw [x2] at s1
    have hsv : sin (v * π) ^ 2 = 1 := by linarith
    rcases x3 with h' | h'
    · rw [h'] at hsv; norm_num at hsv
    · have hcu : cos (u * 2 * π - π) ^ 2 = 1 := by rw [h'] at s2; linarith
      have : dpduSq r u v = r.y ^ 2 := by
        unfold dpduSq; rw [h']; simp only [mul_pow, hsv, hcu]; ring
      rw [this] at h
      nlinarith
  rw [normalize?_of_ne hcne, Option.map_some] at hsurf
  exact ⟨_, hsurf, dot_normalize hg, by simp [dot], dot_normalize hcne⟩

/-- **C67, the promise about frames in full.** -/
def C67_full : Prop := ∀ (r : V3), Positive r → ∀ u v, ∃ s, surface r u v = some s ∧ Orthonormal s.tangent s.bitangent s.normal

/-- **C67 does not hold in full**: next to the pole of a sphere of one metre the tangent is not perpendicular to the normal. -/
theorem C67_violated : ¬ C67_full := by
  intro h
  have hpi := pi_pos
  -- half way round, 2e-5 radians from the pole
  obtain ⟨s, hs, ho⟩ := h ⟨1, 1, 1⟩ ⟨one_pos, one_pos, one_pos⟩ (1 / 2) (2e-5 / π)
  have e1 : (1 / 2 : ℝ) * 2 * π - π = 0 := by ring
  have e2 : 2e-5 / π * π = 2e-5 := by field_simp
  have hs1 : 0 < sin (2e-5 : ℝ) := sin_pos_of_pos_of_lt_pi (by norm_num) (by linarith [pi_gt_three])
  have hs2 : sin (2e-5 : ℝ) < 2e-5 := sin_lt (by norm_num)
  have hlt : sin (2e-5 : ℝ) * sin 2e-5 < 1e-8 := by nlinarith
  simp only [surface, e1, e2, sin_zero, cos_zero, mul_zero, mul_one, one_mul, rMax, max_self, div_one, dot, zero_mul,
    add_zero, zero_add, if_pos hlt, Option.bind_eq_some_iff, Option.map_eq_some_iff] at hs
  obtain ⟨n, hn, t, ht, b, hb, rfl⟩ := hs
  have htn := ho.tn
  obtain ⟨_, _, rfl⟩ := normalize?_some hn
  obtain ⟨_, _, rfl⟩ := normalize?_some ht
  have hgz : (⟨sin (2e-5 : ℝ), 0, cos (2e-5 : ℝ)⟩ : V3) ≠ V3.zero := (normalize?_some hn).2.1
  have hl := len_pos hgz
  have hl2 : 0 < len (⟨1, 0, 0⟩ : V3) := by
    apply len_pos; intro e; have := congrArg V3.x e; simp [V3.zero] at this
  simp only [V3.normalize_eq, dot, hmul_x, hmul_y, hmul_z, mul_zero, mul_one, add_zero] at htn
  have : 0 < 1 / len (⟨1, 0, 0⟩ : V3) * (1 / len (⟨sin (2e-5 : ℝ), 0, cos (2e-5 : ℝ)⟩ : V3) * sin 2e-5) := by positivity
  linarith

/-- **C67.**  An ellipsoid of less than a tenth of a millimetre: where its first axis leaves the surface the tangent is
parallel to the normal and the bitangent is 0/0. -/
theorem C67_tiny (r : V3) (hr : Positive r) (hy : r.y < 1e-4) : surface r (1 / 2) (1 / 2) = none := by
  have hm := rMax_pos hr
  obtain ⟨r1, r2, r3⟩ := hr
  have e1 : (1 / 2 : ℝ) * 2 * π - π = 0 := by ring
  have e2 : (1 / 2 : ℝ) * π = π / 2 := by ring
  have hlt : r.y * r.y < 1e-8 := by nlinarith
  simp only [surface, e1, e2, sin_pi_div_two, cos_pi_div_two, sin_zero, cos_zero, mul_zero, mul_one, one_mul, zero_mul, dot,
    add_zero, zero_add, if_pos hlt]
  have h1 : (⟨1, 0, 0⟩ : V3) ≠ V3.zero := by intro e; have := congrArg V3.x e; simp [V3.zero] at this
  have h2 : (⟨rMax r / r.x, 0, 0⟩ : V3) ≠ V3.zero := by
    intro e; have := congrArg V3.x e; simp [V3.zero, hm.ne', r1.ne'] at this
  rw [normalize?_of_ne h2, Option.bind_some, normalize?_of_ne h1, Option.bind_some]
  have h3 : V3.cross (V3.normalize ⟨rMax r / r.x, 0, 0⟩) (V3.normalize ⟨1, 0, 0⟩) = V3.zero := by
    ext <;> simp [cross, V3.normalize_eq, V3.zero]
  rw [h3]; simp [V3.normalize?, dot, V3.zero]

/-- A hit rejected by a filter leaves its identifiers in the record although the ray's extent is restored: with a filter that
rejects everything, a ray that meets the ellipsoid is still reported as a hit (no filter is installed by the present code). -/
theorem C67_rejected_hits (r : V3) (hr : Positive r) (ray : Ray) (hd : ray.d ≠ V3.zero) (neg : Bool)
    (hn : SignBit neg (dot (scaled r ray.o) (unitDir r ray))) (t : ℝ) (ht : Meets r ray t) :
    ∃ h, intersect r ray neg (fun _ => false) false = ⟨some ray.tfar, some h⟩ := by
  have hs := roots_spec hr hd hn
  unfold intersect
  rcases hroots : roots r ray neg with _ | ⟨t0, _ | t1⟩
  · rw [hroots] at hs; exact absurd ht.2.2 (hs t)
  · exact ⟨_, by simp only [testHit]; split_ifs <;> first | rfl | (simp at *)⟩
  · rw [hroots] at hs
    by_cases h1 : t0 < ray.tnear ∨ (t0 : WithTop ℝ) > ray.tfar
    · have h2 : ¬ (t1 < ray.tnear ∨ (t1 : WithTop ℝ) > ray.tfar) := by
        rcases (hs.2 t).mp ht.2.2 with rfl | rfl
        · rcases h1 with h | h
          · exact absurd ht.1 (not_le.mpr h)
          · exact absurd ht.2.1 (not_le.mpr h)
        · push Not; exact ⟨ht.1, ht.2.1⟩
      exact ⟨_, by simp only [testHit, if_pos h1, if_neg h2, Bool.false_eq_true, if_false]; rfl⟩
    · by_cases h2 : t1 < ray.tnear ∨ (t1 : WithTop ℝ) > ray.tfar
      · exact ⟨_, by simp only [testHit, if_neg h1, if_pos h2, Bool.false_eq_true, if_false]; rfl⟩
      · exact ⟨_, by simp only [testHit, if_neg h1, if_neg h2, Bool.false_eq_true, if_false]; rfl⟩

/-- The hypotheses are met by a ray along the axis of an ellipsoid: it enters at 3 = 5 - 2. -/
example : OnSurface ⟨1, 3, 2⟩ (along ⟨⟨0, 0, -5⟩, ⟨0, 0, 1⟩, 0, ⊤⟩ 3) ∧ Meets ⟨1, 3, 2⟩ ⟨⟨0, 0, -5⟩, ⟨0, 0, 1⟩, 0, ⊤⟩ 3 ∧
    SignBit true (dot (scaled ⟨1, 3, 2⟩ ⟨0, 0, -5⟩) (unitDir ⟨1, 3, 2⟩ ⟨⟨0, 0, -5⟩, ⟨0, 0, 1⟩, 0, ⊤⟩)) := by
  have h1 : OnSurface ⟨1, 3, 2⟩ (along ⟨⟨0, 0, -5⟩, ⟨0, 0, 1⟩, 0, ⊤⟩ 3) := by simp [OnSurface, along]; norm_num
  have hp : Positive ⟨1, 3, 2⟩ := ⟨by norm_num, by norm_num, by norm_num⟩
  have hd : (⟨⟨0, 0, -5⟩, ⟨0, 0, 1⟩, 0, ⊤⟩ : Ray).d ≠ V3.zero := by
    intro e; have := congrArg V3.z e; simp [V3.zero] at this
  have hL := speed_pos hp hd
  refine ⟨h1, ⟨by norm_num, le_top, h1⟩, fun _ => rfl, fun h => ?_⟩
  simp only [unitDir, dot, hmul_x, hmul_y, hmul_z, scaled, cmul, invR] at h
  have : 0 < 1 / speed ⟨1, 3, 2⟩ ⟨⟨0, 0, -5⟩, ⟨0, 0, 1⟩, 0, ⊤⟩ := by positivity
  nlinarith

end
end Huira.Ellipsoid
