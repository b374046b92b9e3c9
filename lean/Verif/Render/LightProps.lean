import Mathlib.Tactic.Positivity
import Mathlib.Analysis.Real.Pi.Bounds
import Verif.Render.LightModel
set_option linter.unusedSimpArgs false
/-!
# C81: sphere lights
-/
namespace Huira.Light
noncomputable section
open Classical

theorem unit_scale (wc : V3) (h : wc ≠ V3.zero) :
    V3.dot ((1 / Real.sqrt (V3.dot wc wc)) * wc) ((1 / Real.sqrt (V3.dot wc wc)) * wc) = 1 := V3.dot_normalize h

/-- The frame around a unit vector is orthonormal. -/
theorem axisU_spec (w : V3) (hw : V3.dot w w = 1) : V3.dot (axisU w) (axisU w) = 1 ∧ V3.dot (axisU w) w = 0 := by
  unfold axisU
  have hw' := hw
  simp only [V3.dot] at hw'
  by_cases h : |w.z| < 999 / 1000
  · rw [if_pos h]
    have hz : w.z * w.z < 1 := by
      have := abs_lt.1 h
      nlinarith
    have hne : (⟨-w.y, w.x, 0⟩ : V3) ≠ V3.zero := by
      intro e
      have e1 := congrArg V3.x e
      have e2 := congrArg V3.y e
      simp only [V3.zero] at e1 e2
      have : w.y = 0 := by linarith
      rw [this, e2] at hw'
      linarith
    refine ⟨V3.dot_normalize hne, ?_⟩
    rw [V3.normalize_eq, V3.dot_smul_left]
    simp only [V3.dot]
    ring
  · rw [if_neg h]
    have hz : 0 < |w.z| := by
      have := not_lt.1 h
      linarith
    have hne : (⟨0, -w.z, w.y⟩ : V3) ≠ V3.zero := by
      intro e
      have e1 := congrArg V3.y e
      simp only [V3.zero] at e1
      have : w.z = 0 := by linarith
      rw [this] at hz
      simp at hz
    refine ⟨V3.dot_normalize hne, ?_⟩
    rw [V3.normalize_eq, V3.dot_smul_left]
    simp only [V3.dot]
    ring

theorem cross_frame (w u : V3) (hw : V3.dot w w = 1) (hu : V3.dot u u = 1) (h : V3.dot u w = 0) :
    V3.dot (V3.cross w u) (V3.cross w u) = 1 ∧ V3.dot (V3.cross w u) w = 0 ∧ V3.dot (V3.cross w u) u = 0 := by
  simp only [V3.dot, V3.cross] at *
  refine ⟨?_, by ring, by ring⟩
  have : (w.y * u.z - w.z * u.y) * (w.y * u.z - w.z * u.y) + (w.z * u.x - w.x * u.z) * (w.z * u.x - w.x * u.z) +
      (w.x * u.y - w.y * u.x) * (w.x * u.y - w.y * u.x) =
      (w.x * w.x + w.y * w.y + w.z * w.z) * (u.x * u.x + u.y * u.y + u.z * u.z) -
      (u.x * w.x + u.y * w.y + u.z * w.z) * (u.x * w.x + u.y * w.y + u.z * w.z) := by ring
  rw [this, hw, hu, h]; ring

theorem cosMax_spec (r d2 : ℝ) (hr : 0 < r) (hd : r * r < d2) :
    0 < cosMax r d2 ∧ cosMax r d2 < 1 ∧ cosMax r d2 * cosMax r d2 = 1 - r * r / d2 := by
  have hd0 : 0 < d2 := lt_trans (mul_pos hr hr) hd
  have h1 : 0 < 1 - r * r / d2 := by
    rw [sub_pos, div_lt_one hd0]; exact hd
  have h2 : 0 < r * r / d2 := div_pos (mul_pos hr hr) hd0
  have hm : max 0 (1 - r * r / d2) = 1 - r * r / d2 := max_eq_right h1.le
  unfold cosMax
  rw [hm]
  refine ⟨Real.sqrt_pos.2 h1, ?_, Real.mul_self_sqrt h1.le⟩
  rw [Real.sqrt_lt' one_pos]
  linarith

theorem solidAngle_pos (r d2 : ℝ) (hr : 0 < r) (hd : r * r < d2) : 0 < solidAngle r d2 := by
  obtain ⟨h1, h2, _⟩ := cosMax_spec r d2 hr hd
  have hd0 : 0 < d2 := lt_trans (mul_pos hr hr) hd
  unfold solidAngle
  simp only []
  split
  · have := Real.pi_pos; positivity
  · have := Real.pi_pos
    have : 0 < 1 - cosMax r d2 := by linarith
    positivity

/-- The direction of a sample in the cone's frame. -/
theorem sample_dir (w : V3) (hw : V3.dot w w = 1) (ct phi : ℝ) (h0 : 0 ≤ ct) (h1 : ct ≤ 1) :
    let st := Real.sqrt (max 0 (1 - ct * ct))
    let wi := (st * Real.cos phi) * axisU w + (st * Real.sin phi) * V3.cross w (axisU w) + ct * w
    V3.dot wi wi = 1 ∧ V3.dot w wi = ct := by
  obtain ⟨hu1, hu2⟩ := axisU_spec w hw
  obtain ⟨hv1, hv2, hv3⟩ := cross_frame w (axisU w) hw hu1 hu2
  have hs : Real.sqrt (max 0 (1 - ct * ct)) * Real.sqrt (max 0 (1 - ct * ct)) = 1 - ct * ct := by
    rw [max_eq_right (by nlinarith)]
    exact Real.mul_self_sqrt (by nlinarith)
  have hcs := Real.sin_sq_add_cos_sq phi
  simp only []
  set st := Real.sqrt (max 0 (1 - ct * ct))
  set u := axisU w
  set v := V3.cross w u
  constructor
  · have e : V3.dot ((st * Real.cos phi) * u + (st * Real.sin phi) * v + ct * w)
        ((st * Real.cos phi) * u + (st * Real.sin phi) * v + ct * w) =
        (st * st) * (Real.cos phi ^ 2 * V3.dot u u + Real.sin phi ^ 2 * V3.dot v v) + ct * ct * V3.dot w w +
        2 * (st * st) * Real.cos phi * Real.sin phi * V3.dot v u + 2 * st * Real.cos phi * ct * V3.dot u w +
        2 * st * Real.sin phi * ct * V3.dot v w := by
      simp only [V3.dot, V3.add_x, V3.add_y, V3.add_z, V3.hmul_x, V3.hmul_y, V3.hmul_z]; ring
    rw [e, hu1, hv1, hw, hv3, hu2, hv2, hs]
    have : Real.cos phi ^ 2 * 1 + Real.sin phi ^ 2 * 1 = 1 := by linarith
    rw [this]; ring
  · have e : V3.dot w ((st * Real.cos phi) * u + (st * Real.sin phi) * v + ct * w) =
        st * Real.cos phi * V3.dot u w + st * Real.sin phi * V3.dot v w + ct * V3.dot w w := by
      simp only [V3.dot, V3.add_x, V3.add_y, V3.add_z, V3.hmul_x, V3.hmul_y, V3.hmul_z]; ring
    rw [e, hu2, hv2, hw]; ring

/-- **C81, samples.** For every point outside a sphere light and all random numbers in [0, 1]: a sample is returned; its
direction is a unit vector; following it for the returned (positive) distance ends on the sphere; its density is positive
and is what `pdf_li` reports for that direction. -/
theorem C81_sample (r : ℝ) (c p : V3) (u1 u2 : ℝ) (hr : 0 < r)
    (hout : r * r < V3.dot (c - p) (c - p)) (h0 : 0 ≤ u1) (h1 : u1 ≤ 1) :
    ∃ s, sampleLi r c p u1 u2 = some s ∧ V3.dot s.wi s.wi = 1 ∧ 0 < s.distance ∧
      V3.dot (p + s.distance * s.wi - c) (p + s.distance * s.wi - c) = r * r ∧
      0 < s.pdf ∧ pdfLi r c p s.wi = s.pdf := by
  set wc := c - p with hwc
  set d2 := V3.dot wc wc with hd2
  have hd20 : 0 < d2 := lt_trans (mul_pos hr hr) hout
  have hne : wc ≠ V3.zero := by
    intro e; rw [hd2, e] at hd20; simp [V3.dot, V3.zero] at hd20
  have hdpos : 0 < Real.sqrt d2 := Real.sqrt_pos.2 hd20
  have hdsq : Real.sqrt d2 * Real.sqrt d2 = d2 := Real.mul_self_sqrt hd20.le
  have hnd : ¬ Real.sqrt d2 ≤ r := by
    intro h; nlinarith
  obtain ⟨c1, c2, c3⟩ := cosMax_spec r d2 hr hout
  set cm := cosMax r d2
  set ct := (1 - u1) + u1 * cm with hct
  have hctl : cm ≤ ct := by rw [hct]; nlinarith
  have hct1 : ct ≤ 1 := by rw [hct]; nlinarith
  have hct0 : 0 ≤ ct := by linarith
  set w := (1 / Real.sqrt d2) * wc with hw
  have hwu : V3.dot w w = 1 := unit_scale wc hne
  obtain ⟨hd1, hd2'⟩ := sample_dir w hwu ct (u2 * 2 * Real.pi) hct0 hct1
  set wi := (Real.sqrt (max 0 (1 - ct * ct)) * Real.cos (u2 * 2 * Real.pi)) * axisU w +
    (Real.sqrt (max 0 (1 - ct * ct)) * Real.sin (u2 * 2 * Real.pi)) * V3.cross w (axisU w) + ct * w with hwi
  set b := V3.dot wc wi with hb
  have hbv : b = Real.sqrt d2 * ct := by
    have : V3.dot w wi = (1 / Real.sqrt d2) * b := by rw [hw, V3.dot_smul_left]
    rw [this] at hd2'
    have h3 : b = Real.sqrt d2 * ((1 / Real.sqrt d2) * b) := by field_simp
    rw [h3, hd2']
  have hct2 : 1 - r * r / d2 ≤ ct * ct := by rw [← c3]; nlinarith
  have hdisc : 0 ≤ b * b - d2 + r * r := by
    have e : b * b = d2 * (ct * ct) := by
      rw [hbv]; linear_combination (ct * ct) * hdsq
    have h4 : d2 * (1 - r * r / d2) ≤ d2 * (ct * ct) := mul_le_mul_of_nonneg_left hct2 hd20.le
    have h5 : d2 * (1 - r * r / d2) = d2 - r * r := by field_simp
    rw [e]; linarith
  have hmax : max 0 (b * b - d2 + r * r) = b * b - d2 + r * r := max_eq_right hdisc
  have hq := Real.mul_self_sqrt hdisc
  set q := Real.sqrt (b * b - d2 + r * r) with hqd
  have hq0 : 0 ≤ q := Real.sqrt_nonneg _
  have hb0 : 0 < b := by rw [hbv]; exact mul_pos hdpos (lt_of_lt_of_le c1 hctl)
  have hqb : q < b := by nlinarith
  refine ⟨⟨wi, 1 / solidAngle r d2, b - Real.sqrt (max 0 (b * b - d2 + r * r))⟩, ?_, hd1, ?_, ?_, ?_, ?_⟩
  · unfold sampleLi
    simp only [← hwc, ← hd2]
    rw [if_neg hnd]
  · simp only [hmax]; linarith
  · simp only [hmax]
    set D := b - q with hD
    have e : V3.dot (p + D * wi - c) (p + D * wi - c) = D * D * V3.dot wi wi - 2 * D * b + d2 := by
      rw [hb, hd2, hwc]
      simp only [V3.dot, V3.add_x, V3.add_y, V3.add_z, V3.sub_x, V3.sub_y, V3.sub_z, V3.hmul_x, V3.hmul_y, V3.hmul_z]
      ring
    rw [e, hd1, hD]
    nlinarith
  · have := solidAngle_pos r d2 hr hout
    simp only []
    positivity
  · unfold pdfLi
    simp only [← hwc, ← hd2]
    rw [if_neg (not_le.2 hout), if_neg]
    have : V3.dot wi (V3.normalize wc) = ct := by rw [V3.dot_comm]; exact hd2'
    rw [this]
    exact not_lt.2 hctl

/-- **C81, uniform over the cone.** The sampled direction makes an angle with cosine at least `k` with the axis exactly
when `u1` is at most the solid angle of that narrower cone times the reported density: the samples are uniform over the
visible cap. (Away from the small-angle fallback.) -/
theorem C81_uniform (r d2 u1 k : ℝ) (hr : 0 < r) (hd : r * r < d2)
    (hbig : 1 / 10000000 ≤ 2 * Real.pi * (1 - cosMax r d2)) :
    k ≤ (1 - u1) + u1 * cosMax r d2 ↔ u1 ≤ 2 * Real.pi * (1 - k) * (1 / solidAngle r d2) := by
  obtain ⟨c1, c2, _⟩ := cosMax_spec r d2 hr hd
  have hs : solidAngle r d2 = 2 * Real.pi * (1 - cosMax r d2) := by
    unfold solidAngle; simp only []; rw [if_neg (not_lt.2 hbig)]
  have hp := Real.pi_pos
  have hpos : 0 < 2 * Real.pi * (1 - cosMax r d2) := by
    have : 0 < 1 - cosMax r d2 := by linarith
    positivity
  rw [hs, mul_one_div, le_div_iff₀ hpos]
  have hp2 : 0 < 2 * Real.pi := by positivity
  constructor
  · intro h
    have : u1 * (1 - cosMax r d2) ≤ 1 - k := by linarith
    calc u1 * (2 * Real.pi * (1 - cosMax r d2)) = 2 * Real.pi * (u1 * (1 - cosMax r d2)) := by ring
      _ ≤ 2 * Real.pi * (1 - k) := mul_le_mul_of_nonneg_left this hp2.le
  · intro h
    have h2 : 2 * Real.pi * (u1 * (1 - cosMax r d2)) ≤ 2 * Real.pi * (1 - k) := by linarith
    have := le_of_mul_le_mul_left h2 hp2
    linarith

/-- **C81, inside.** From inside the light (or on its surface) nothing is sampled and the density and irradiance are 0. -/
theorem C81_inside (r L : ℝ) (c p wi : V3) (u1 u2 : ℝ) (hr : 0 < r) (hin : V3.dot (c - p) (c - p) ≤ r * r) :
    sampleLi r c p u1 u2 = none ∧ pdfLi r c p wi = 0 ∧ irradianceAt r L c p = 0 := by
  refine ⟨?_, ?_, ?_⟩
  · unfold sampleLi
    simp only []
    rw [if_pos]
    rw [← Real.sqrt_mul_self hr.le]
    exact Real.sqrt_le_sqrt hin
  · unfold pdfLi; simp only []; rw [if_pos hin]
  · unfold irradianceAt; simp only []; rw [if_pos hin]

/-- Directions outside the cone of the light have density 0, those inside a positive one: `pdf_li` is positive exactly for
unit directions whose ray meets the sphere in front. -/
theorem C81_pdf_support (r : ℝ) (c p wi : V3) (hr : 0 < r) (hout : r * r < V3.dot (c - p) (c - p))
    (hwi : V3.dot wi wi = 1) :
    0 < pdfLi r c p wi ↔ ∃ t : ℝ, 0 < t ∧ V3.dot (p + t * wi - c) (p + t * wi - c) = r * r := by
  set wc := c - p with hwc
  set d2 := V3.dot wc wc with hd2
  have hd20 : 0 < d2 := lt_trans (mul_pos hr hr) hout
  have hdpos : 0 < Real.sqrt d2 := Real.sqrt_pos.2 hd20
  have hdsq : Real.sqrt d2 * Real.sqrt d2 = d2 := Real.mul_self_sqrt hd20.le
  obtain ⟨c1, c2, c3⟩ := cosMax_spec r d2 hr hout
  have hsa := solidAngle_pos r d2 hr hout
  have hb : V3.dot wc wi = Real.sqrt d2 * V3.dot wi (V3.normalize wc) := by
    rw [V3.normalize_eq, V3.dot_smul_right, V3.dot_comm wi wc]
    have : V3.len wc = Real.sqrt d2 := rfl
    rw [this]; field_simp
  have hexp : ∀ t : ℝ, V3.dot (p + t * wi - c) (p + t * wi - c) = t * t - 2 * t * V3.dot wc wi + d2 := by
    intro t
    have e : V3.dot (p + t * wi - c) (p + t * wi - c) = t * t * V3.dot wi wi - 2 * t * V3.dot wc wi + d2 := by
      rw [hd2, hwc]
      simp only [V3.dot, V3.add_x, V3.add_y, V3.add_z, V3.sub_x, V3.sub_y, V3.sub_z, V3.hmul_x, V3.hmul_y, V3.hmul_z]
      ring
    rw [e, hwi]; ring
  have hd2cm : d2 * (cosMax r d2 * cosMax r d2) = d2 - r * r := by rw [c3]; field_simp
  unfold pdfLi
  simp only [← hwc, ← hd2]
  rw [if_neg (not_le.2 hout)]
  set ct := V3.dot wi (V3.normalize wc)
  constructor
  · intro h
    by_cases hc : ct < cosMax r d2
    · rw [if_pos hc] at h; exact absurd h (lt_irrefl _)
    · have hc := not_lt.1 hc
      have hct : cosMax r d2 * cosMax r d2 ≤ ct * ct := by nlinarith
      have h4 : d2 * (cosMax r d2 * cosMax r d2) ≤ d2 * (ct * ct) := mul_le_mul_of_nonneg_left hct hd20.le
      have e : V3.dot wc wi * V3.dot wc wi = d2 * (ct * ct) := by
        rw [hb]; linear_combination (ct * ct) * hdsq
      have hdisc : 0 ≤ V3.dot wc wi * V3.dot wc wi - d2 + r * r := by rw [e]; linarith
      have hb0 : 0 < V3.dot wc wi := by rw [hb]; exact mul_pos hdpos (lt_of_lt_of_le c1 hc)
      have hq := Real.mul_self_sqrt hdisc
      have hq0 := Real.sqrt_nonneg (V3.dot wc wi * V3.dot wc wi - d2 + r * r)
      refine ⟨V3.dot wc wi + Real.sqrt (V3.dot wc wi * V3.dot wc wi - d2 + r * r), by linarith, ?_⟩
      rw [hexp]
      nlinarith
  · rintro ⟨t, ht, h⟩
    rw [hexp] at h
    have hb0 : 0 < V3.dot wc wi := by nlinarith
    have hdisc : d2 - r * r ≤ V3.dot wc wi * V3.dot wc wi := by nlinarith [mul_self_nonneg (t - V3.dot wc wi)]
    have e : V3.dot wc wi * V3.dot wc wi = d2 * (ct * ct) := by
      rw [hb]; linear_combination (ct * ct) * hdsq
    have hct0 : 0 < ct := by
      rw [hb] at hb0
      by_contra hn
      nlinarith
    have hge : cosMax r d2 ≤ ct := by
      by_contra hn
      have hn := not_le.1 hn
      have : ct * ct < cosMax r d2 * cosMax r d2 := by nlinarith
      nlinarith
    rw [if_neg (not_lt.2 hge)]
    positivity

/-- **C81, power.** A light set up with power P emits P: radiance times pi times its surface is P; its irradiance at
distance d is P / (4 pi d^2); invalid powers are refused. -/
theorem C81_power (r0 P : ℝ) (hP : 0 ≤ P) :
    ∃ L : ℝ, setPower (radiusOf r0) (.fin P) = some (.fin L) ∧
      L * Real.pi * (4 * Real.pi * radiusOf r0 ^ 2) = P ∧
      ∀ c p : V3, radiusOf r0 * radiusOf r0 < V3.dot (c - p) (c - p) →
        irradianceAt (radiusOf r0) L c p = P / (4 * Real.pi * V3.dot (c - p) (c - p)) := by
  have hr : 0 < radiusOf r0 := lt_of_lt_of_le (by norm_num) (le_max_right _ _)
  have hp := Real.pi_pos
  have hden : Real.pi * (4 * Real.pi * radiusOf r0 * radiusOf r0) ≠ 0 := by positivity
  refine ⟨P / (Real.pi * (4 * Real.pi * radiusOf r0 * radiusOf r0)), ?_, ?_, ?_⟩
  · unfold setPower
    rw [if_neg]
    · rw [XF.div_fin _ _ hden]
    · simp only [XF.lt, XF.isNan, XF.isInf, or_false, not_lt]; exact hP
  · field_simp
  · intro c p h
    have hd0 : 0 < V3.dot (c - p) (c - p) := lt_trans (mul_pos hr hr) h
    unfold irradianceAt
    simp only []
    rw [if_neg (not_le.2 h)]
    field_simp

/-- C81: the radius of a light is the one given, but at least 1e-5. -/
theorem C81_radius (r : ℝ) : (1e-5 ≤ r → radiusOf r = r) ∧ (r < 1e-5 → radiusOf r = 1e-5) := by
  unfold radiusOf
  constructor
  · intro h; exact max_eq_left (by norm_num at h ⊢; linarith)
  · intro h; rw [max_eq_right (by norm_num at h ⊢; linarith)]; norm_num

theorem C81_power_refused (r : ℝ) (x : XF) : setPower r x = none ↔ ¬ ∃ P : ℝ, x = .fin P ∧ 0 ≤ P := by
  unfold setPower
  constructor
  · intro h
    rintro ⟨P, rfl, hP⟩
    rw [if_neg] at h
    · simp at h
    · simp only [XF.lt, XF.isNan, XF.isInf, or_false, not_lt]; exact hP
  · intro h
    rw [if_pos]
    cases x with
    | nan => simp [XF.isNan]
    | ninf => simp [XF.isInf]
    | pinf => simp [XF.isInf]
    | fin P =>
      left
      by_contra hn
      exact h ⟨P, rfl, not_lt.1 hn⟩

/-- **C81, far lights.** The solid angle the densities are made of is that of the cone around the sphere, to one part in a
hundred million, however small the light looks. -/
theorem C81_far (r d2 : ℝ) (hr : 0 < r) (hd : r * r < d2) :
    |solidAngle r d2 - 2 * Real.pi * (1 - cosMax r d2)| ≤ 1 / 100000000 * (2 * Real.pi * (1 - cosMax r d2)) := by
  obtain ⟨c1, c2, c3⟩ := cosMax_spec r d2 hr hd
  have hp := Real.pi_gt_three
  have hS : 0 < 2 * Real.pi * (1 - cosMax r d2) := by
    have : 0 < 1 - cosMax r d2 := by linarith
    positivity
  unfold solidAngle
  simp only []
  split
  · rename_i hs
    have q : r * r / d2 = (1 - cosMax r d2) * (1 + cosMax r d2) := by linarith
    rw [q, abs_le]
    have e : Real.pi * ((1 - cosMax r d2) * (1 + cosMax r d2)) - 2 * Real.pi * (1 - cosMax r d2) =
        -((2 * Real.pi * (1 - cosMax r d2)) * ((1 - cosMax r d2) / 2)) := by ring
    rw [e]
    have h1 : (1 - cosMax r d2) / 2 ≤ 1 / 100000000 := by nlinarith
    have h0 : 0 ≤ (1 - cosMax r d2) / 2 := by linarith
    constructor <;> nlinarith
  · rw [sub_self, abs_zero]; positivity

/-- Non-vacuity: a light of radius 1 at a distance of 10000, which uses the fallback. -/
example : (1 : ℝ) * 1 < 100000000 ∧ 2 * Real.pi * (1 - cosMax 1 100000000) < 1 / 10000000 := by
  obtain ⟨h1, h2, h3⟩ := cosMax_spec 1 100000000 one_pos (by norm_num)
  have hp := Real.pi_lt_d2
  have hp0 := Real.pi_pos
  refine ⟨by norm_num, ?_⟩
  have : 1 - 1 / 100000000 ≤ cosMax 1 100000000 := by nlinarith
  nlinarith

/-- A light of radius 1 at distance 2 satisfies the hypotheses; away from the fallback (cos^2 = 3/4). -/
example : (1 : ℝ) * 1 < V3.dot ((⟨2, 0, 0⟩ : V3) - ⟨0, 0, 0⟩) (⟨2, 0, 0⟩ - ⟨0, 0, 0⟩) := by
  simp [V3.dot]; norm_num
example : (1 : ℝ) / 10000000 ≤ 2 * Real.pi * (1 - cosMax 1 4) := by
  obtain ⟨h1, h2, h3⟩ := cosMax_spec 1 4 one_pos (by norm_num)
  have hp := Real.pi_gt_three
  have : cosMax 1 4 ≤ 9 / 10 := by nlinarith
  nlinarith

end
end Huira.Light
