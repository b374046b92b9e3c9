import Verif.Camera.GeometryProps
import Mathlib.Analysis.SpecialFunctions.Trigonometric.Basic
import Mathlib.Algebra.BigOperators.Group.Finset.Sigma
import Mathlib.Algebra.Order.BigOperators.Group.Finset
set_option linter.unusedSimpArgs false
/-!
# Aperture, depth of field, blur kernels (C44, C53, C77)

`include/huira_impl/cameras/apertures/{aperture,circular_aperture}.ipp`, `include/huira_impl/cameras/psfs/psf.ipp`,
`camera_model.ipp` 486-509, 573-596. Exact real arithmetic.
-/
namespace Huira.Camera
noncomputable section
open Classical Finset

/-! ### Circular aperture and f-stop -/

/-- Members of `CircularAperture` (circular_aperture.hpp) -/
structure Circular where
  area : ℝ
  diameter : ℝ
  radius : ℝ

/-- `CircularAperture::set_area` (circular_aperture.ipp 34-40) -/
def setArea (a : ℝ) : Circular :=
  let d := Real.sqrt (4 * a / Real.pi)
  ⟨a, d, d / 2⟩
/-- `CircularAperture::set_diameter` (circular_aperture.ipp 73-79) -/
def setDiameter (d : ℝ) : Circular := ⟨Real.pi * (d * d) / 4, d, d / 2⟩
/-- `CameraModel::set_fstop` (camera_model.ipp 573-577) -/
def setFstop (focal n : ℝ) : Circular :=
  let d := focal / n
  setArea (Real.pi * (d * d) / 4)
/-- `CameraModel::fstop` (camera_model.ipp 591-596) -/
def fstop (focal : ℝ) (a : Circular) : ℝ := focal / (2 * Real.sqrt (a.area / Real.pi))

/-- What a circle is: area π r² and diameter 2 r. -/
def IsCircle (a : Circular) : Prop := a.area = Real.pi * a.radius ^ 2 ∧ a.diameter = 2 * a.radius

/-- **C44, aperture.** Every non-negative area or diameter leaves a consistent circle that reads back the value set. -/
theorem C44_aperture_consistent (v : ℝ) (hv : 0 ≤ v) :
    IsCircle (setArea v) ∧ (setArea v).area = v ∧ IsCircle (setDiameter v) ∧ (setDiameter v).diameter = v := by
  have hpi := Real.pi_pos
  refine ⟨⟨?_, ?_⟩, rfl, ⟨?_, ?_⟩, rfl⟩
  · simp only [setArea]
    have : (0 : ℝ) ≤ 4 * v / Real.pi := by positivity
    rw [div_pow, Real.sq_sqrt this]; field_simp; ring
  · simp [setArea]; ring
  · simp only [setDiameter]; ring
  · simp [setDiameter]; ring

/-- **C44, f-stop.** For every focal length and f-number, both positive: after `set_fstop(n)` the aperture is a circle of
diameter f/n and `fstop()` returns n. -/
theorem C44_fstop_readback (f n : ℝ) (hf : 0 < f) (hn : 0 < n) :
    (setFstop f n).diameter = f / n ∧ fstop f (setFstop f n) = n ∧ IsCircle (setFstop f n) := by
  have hpi := Real.pi_pos
  have hd : 0 < f / n := by positivity
  refine ⟨?_, ?_, (C44_aperture_consistent _ (by positivity)).1⟩
  · simp only [setFstop, setArea]
    have : 4 * (Real.pi * (f / n * (f / n)) / 4) / Real.pi = f / n * (f / n) := by field_simp
    rw [this, Real.sqrt_mul_self hd.le]
  · simp only [fstop, setFstop, setArea]
    have : Real.pi * (f / n * (f / n)) / 4 / Real.pi = f / n / 2 * (f / n / 2) := by field_simp; ring
    rw [this, Real.sqrt_mul_self (by positivity)]
    field_simp
example : fstop (1/20) (setFstop (1/20) 2.8) = 2.8 := (C44_fstop_readback _ _ (by norm_num) (by norm_num)).2.1

/-- A negative f-number is accepted and read back without its sign. -/
theorem C44_negative_fstop (f n : ℝ) (hf : 0 < f) (hn : 0 < n) : fstop f (setFstop f (-n)) = n := by
  have : setFstop f (-n) = setFstop f n := by
    unfold setFstop
    have : f / -n * (f / -n) = f / n * (f / n) := by rw [div_neg]; ring
    simp only [this]
  rw [this]; exact (C44_fstop_readback f n hf hn).2.1

/-! ### Depth of field -/

/-- `CircularAperture::sample` (circular_aperture.ipp 43-63), the concentric map of two random numbers -/
def apertureSample (radius u v : ℝ) : ℝ × ℝ :=
  let a := 2 * u - 1
  let b := 2 * v - 1
  if a * a > b * b then
    let th := Real.pi / 4 * (b / a)
    (radius * a * Real.cos th, radius * a * Real.sin th)
  else if b ≠ 0 then
    let th := Real.pi / 2 - Real.pi / 4 * (a / b)
    (radius * b * Real.cos th, radius * b * Real.sin th)
  else (0, 0)

/-- The direction before the aperture is applied (camera_model.ipp 493-499): the distortion field's when a distortion is
set, otherwise the direction with unit depth. -/
def Lens.rawDirection (c : Lens) (u v : ℝ) : V3 :=
  match c.distortion with
  | none => c.pixelToDirection u v
  | some _ => (sampleField c.resX c.resY c.field (u / ((c.resX : ℝ) - 1)) (v / ((c.resY : ℝ) - 1))).getD V3.zero

/-- `cast_ray(pixel, sampler)` with depth of field on (camera_model.ipp 486-509); `focus = none` is an infinite focus
distance. Origin and direction. -/
def Lens.castRayDof (c : Lens) (u v : ℝ) (ap : ℝ × ℝ) (focus : Option ℝ) : V3 × V3 :=
  let dir := c.rawDirection u v
  let a : V3 := ⟨ap.1, ap.2, 0⟩
  match focus with
  | some d => (a, V3.normalize (d * dir - a))
  | none => (a, V3.normalize dir)

/-- **C77, aperture.** Every sampled lens point lies in the aperture disc. -/
theorem C77_sample_in_disc (r u v : ℝ) (hu0 : 0 ≤ u) (hu1 : u ≤ 1) (hv0 : 0 ≤ v) (hv1 : v ≤ 1) :
    (apertureSample r u v).1 ^ 2 + (apertureSample r u v).2 ^ 2 ≤ r ^ 2 := by
  have key : ∀ s th : ℝ, -1 ≤ s → s ≤ 1 → (r * s * Real.cos th) ^ 2 + (r * s * Real.sin th) ^ 2 ≤ r ^ 2 := by
    intro s th h0 h1
    have : (r * s * Real.cos th) ^ 2 + (r * s * Real.sin th) ^ 2 = r ^ 2 * s ^ 2 := by
      have := Real.sin_sq_add_cos_sq th
      calc _ = r ^ 2 * s ^ 2 * (Real.sin th ^ 2 + Real.cos th ^ 2) := by ring
        _ = _ := by rw [this, mul_one]
    rw [this]
    have hs : s ^ 2 ≤ 1 := by nlinarith
    nlinarith [sq_nonneg r]
  unfold apertureSample
  simp only
  split
  · exact key _ _ (by linarith) (by linarith)
  · split
    · exact key _ _ (by linarith) (by linarith)
    · simp; exact sq_nonneg r

/-- **C77, distribution over the aperture.** The two random numbers are mapped by the concentric map: with `a = 2u - 1`,
`b = 2v - 1`, squares around the centre go to circles (`max |a| |b|` becomes the relative distance from the centre, so
the area fractions agree), the map commutes with exchanging the axes (the diagonal goes to the diagonal) and with point
reflection, and in the quarter `|b| < a` the angle is proportional to `b / a`. -/
theorem C77_sample_concentric (r u v : ℝ) :
    (apertureSample r u v).1 ^ 2 + (apertureSample r u v).2 ^ 2 = r ^ 2 * max |2 * u - 1| |2 * v - 1| ^ 2 ∧
    apertureSample r v u = ((apertureSample r u v).2, (apertureSample r u v).1) ∧
    apertureSample r (1 - u) (1 - v) = (-(apertureSample r u v).1, -(apertureSample r u v).2) ∧
    (|2 * v - 1| < 2 * u - 1 → apertureSample r u v =
      (r * (2 * u - 1) * Real.cos (Real.pi / 4 * ((2 * v - 1) / (2 * u - 1))),
       r * (2 * u - 1) * Real.sin (Real.pi / 4 * ((2 * v - 1) / (2 * u - 1))))) := by
  have key : ∀ s th : ℝ, (r * s * Real.cos th) ^ 2 + (r * s * Real.sin th) ^ 2 = r ^ 2 * s ^ 2 := by
    intro s th
    have := Real.sin_sq_add_cos_sq th
    calc _ = r ^ 2 * s ^ 2 * (Real.sin th ^ 2 + Real.cos th ^ 2) := by ring
      _ = _ := by rw [this, mul_one]
  unfold apertureSample
  simp only
  have e1 : 2 * (1 - u) - 1 = -(2 * u - 1) := by ring
  have e2 : 2 * (1 - v) - 1 = -(2 * v - 1) := by ring
  rw [e1, e2]
  generalize 2 * u - 1 = a
  generalize 2 * v - 1 = b
  refine ⟨?_, ?_, ?_, ?_⟩
  · by_cases h : a * a > b * b
    · rw [if_pos h]
      have : |b| ≤ |a| := sq_le_sq.mp (by nlinarith)
      rw [max_eq_left this, key, sq_abs]
    · rw [if_neg h]
      have : |a| ≤ |b| := sq_le_sq.mp (by nlinarith)
      rw [max_eq_right this, sq_abs]
      by_cases hb : b = 0
      · rw [if_neg (by simpa using hb)]; rw [hb]; simp
      · rw [if_pos hb, key]
  · by_cases h : a * a > b * b
    · rw [if_pos h, if_neg (by linarith)]
      have ha : a ≠ 0 := by rintro rfl; nlinarith [mul_self_nonneg b]
      rw [if_pos ha]
      simp only [Real.cos_pi_div_two_sub, Real.sin_pi_div_two_sub]
    · rw [if_neg h]
      by_cases h2 : b * b > a * a
      · have hb : b ≠ 0 := by rintro rfl; nlinarith [mul_self_nonneg a]
        rw [if_pos h2, if_pos hb]
        simp only [Real.cos_pi_div_two_sub, Real.sin_pi_div_two_sub]
      · rw [if_neg h2]
        have heq : (a - b) * (a + b) = 0 := by nlinarith
        rcases mul_eq_zero.mp heq with hab | hab
        · have : a = b := by linarith
          subst this
          by_cases ha : a = 0
          · rw [if_neg (by simpa using ha)]
          · rw [if_pos ha, div_self ha]
            have : Real.pi / 2 - Real.pi / 4 * 1 = Real.pi / 4 := by ring
            rw [this, Real.cos_pi_div_four, Real.sin_pi_div_four]
        · have : a = -b := by linarith
          subst this
          by_cases ha : b = 0
          · simp [ha]
          · rw [if_pos ha, if_pos (neg_ne_zero.mpr ha), neg_div, div_self ha, div_neg, div_self ha]
            have : Real.pi / 2 - Real.pi / 4 * -1 = Real.pi - Real.pi / 4 := by ring
            rw [this, Real.cos_pi_sub, Real.sin_pi_sub, Real.cos_pi_div_four, Real.sin_pi_div_four]
            simp
  · rw [show -a * -a = a * a by ring, show -b * -b = b * b by ring]
    by_cases h : a * a > b * b
    · rw [if_pos h, if_pos h, neg_div_neg_eq]; simp
    · rw [if_neg h, if_neg h]
      by_cases hb : b = 0
      · simp [hb]
      · rw [if_pos hb, if_pos (neg_ne_zero.mpr hb), neg_div_neg_eq]; simp
  · intro h
    have h1 := abs_lt.mp h
    have h2 : 0 < a := lt_of_le_of_lt (abs_nonneg b) h
    rw [if_pos (by nlinarith)]

/-- **C77, full statement**: for every lens, pixel, focus distance d > 0 and any two lens points, the rays through the pixel
meet in one point whose depth is d. -/
def C77_full : Prop :=
  ∀ (c : Lens) (u v d : ℝ), 0 < d → 0 ≤ u → u ≤ (c.resX : ℝ) - 1 → 0 ≤ v → v ≤ (c.resY : ℝ) - 1 → 1 < c.resX → 1 < c.resY →
    ∃ q : V3, c.depth q = d ∧ ∀ ap : ℝ × ℝ, ∃ t : ℝ, 0 < t ∧
      (c.castRayDof u v ap (some d)).1 + t * (c.castRayDof u v ap (some d)).2 = q

theorem ray_through (a q : V3) (h : q - a ≠ V3.zero) :
    0 < V3.len (q - a) ∧ a + V3.len (q - a) * V3.normalize (q - a) = q := by
  have hl := V3.len_pos h
  refine ⟨hl, ?_⟩
  rw [V3.normalize_eq]
  ext <;> simp <;> field_simp <;> ring

/-- **C77 (partial).** For every undistorted lens, in either convention, every pixel and every focus distance d > 0: all
rays through the pixel, one for each lens point, meet at the point of the pixel's central ray at depth d, in front of
the camera; with infinite focus they are parallel to the central ray. Missing: lenses with distortion, for which the
claim is false. -/
theorem C77_focus_partial (c : Lens) (hd : c.distortion = none) (u v d : ℝ) (hpos : 0 < d) :
    (∃ q : V3, c.depth q = d ∧ q = (d * V3.len (c.pixelToDirection u v)) * c.castRay u v ∧
      ∀ ap : ℝ × ℝ, ∃ t : ℝ, 0 < t ∧
        (c.castRayDof u v ap (some d)).1 + t * (c.castRayDof u v ap (some d)).2 = q) ∧
    ∀ ap : ℝ × ℝ, (c.castRayDof u v ap none).2 = c.castRay u v := by
  have hr : c.rawDirection u v = c.pixelToDirection u v := by unfold Lens.rawDirection; rw [hd]
  have hdepth : c.depth (d * c.pixelToDirection u v) = d := by
    unfold Lens.depth Lens.pixelToDirection; rw [hd]
    cases c.blender <;> simp
  refine ⟨⟨d * c.pixelToDirection u v, hdepth, ?_, ?_⟩, ?_⟩
  · unfold Lens.castRay; rw [hd]; simp only
    rw [V3.normalize_eq]
    have hl := V3.len_pos (dir_ne_zero c u v)
    ext <;> simp <;> field_simp
  · intro ap
    have hne : d * c.pixelToDirection u v - ⟨ap.1, ap.2, 0⟩ ≠ V3.zero := by
      intro h
      have hz := congrArg V3.z h
      unfold Lens.depth at hdepth
      cases hb : c.blender <;> rw [hb] at hdepth <;> simp [V3.zero] at hz hdepth <;> rw [← hdepth] at hpos <;>
        rcases hz with hz | hz <;> simp_all
    have := ray_through ⟨ap.1, ap.2, 0⟩ _ hne
    refine ⟨_, this.1, ?_⟩
    simp only [Lens.castRayDof, hr]
    exact this.2
  · intro ap
    simp only [Lens.castRayDof, hr]
    unfold Lens.castRay; rw [hd]

/-- A lens with the (identity) distortion of zero Brown coefficients. -/
def distLens : Lens := ⟨1, 1, 0, 0, 4, 4, false, some ⟨id, id⟩⟩

/-- **C77 is violated** with a distortion model: the stored directions have unit length, so the focus surface is a sphere;
pixel (3, 0) focuses at depth d/√10, not d. -/
theorem C77_violated : ¬ C77_full := by
  intro h
  obtain ⟨q, hq, hall⟩ := h distLens 3 0 1 one_pos (by norm_num) (by norm_num [distLens]) le_rfl (by norm_num [distLens])
    (by norm_num [distLens]) (by norm_num [distLens])
  have hraw : distLens.rawDirection 3 0 = V3.normalize ⟨3, 0, 1⟩ := by
    have := sampleField_grid distLens.resX distLens.resY 3 0 (by norm_num [distLens]) (by norm_num [distLens])
      (by norm_num [distLens]) (by norm_num [distLens]) distLens.field
    have e : distLens.rawDirection 3 0 = (sampleField distLens.resX distLens.resY distLens.field
        (3 / ((distLens.resX : ℝ) - 1)) (0 / ((distLens.resY : ℝ) - 1))).getD V3.zero := rfl
    have h3 : ((3 : Nat) : ℝ) = 3 := by norm_num
    have h0 : ((0 : Nat) : ℝ) = 0 := by norm_num
    rw [h3, h0] at this
    rw [e, this]
    simp only [Option.getD_some, Lens.field]
    congr 1
    simp [Lens.pixelToDirection, distLens]
  -- two lens points: the centre and (1, 0)
  have hlen : V3.len ⟨3, 0, 1⟩ = Real.sqrt 10 := by unfold V3.len; norm_num [V3.dot]
  have hs : 0 < Real.sqrt 10 := by positivity
  have hss : Real.sqrt 10 * Real.sqrt 10 = 10 := Real.mul_self_sqrt (by norm_num)
  obtain ⟨t, ht, e⟩ := hall (0, 0)
  obtain ⟨t', ht', e'⟩ := hall (1, 0)
  have hqz : q.z = 1 := hq
  simp only [Lens.castRayDof, hraw] at e e'
  have n1 : (1 : ℝ) * V3.normalize (⟨3, 0, 1⟩ : V3) = ⟨3 / Real.sqrt 10, 0, 1 / Real.sqrt 10⟩ := by
    rw [V3.normalize_eq, hlen]; ext <;> simp; field_simp
  rw [n1] at e e'
  have ex := congrArg V3.x e
  have ez := congrArg V3.z e
  have ex' := congrArg V3.x e'
  have ez' := congrArg V3.z e'
  simp only [V3.normalize_eq, V3.add_x, V3.add_z, V3.hmul_x, V3.hmul_z, V3.sub_x, V3.sub_z, hqz, sub_zero,
    zero_add] at ex ez ex' ez'
  generalize 1 / V3.len _ = k at ex ez
  generalize 1 / V3.len _ = k' at ex' ez'
  have f1 : q.x = 3 := by
    rw [← ex]
    calc t * (k * (3 / Real.sqrt 10)) = 3 * (t * (k * (1 / Real.sqrt 10))) := by ring
      _ = 3 := by rw [ez]; ring
  have f2 : t' * k' = Real.sqrt 10 := by
    have : t' * (k' * (1 / Real.sqrt 10)) * Real.sqrt 10 = t' * k' := by field_simp
    rw [← this, ez']; ring
  have f3 : q.x = 1 + (3 - Real.sqrt 10) := by
    rw [← ex']
    calc 1 + t' * (k' * (3 / Real.sqrt 10 - 1)) = 1 + (t' * k') * (3 / Real.sqrt 10 - 1) := by ring
      _ = _ := by rw [f2]; field_simp
  have : Real.sqrt 10 = 1 := by linarith
  rw [this] at hss
  norm_num at hss

/-! ### Blur kernels -/

/-- Sum over a `dim × dim` kernel (the accumulation loops, psf.ipp 168-192, aperture.ipp 77-82). -/
def total (dim : Nat) (k : Nat → Nat → ℝ) : ℝ := ∑ y ∈ range dim, ∑ x ∈ range dim, k x y

/-- `PSF::normalize_kernel_` for one channel (psf.ipp 209-224) -/
def normalizeKernel (e : ℝ) (k : Nat → Nat → ℝ) : Nat → Nat → ℝ :=
  let scale := if e > 1e-9 then 1 / e else 0
  fun x y => k x y * scale

/-- `sample_lut` for one channel (psf.ipp 105-146): the table is read through `lut`, `res` is `lut_res`. -/
def sampleLut (res : Nat) (maxR : ℝ) (lut : Nat → Nat → ℝ) (u v : ℝ) : ℝ :=
  let xf := (u / maxR + 1) * 0.5 * ((res : ℝ) - 1)
  let yf := (v / maxR + 1) * 0.5 * ((res : ℝ) - 1)
  if xf < 0 ∨ xf ≥ (res : ℝ) - 1 ∨ yf < 0 ∨ yf ≥ (res : ℝ) - 1 then 0
  else
    let x0 := ⌊xf⌋₊
    let y0 := ⌊yf⌋₊
    if xf = x0 ∧ yf = y0 then lut x0 y0
    else
      let dx := xf - x0
      let dy := yf - y0
      (lut x0 y0 * (1 - dx) + lut (x0 + 1) y0 * dx) * (1 - dy) + (lut x0 (y0 + 1) * (1 - dx) + lut (x0 + 1) (y0 + 1) * dx) * dy

/-- One pixel of a polyphase kernel (psf.ipp 168-190): 16 × 16 samples of the table. -/
def psfPixel (radius : Nat) (lutv : ℝ → ℝ → ℝ) (ox oy : ℝ) (x y : Nat) : ℝ :=
  (∑ sy ∈ range 16, ∑ sx ∈ range 16,
    lutv ((x : ℝ) - radius - ox + (((sx : ℝ) + 0.5) * (1 / 16) - 0.5))
         ((y : ℝ) - radius - oy + (((sy : ℝ) + 0.5) * (1 / 16) - 0.5))) * (1 / 256)

/-- The kernel of bank (bx, by) (psf.ipp 157-195), for a PSF table `lut`. -/
def psfKernel (radius banks res : Nat) (lut : Nat → Nat → ℝ) (bx bY : Nat) : Nat → Nat → ℝ :=
  let k := psfPixel radius (sampleLut res ((radius : ℝ) + 1) lut) ((bx : ℝ) / banks) ((bY : ℝ) / banks)
  normalizeKernel (total (2 * radius + 1) k) k

/-- `CircularAperture::rasterize_kernel_` (circular_aperture.ipp 118-142) -/
def coverage (half : Nat) (r ox oy : ℝ) (x y : Nat) : ℝ :=
  let cx := (half : ℝ) + 0.5 + ox
  let cy := (half : ℝ) + 0.5 + oy
  let dx := ((x : ℝ) + 0.5) - cx
  let dy := ((y : ℝ) + 0.5) - cy
  let dist := Real.sqrt (dx * dx + dy * dy)
  max 0 (min 1 (r - dist + 0.5))

/-- `half_extent` (aperture.ipp 34): at least one. -/
def halfExtent (r : ℝ) : Nat := max 1 ⌈r⌉₊

/-- `generate_polyphase_data_`, kernel (i, j) (aperture.ipp 69-91): `dim / 2 = half_extent`. -/
def defocusKernel (r : ℝ) (banks i j : Nat) : Nat → Nat → ℝ :=
  let k := coverage (halfExtent r) r ((i : ℝ) / banks) ((j : ℝ) / banks)
  let inv := 1 / total (2 * halfExtent r + 1) k
  fun x y => k x y * inv

theorem total_nonneg (dim : Nat) (k : Nat → Nat → ℝ) (h : ∀ x y, 0 ≤ k x y) : 0 ≤ total dim k :=
  sum_nonneg fun y _ => sum_nonneg fun x _ => h x y

theorem total_mul (dim : Nat) (k : Nat → Nat → ℝ) (s : ℝ) : total dim (fun x y => k x y * s) = total dim k * s := by
  unfold total
  rw [sum_mul]
  exact sum_congr rfl fun y _ => by rw [sum_mul]

theorem single_le_total (dim : Nat) (k : Nat → Nat → ℝ) (h : ∀ x y, 0 ≤ k x y) (x y : Nat) (hx : x < dim) (hy : y < dim) :
    k x y ≤ total dim k := by
  calc k x y ≤ ∑ x ∈ range dim, k x y :=
        single_le_sum (f := fun x => k x y) (fun x _ => h x y) (mem_range.mpr hx)
    _ ≤ total dim k :=
        single_le_sum (f := fun y => ∑ x ∈ range dim, k x y) (fun y _ => sum_nonneg fun x _ => h x y) (mem_range.mpr hy)

theorem floor_grid (n : Nat) : ⌊(n : ℝ)⌋₊ = n := Nat.floor_natCast n

/-- **C53, bilinear interpolation.** The table covers the square of half side `maxR`; between the grid points the value read
is the bilinear interpolant: it is exact on tables that are linear in each index, `p + q x + r y + s x y`, hence it also
returns the table's entries at the grid points. Outside the square it is zero. -/
theorem C53_bilinear (res : Nat) (maxR u v p q r s : ℝ) :
    let xf := (u / maxR + 1) / 2 * ((res : ℝ) - 1)
    let yf := (v / maxR + 1) / 2 * ((res : ℝ) - 1)
    sampleLut res maxR (fun x y => p + q * x + r * y + s * x * y) u v =
      if 0 ≤ xf ∧ xf < (res : ℝ) - 1 ∧ 0 ≤ yf ∧ yf < (res : ℝ) - 1 then p + q * xf + r * yf + s * xf * yf else 0 := by
  intro xf yf
  have ex : (u / maxR + 1) * 0.5 * ((res : ℝ) - 1) = xf := by simp only [xf]; ring
  have ey : (v / maxR + 1) * 0.5 * ((res : ℝ) - 1) = yf := by simp only [yf]; ring
  unfold sampleLut
  simp only [ex, ey]
  by_cases h : 0 ≤ xf ∧ xf < (res : ℝ) - 1 ∧ 0 ≤ yf ∧ yf < (res : ℝ) - 1
  · rw [if_pos h, if_neg (by push Not; exact ⟨h.1, h.2.1, h.2.2.1, h.2.2.2⟩)]
    split
    · rename_i e
      rw [← e.1, ← e.2]
    · push_cast; ring
  · rw [if_neg h, if_pos]
    by_contra hc
    push Not at hc
    exact h ⟨hc.1, hc.2.1, hc.2.2.1, hc.2.2.2⟩

/-- **C53, a kernel pixel is the mean of its samples**: where the PSF is linear over the pixel, the unnormalised kernel value
is the PSF at the centre of the (shifted) pixel. -/
theorem C53_pixel_mean (radius : Nat) (ox oy : ℝ) (x y : Nat) (p q r : ℝ) :
    psfPixel radius (fun u v => p + q * u + r * v) ox oy x y = p + q * (x - radius - ox) + r * (y - radius - oy) := by
  unfold psfPixel
  simp only [Finset.sum_range_succ, Finset.sum_range_zero]
  push_cast
  ring

/-- **C53, table reads.** Interpolation reads only inside the table and never makes a negative value of non-negative ones. -/
theorem C53_lut (res : Nat) (maxR u v : ℝ) (lut : Nat → Nat → ℝ)
    (hl : ∀ x y, x < res → y < res → 0 ≤ lut x y) : 0 ≤ sampleLut res maxR lut u v ∧
    ∀ lut', (∀ x y, x < res → y < res → lut' x y = lut x y) → sampleLut res maxR lut' u v = sampleLut res maxR lut u v := by
  unfold sampleLut
  simp only
  generalize (u / maxR + 1) * 0.5 * ((res : ℝ) - 1) = xf
  generalize (v / maxR + 1) * 0.5 * ((res : ℝ) - 1) = yf
  split
  · exact ⟨le_rfl, fun _ _ => rfl⟩
  · rename_i hb
    push Not at hb
    obtain ⟨hx0, hx1, hy0, hy1⟩ := hb
    have fx : (⌊xf⌋₊ : ℝ) ≤ xf := Nat.floor_le hx0
    have fy : (⌊yf⌋₊ : ℝ) ≤ yf := Nat.floor_le hy0
    have gx : xf < (⌊xf⌋₊ : ℝ) + 1 := Nat.lt_floor_add_one xf
    have gy : yf < (⌊yf⌋₊ : ℝ) + 1 := Nat.lt_floor_add_one yf
    have bx : ⌊xf⌋₊ + 1 < res := by
      have : ((⌊xf⌋₊ + 1 : Nat) : ℝ) < res := by push_cast; linarith
      exact_mod_cast this
    have by_ : ⌊yf⌋₊ + 1 < res := by
      have : ((⌊yf⌋₊ + 1 : Nat) : ℝ) < res := by push_cast; linarith
      exact_mod_cast this
    have l00 := hl ⌊xf⌋₊ ⌊yf⌋₊ (by omega) (by omega)
    have l10 := hl (⌊xf⌋₊ + 1) ⌊yf⌋₊ (by omega) (by omega)
    have l01 := hl ⌊xf⌋₊ (⌊yf⌋₊ + 1) (by omega) (by omega)
    have l11 := hl (⌊xf⌋₊ + 1) (⌊yf⌋₊ + 1) (by omega) (by omega)
    constructor
    · split
      · exact l00
      · have a1 : 0 ≤ 1 - (xf - ⌊xf⌋₊) := by linarith
        have a2 : 0 ≤ xf - ⌊xf⌋₊ := by linarith
        have b1 : 0 ≤ 1 - (yf - ⌊yf⌋₊) := by linarith
        have b2 : 0 ≤ yf - ⌊yf⌋₊ := by linarith
        positivity
    · intro lut' h
      rw [h _ _ (by omega : ⌊xf⌋₊ < res) (by omega : ⌊yf⌋₊ < res), h _ _ bx (by omega : ⌊yf⌋₊ < res),
        h _ _ (by omega : ⌊xf⌋₊ < res) by_, h _ _ bx by_]

/-- **C53, PSF kernels.** For every radius, bank count, bank and non-negative PSF table, every kernel is non-negative and
either sums to exactly one or (no energy above 1e-9) is zero everywhere. -/
theorem C53_psf_kernel (radius banks res bx bY : Nat) (lut : Nat → Nat → ℝ)
    (hl : ∀ x y, x < res → y < res → 0 ≤ lut x y) :
    (∀ x y, 0 ≤ psfKernel radius banks res lut bx bY x y) ∧
    (total (2 * radius + 1) (psfKernel radius banks res lut bx bY) = 1 ∨
      ∀ x y, psfKernel radius banks res lut bx bY x y = 0) := by
  unfold psfKernel normalizeKernel
  simp only
  set k := psfPixel radius (sampleLut res ((radius : ℝ) + 1) lut) ((bx : ℝ) / banks) ((bY : ℝ) / banks) with hk
  have hk0 : ∀ x y, 0 ≤ k x y := by
    intro x y
    rw [hk]
    unfold psfPixel
    exact mul_nonneg (sum_nonneg fun _ _ => sum_nonneg fun _ _ => (C53_lut _ _ _ _ lut hl).1) (by norm_num)
  by_cases he : total (2 * radius + 1) k > 1e-9
  · rw [if_pos he]
    have hpos : 0 < total (2 * radius + 1) k := lt_trans (by norm_num) he
    refine ⟨fun x y => mul_nonneg (hk0 x y) (by positivity), .inl ?_⟩
    rw [total_mul, mul_one_div, div_self hpos.ne']
  · rw [if_neg he]
    exact ⟨fun x y => by simp, .inr fun x y => by simp⟩

/-- A point-like PSF table satisfies the hypothesis. -/
example : ∀ x y, x < 2048 → y < 2048 → (0 : ℝ) ≤ (if x = 1023 ∧ y = 1023 then 1 else 0) := by
  intro x y _ _; split <;> norm_num

/-- **C53, defocus kernels.** For every blur radius from the threshold of half a pixel, every bank count and bank, the
kernel is non-negative and sums to exactly one (its unnormalised sum is never zero). -/
theorem C53_defocus_kernel (r : ℝ) (hr : 0.5 ≤ r) (banks i j : Nat) (hi : i < banks) (hj : j < banks) :
    (∀ x y, 0 ≤ defocusKernel r banks i j x y) ∧
    total (2 * halfExtent r + 1) (defocusKernel r banks i j) = 1 := by
  have hb : (0 : ℝ) < banks := by exact_mod_cast (by omega : 0 < banks)
  have off : ∀ n : Nat, n < banks → 0 ≤ (n : ℝ) / banks ∧ (n : ℝ) / banks < 1 := by
    intro n hn
    refine ⟨by positivity, ?_⟩
    rw [div_lt_one hb]; exact_mod_cast hn
  have hh : 1 ≤ halfExtent r := le_max_left _ _
  unfold defocusKernel
  simp only
  set ox := (i : ℝ) / banks
  set oy := (j : ℝ) / banks
  obtain ⟨ox0, ox1⟩ : 0 ≤ ox ∧ ox < 1 := off i hi
  obtain ⟨oy0, oy1⟩ : 0 ≤ oy ∧ oy < 1 := off j hj
  have hc0 : ∀ x y, 0 ≤ coverage (halfExtent r) r ox oy x y := fun x y => le_max_left _ _
  -- the pixel nearest to the disc centre is covered
  have near : ∀ o : ℝ, 0 ≤ o → o < 1 → ∃ n : Nat, n < 2 * halfExtent r + 1 ∧
      -(1/2) ≤ ((n : ℝ) + 0.5) - ((halfExtent r : ℝ) + 0.5 + o) ∧ ((n : ℝ) + 0.5) - ((halfExtent r : ℝ) + 0.5 + o) ≤ 1/2 := by
    intro o h0 h1
    by_cases ho : o ≤ 1/2
    · exact ⟨halfExtent r, by omega, by linarith, by linarith⟩
    · refine ⟨halfExtent r + 1, by omega, ?_, ?_⟩ <;> push_cast <;> linarith
  obtain ⟨nx, hnx, ax, bx⟩ := near ox ox0 ox1
  obtain ⟨ny, hny, ay, bY⟩ := near oy oy0 oy1
  have hpos : 0 < coverage (halfExtent r) r ox oy nx ny := by
    unfold coverage
    simp only
    set dx := ((nx : ℝ) + 0.5) - ((halfExtent r : ℝ) + 0.5 + ox)
    set dy := ((ny : ℝ) + 0.5) - ((halfExtent r : ℝ) + 0.5 + oy)
    have hd : Real.sqrt (dx * dx + dy * dy) < 1 := by
      rw [Real.sqrt_lt' one_pos]; nlinarith
    apply lt_max_of_lt_right
    apply lt_min one_pos
    linarith
  have hT : 0 < total (2 * halfExtent r + 1) (coverage (halfExtent r) r ox oy) :=
    lt_of_lt_of_le hpos (single_le_total _ _ hc0 nx ny hnx hny)
  refine ⟨fun x y => mul_nonneg (hc0 x y) (by positivity), ?_⟩
  rw [total_mul, mul_one_div, div_self hT.ne']

/-- Bank index computed by `get_kernel` / `get_defocus_kernel` (psf.ipp 56-63, aperture.ipp 50-57) from the truncated
products `tu`, `tv` (any `int`s). -/
def kernelIndex (banks : Int) (tu tv : Int) : Int :=
  let clamp := fun t : Int => if t < 0 then 0 else if banks - 1 < t then banks - 1 else t
  clamp tv * banks + clamp tu

/-- **C53, lookup.** Whatever the sub-pixel offsets, the index is inside the bank of `banks²` kernels. -/
theorem C53_lookup_in_range (banks tu tv : Int) (hb : 1 ≤ banks) :
    0 ≤ kernelIndex banks tu tv ∧ kernelIndex banks tu tv < banks * banks := by
  have c : ∀ t : Int, 0 ≤ (if t < 0 then 0 else if banks - 1 < t then banks - 1 else t) ∧
      (if t < 0 then 0 else if banks - 1 < t then banks - 1 else t) ≤ banks - 1 := by
    intro t; split
    · omega
    · split <;> omega
  unfold kernelIndex
  simp only
  obtain ⟨a0, a1⟩ := c tu
  obtain ⟨b0, b1⟩ := c tv
  generalize (if tu < 0 then 0 else if banks - 1 < tu then banks - 1 else tu) = a at *
  generalize (if tv < 0 then 0 else if banks - 1 < tv then banks - 1 else tv) = b at *
  constructor
  · positivity
  · nlinarith

/-- An in-range offset u in [0,1) selects the bank floor(u * banks). -/
theorem C53_lookup_exact (banks : Nat) (u v : ℝ) (hu0 : 0 ≤ u) (hu1 : u < 1) (hv0 : 0 ≤ v) (hv1 : v < 1) (hb : 0 < banks) :
    kernelIndex banks ⌊u * banks⌋ ⌊v * banks⌋ = ⌊v * banks⌋ * banks + ⌊u * banks⌋ := by
  have hbr : (0 : ℝ) < banks := by exact_mod_cast hb
  have key : ∀ w : ℝ, 0 ≤ w → w < 1 → 0 ≤ ⌊w * banks⌋ ∧ ⌊w * banks⌋ ≤ (banks : Int) - 1 := by
    intro w h0 h1
    refine ⟨Int.floor_nonneg.mpr (by positivity), ?_⟩
    have : ⌊w * banks⌋ < (banks : Int) := Int.floor_lt.mpr (by push_cast; nlinarith)
    omega
  unfold kernelIndex
  simp only
  obtain ⟨a0, a1⟩ := key u hu0 hu1
  obtain ⟨b0, b1⟩ := key v hv0 hv1
  rw [if_neg (by omega), if_neg (by omega), if_neg (by omega), if_neg (by omega)]

end
end Huira.Camera
