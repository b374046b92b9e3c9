import Verif.Camera.SolidAngle
import Verif.Camera.Gnomonic
import Mathlib.Geometry.Euclidean.Angle.Unoriented.TriangleInequality
import Mathlib.Analysis.InnerProductSpace.PiL2
/-!
# C128: the solid angles of the pixels are the true ones
-/
set_option linter.unusedSimpArgs false
open MeasureTheory Set Real
namespace Huira.Camera
open Huira.Sampling

/-! ### angles of a spherical triangle -/

/-- The angle between two vectors. -/
noncomputable def ang (p q : V3) : ℝ := arccos (V3.dot p q / (V3.len p * V3.len q))

theorem len_smul {k : ℝ} (hk : 0 ≤ k) (a : V3) : V3.len (V3.smul k a) = k * V3.len a := by
  unfold V3.len
  have : V3.dot (V3.smul k a) (V3.smul k a) = k ^ 2 * V3.dot a a := by simp only [V3.dot, V3.smul]; ring
  rw [this, sqrt_mul (sq_nonneg k), sqrt_sq hk]

theorem normalize_smul {k : ℝ} (hk : 0 < k) (a : V3) : V3.normalize (V3.smul k a) = V3.normalize a := by
  unfold V3.normalize
  rw [len_smul hk.le]
  simp only [V3.smul, V3.mk.injEq]
  rcases eq_or_ne (V3.len a) 0 with h | h
  · rw [h]; simp
  · refine ⟨?_, ?_, ?_⟩ <;> field_simp

theorem dot_normalize_normalize (a b : V3) :
    V3.dot (V3.normalize a) (V3.normalize b) = V3.dot a b / (V3.len a * V3.len b) := by
  have h : V3.dot (V3.normalize a) (V3.normalize b) = (1 / V3.len a) * (1 / V3.len b) * V3.dot a b := by
    simp only [V3.normalize, V3.dot, V3.smul]; ring
  rw [h]
  rw [div_mul_div_comm, one_mul, mul_comm, mul_one_div]

theorem ang_smul {k l : ℝ} (hk : 0 < k) (hl : 0 < l) (p q : V3) : ang (V3.smul k p) (V3.smul l q) = ang p q := by
  unfold ang
  rw [← dot_normalize_normalize, ← dot_normalize_normalize, normalize_smul hk, normalize_smul hl]

theorem len_pos_of_ne {a : V3} (h : a ≠ V3.zero) : 0 < V3.len a := V3.len_pos h

/-- The angle of a spherical triangle at `a`, in terms of the vectors to the corners, of any lengths. -/
theorem corner_angle {a b c : V3} (ha : a ≠ V3.zero) (hb : b ≠ V3.zero) (hc : c ≠ V3.zero) :
    arccos (V3.dot (tangent (V3.normalize a) (V3.normalize b)) (tangent (V3.normalize a) (V3.normalize c))) =
      ang (V3.cross a b) (V3.cross a c) := by
  have hla := V3.len_pos ha
  have key : ∀ d : V3, d ≠ V3.zero → tangent (V3.normalize a) (V3.normalize d) = V3.normalize (V3.cross (V3.cross a d) a) := by
    intro d hd
    have hld := V3.len_pos hd
    have : V3.cross (V3.cross (V3.normalize a) (V3.normalize d - V3.normalize a)) (V3.normalize a) =
        V3.smul (1 / V3.len a ^ 2 * (1 / V3.len d)) (V3.cross (V3.cross a d) a) := by
      simp only [V3.cross, V3.normalize, V3.smul, HSub.hSub, Sub.sub, V3.sub]
      simp only [V3.mk.injEq]
      refine ⟨?_, ?_, ?_⟩ <;> (simp only [← sub_eq_add_neg]; ring_nf)
    unfold tangent
    rw [this, normalize_smul (by positivity)]
  rw [key b hb, key c hc, dot_normalize_normalize]
  unfold ang
  have hd : ∀ d e : V3, V3.dot (V3.cross (V3.cross a d) a) (V3.cross (V3.cross a e) a) =
      V3.len a ^ 2 * V3.dot (V3.cross a d) (V3.cross a e) := by
    intro d e
    rw [sq, V3.len_sq]
    simp only [V3.dot, V3.cross]; ring
  have hl : ∀ d : V3, V3.len (V3.cross (V3.cross a d) a) = V3.len a * V3.len (V3.cross a d) := by
    intro d
    conv_lhs => unfold V3.len
    rw [hd d d, sqrt_mul (sq_nonneg _), sqrt_sq hla.le]
    rfl
  rw [hd, hl, hl]
  congr 1
  field_simp

/-- A vector as a point of Euclidean space. -/
noncomputable def eu (p : V3) : EuclideanSpace ℝ (Fin 3) := !₂[p.x, p.y, p.z]

theorem eu_inner (p q : V3) : inner ℝ (eu p) (eu q) = V3.dot p q := by
  simp [eu, V3.dot, PiLp.inner_apply, Fin.sum_univ_three]; ring

theorem eu_norm (p : V3) : ‖eu p‖ = V3.len p := by
  rw [EuclideanSpace.norm_eq, V3.len]
  congr 1
  simp [eu, V3.dot, Fin.sum_univ_three, sq]

theorem ang_eq (p q : V3) : ang p q = InnerProductGeometry.angle (eu p) (eu q) := by
  unfold ang InnerProductGeometry.angle
  rw [eu_inner, eu_norm, eu_norm]

theorem eu_add (p q : V3) : eu (p + q) = eu p + eu q := by
  ext i; fin_cases i <;> simp [eu]

theorem eu_ne {p : V3} (h : p ≠ V3.zero) : eu p ≠ 0 := by
  intro e
  have : ‖eu p‖ = 0 := by rw [e, norm_zero]
  rw [eu_norm] at this
  exact (V3.len_pos h).ne' this

/-- The diagonal splits the angle. -/
theorem ang_split {p q : V3} (h : p + q ≠ V3.zero) : ang p (p + q) + ang (p + q) q = ang p q := by
  rw [ang_eq, ang_eq, ang_eq]
  refine (InnerProductGeometry.angle_eq_angle_add_add_angle_add_of_mem_span (eu_ne h) ?_).symm
  rw [Submodule.mem_span_pair]
  exact ⟨1, 1, by simp [eu_add]⟩

theorem ang_comm (p q : V3) : ang p q = ang q p := by
  unfold ang; rw [V3.dot_comm, mul_comm]

/-! ### a pixel of an undistorted lens -/

/-- The direction of a point of the image plane; `σ` is `-1` in the Blender convention. -/
def vec (σ x y : ℝ) : V3 := ⟨x, σ * y, σ⟩

theorem vec_ne {σ : ℝ} (h : σ ^ 2 = 1) (x y : ℝ) : vec σ x y ≠ V3.zero := by
  intro e
  have : σ = 0 := congrArg V3.z e
  rw [this] at h; norm_num at h

theorem arcsin_quad (x y : ℝ) : arcsin (x * y / (sqrt (1 + y ^ 2) * sqrt (1 + x ^ 2))) = quad x y := by
  unfold quad
  rw [arctan_eq_arcsin]
  congr 1
  have hs : 0 < sqrt (1 + x ^ 2 + y ^ 2) := sqrt_pos.2 (by positivity)
  have h2 : sqrt (1 + x ^ 2 + y ^ 2) ^ 2 = 1 + x ^ 2 + y ^ 2 := sq_sqrt (by positivity)
  have e : 1 + (x * y / sqrt (1 + x ^ 2 + y ^ 2)) ^ 2 = (1 + y ^ 2) * (1 + x ^ 2) / (1 + x ^ 2 + y ^ 2) := by
    rw [div_pow, h2]; field_simp; ring
  rw [e, sqrt_div (by positivity), sqrt_mul (by positivity)]
  have h3 : 0 < sqrt (1 + y ^ 2) := sqrt_pos.2 (by positivity)
  have h4 : 0 < sqrt (1 + x ^ 2) := sqrt_pos.2 (by positivity)
  field_simp

/-- Directions of the horizontal and vertical great circles. -/
def hor (σ y : ℝ) : V3 := ⟨0, σ, -y * σ⟩
def ver (σ x : ℝ) : V3 := ⟨-1, 0, x * σ⟩

theorem len_hor {σ : ℝ} (h : σ ^ 2 = 1) (y : ℝ) : V3.len (hor σ y) = sqrt (1 + y ^ 2) := by
  unfold V3.len; congr 1; simp only [V3.dot, hor]; linear_combination (1 + y ^ 2) * h

theorem len_ver {σ : ℝ} (h : σ ^ 2 = 1) (x : ℝ) : V3.len (ver σ x) = sqrt (1 + x ^ 2) := by
  unfold V3.len; congr 1; simp only [V3.dot, ver]; linear_combination (x ^ 2) * h

theorem ang_pos {σ : ℝ} (h : σ ^ 2 = 1) (x y : ℝ) : ang (hor σ y) (ver σ x) = π / 2 + quad x y := by
  unfold ang
  rw [len_hor h, len_ver h]
  have : V3.dot (hor σ y) (ver σ x) = -(x * y) := by simp only [V3.dot, hor, ver]; linear_combination (-(x * y)) * h
  rw [this, neg_div, arccos_neg, arccos_eq_pi_div_two_sub_arcsin, arcsin_quad]
  ring

theorem ang_neg {σ : ℝ} (h : σ ^ 2 = 1) (x y : ℝ) : ang (V3.neg (hor σ y)) (ver σ x) = π / 2 - quad x y := by
  unfold ang
  have hl : V3.len (V3.neg (hor σ y)) = V3.len (hor σ y) := by
    unfold V3.len; congr 1; simp only [V3.dot, V3.neg]; ring
  rw [hl, len_hor h, len_ver h]
  have : V3.dot (V3.neg (hor σ y)) (ver σ x) = x * y := by
    simp only [V3.dot, hor, ver, V3.neg]; linear_combination (x * y) * h
  rw [this, arccos_eq_pi_div_two_sub_arcsin, arcsin_quad]

theorem ang_neg_neg (p q : V3) : ang (V3.neg p) (V3.neg q) = ang p q := by
  have hl : ∀ p, V3.len (V3.neg p) = V3.len p := by
    intro p; unfold V3.len; congr 1; simp only [V3.dot, V3.neg]; ring
  unfold ang
  rw [hl, hl]
  congr 2
  simp only [V3.dot, V3.neg]; ring

theorem cross_hor (σ x0 x1 y : ℝ) : V3.cross (vec σ x0 y) (vec σ x1 y) = V3.smul (x1 - x0) (hor σ y) := by
  simp only [V3.cross, vec, V3.smul, hor, V3.mk.injEq]
  refine ⟨?_, ?_, ?_⟩ <;> ring

theorem cross_ver {σ : ℝ} (h : σ ^ 2 = 1) (x y0 y1 : ℝ) :
    V3.cross (vec σ x y0) (vec σ x y1) = V3.smul (y1 - y0) (ver σ x) := by
  simp only [V3.cross, vec, V3.smul, ver, V3.mk.injEq]
  refine ⟨?_, ?_, ?_⟩
  · linear_combination (y0 - y1) * h
  · ring
  · ring

theorem smul_neg_eq (k : ℝ) (a : V3) : V3.smul k a = V3.smul (-k) (V3.neg a) := by
  simp only [V3.smul, V3.neg, V3.mk.injEq]; refine ⟨?_, ?_, ?_⟩ <;> ring

theorem cross_ne {σ : ℝ} (h : σ ^ 2 = 1) {x0 x1 y0 y1 : ℝ} (hx : x0 ≠ x1) :
    V3.cross (vec σ x0 y0) (vec σ x1 y1) ≠ V3.zero := by
  intro e
  have h1 : σ * x1 - x0 * σ = 0 := congrArg V3.y e
  have h2 : σ * (x1 - x0) = 0 := by linear_combination h1
  rcases mul_eq_zero.1 h2 with h3 | h3
  · rw [h3] at h; norm_num at h
  · exact hx (by linarith)

/-- The two triangles of a rectangle of the image plane. -/
theorem rect_excess {σ : ℝ} (h : σ ^ 2 = 1) {x0 x1 y0 y1 : ℝ} (hx : x0 < x1) (hy : y0 < y1) :
    triangleSolidAngle (V3.normalize (vec σ x0 y0)) (V3.normalize (vec σ x1 y0)) (V3.normalize (vec σ x1 y1)) +
        triangleSolidAngle (V3.normalize (vec σ x0 y0)) (V3.normalize (vec σ x1 y1)) (V3.normalize (vec σ x0 y1)) =
      quad x1 y1 - quad x0 y1 - quad x1 y0 + quad x0 y0 := by
  have n := vec_ne h
  simp only [triangleSolidAngle]
  rw [corner_angle (n x0 y0) (n x1 y0) (n x1 y1), corner_angle (n x1 y0) (n x0 y0) (n x1 y1),
    corner_angle (n x1 y1) (n x0 y0) (n x1 y0), corner_angle (n x0 y0) (n x1 y1) (n x0 y1),
    corner_angle (n x1 y1) (n x0 y0) (n x0 y1), corner_angle (n x0 y1) (n x0 y0) (n x1 y1)]
  have hdx : 0 < x1 - x0 := by linarith
  have hdy : 0 < y1 - y0 := by linarith
  -- corner (x0, y0)
  have d0 : V3.cross (vec σ x0 y0) (vec σ x1 y1) =
      V3.cross (vec σ x0 y0) (vec σ x1 y0) + V3.cross (vec σ x0 y0) (vec σ x0 y1) := by
    simp only [V3.cross, vec, HAdd.hAdd, V3.mk.injEq]
    simp only [Add.add, V3.add, V3.mk.injEq]
    refine ⟨?_, ?_, ?_⟩ <;> (try simp only [← sub_eq_add_neg]) <;> ring_nf
  have a0 : ang (V3.cross (vec σ x0 y0) (vec σ x1 y0)) (V3.cross (vec σ x0 y0) (vec σ x1 y1)) +
      ang (V3.cross (vec σ x0 y0) (vec σ x1 y1)) (V3.cross (vec σ x0 y0) (vec σ x0 y1)) = π / 2 + quad x0 y0 := by
    have hn := cross_ne h (y0 := y0) (y1 := y1) hx.ne
    rw [d0] at hn ⊢
    rw [ang_split hn, cross_hor, cross_ver h, ang_smul hdx hdy, ang_pos h]
  -- corner (x1, y1)
  have d2 : V3.cross (vec σ x1 y1) (vec σ x0 y0) =
      V3.cross (vec σ x1 y1) (vec σ x0 y1) + V3.cross (vec σ x1 y1) (vec σ x1 y0) := by
    simp only [V3.cross, vec, HAdd.hAdd, V3.mk.injEq]
    simp only [Add.add, V3.add, V3.mk.injEq]
    refine ⟨?_, ?_, ?_⟩ <;> (try simp only [← sub_eq_add_neg]) <;> ring_nf
  have a2 : ang (V3.cross (vec σ x1 y1) (vec σ x0 y0)) (V3.cross (vec σ x1 y1) (vec σ x1 y0)) +
      ang (V3.cross (vec σ x1 y1) (vec σ x0 y0)) (V3.cross (vec σ x1 y1) (vec σ x0 y1)) = π / 2 + quad x1 y1 := by
    have hn := cross_ne h (y0 := y1) (y1 := y0) hx.ne'
    rw [add_comm, ang_comm (V3.cross (vec σ x1 y1) (vec σ x0 y0)) (V3.cross (vec σ x1 y1) (vec σ x0 y1))]
    rw [d2] at hn ⊢
    rw [ang_split hn, cross_hor, cross_ver h, smul_neg_eq, smul_neg_eq (y0 - y1), ang_smul (by linarith) (by linarith),
      ang_neg_neg, ang_pos h]
  have a1 : ang (V3.cross (vec σ x1 y0) (vec σ x0 y0)) (V3.cross (vec σ x1 y0) (vec σ x1 y1)) = π / 2 - quad x1 y0 := by
    rw [cross_hor, cross_ver h, smul_neg_eq, ang_smul (by linarith) hdy, ang_neg h]
  have a3 : ang (V3.cross (vec σ x0 y1) (vec σ x0 y0)) (V3.cross (vec σ x0 y1) (vec σ x1 y1)) = π / 2 - quad x0 y1 := by
    rw [cross_hor, cross_ver h, smul_neg_eq (y0 - y1), ang_smul (by linarith) hdx, ang_comm, ← ang_neg_neg]
    have : V3.neg (V3.neg (ver σ x0)) = ver σ x0 := by simp [V3.neg]
    rw [this, ang_neg h]
  linarith

/-! ### specification: directions seen through a part of the image -/

/-- The directions in front of the camera whose image lies in `R` (pixels). -/
def Lens.sees (c : Lens) (R : Set (ℝ × ℝ)) : Set (ℝ × ℝ × ℝ) :=
  {ω | 0 < c.depth ⟨ω.1, ω.2.1, ω.2.2⟩ ∧ c.project ⟨ω.1, ω.2.1, ω.2.2⟩ ∈ R}

/-- The square of pixel `(x, y)`. -/
def pixelSquare (x y : ℕ) : Set (ℝ × ℝ) := Ico (x : ℝ) (x + 1) ×ˢ Ico (y : ℝ) (y + 1)

/-- The whole image. -/
def imageRect (w h : ℕ) : Set (ℝ × ℝ) := Ico (0 : ℝ) w ×ˢ Ico (0 : ℝ) h

/-- The power a unit radiance from everywhere sends through the aperture into the pixel: `A ∫ cos θ dω`. -/
noncomputable def truePower (c : Lens) (area : ℝ) (x y : ℕ) : ℝ :=
  area * (∫⁻ ω in c.sees (pixelSquare x y), ENNReal.ofReal |ω.2.2| ∂sphereAll).toReal

/-! ### the lens without distortion -/

/-- Half a turn about the first axis. -/
def half : (ℝ × ℝ × ℝ) →ₗ[ℝ] (ℝ × ℝ × ℝ) := rows (1, 0, 0) (0, -1, 0) (0, 0, -1)

theorem half_apply (x : ℝ × ℝ × ℝ) : half x = (x.1, -x.2.1, -x.2.2) := by
  show (_, _, _) = _
  refine Prod.ext ?_ (Prod.ext ?_ ?_) <;> simp

theorem half_half (x : ℝ × ℝ × ℝ) : half (half x) = x := by simp [half_apply]

theorem nrm_half (x : ℝ × ℝ × ℝ) : nrm (half x) = nrm x := by simp [half_apply, nrm]

theorem half_det : LinearMap.det half = 1 := by
  unfold half
  rw [rows_det]; norm_num

/-- Solid angle is invariant under the half turn. -/
theorem half_measure {S : Set (ℝ × ℝ × ℝ)} (hS : MeasurableSet S) : sphereAll {ω | half ω ∈ S} = sphereAll S := by
  have hm : Measurable half := rows_meas _ _ _
  have := lin_sphere half half hm hm (by rw [half_det]; norm_num) half_half half_half
    (g := S.indicator fun _ => 1) (w := fun _ => 1) (measurable_const.indicator hS) measurable_const
  have hS' : MeasurableSet {ω | half ω ∈ S} := hm hS
  rw [← lintegral_indicator_one hS, ← lintegral_indicator_one hS']
  refine Eq.trans (lintegral_congr_ae ?_) (this.trans (lintegral_congr_ae ?_))
  · filter_upwards [sphereAll_unit] with ω hω
    rw [dirn_unit (by rw [nrm_half, hω]), one_mul]
    rfl
  · filter_upwards [sphereAll_unit] with ω hω
    rw [nrm_half, hω, half_det]
    simp
    rfl

theorem mem_scaled {f : ℝ} (hf : 0 < f) (c a b t : ℝ) : f * t + c ∈ Ico a b ↔ t ∈ Ico ((a - c) / f) ((b - c) / f) := by
  simp only [mem_Ico, div_le_iff₀ hf, lt_div_iff₀ hf]
  constructor <;> rintro ⟨h1, h2⟩ <;> constructor <;> nlinarith

theorem plane_meas (x0 x1 y0 y1 : ℝ) :
    MeasurableSet {ω : ℝ × ℝ × ℝ | 0 < ω.2.2 ∧ (ω.1 / ω.2.2, ω.2.1 / ω.2.2) ∈ Ico x0 x1 ×ˢ Ico y0 y1} := by
  have hm : Measurable fun ω : ℝ × ℝ × ℝ => (ω.1 / ω.2.2, ω.2.1 / ω.2.2) := by fun_prop
  exact (measurableSet_lt measurable_const (by fun_prop : Measurable fun ω : ℝ × ℝ × ℝ => ω.2.2)).inter
    (hm (measurableSet_Ico.prod measurableSet_Ico))

theorem sees_false {c : Lens} (hd : c.distortion = none) (hx : 0 < c.fx) (hy : 0 < c.fy) (hb : c.blender = false)
    (a b a' b' : ℝ) : c.sees (Ico a b ×ˢ Ico a' b') = {ω | 0 < ω.2.2 ∧ (ω.1 / ω.2.2, ω.2.1 / ω.2.2) ∈
      Ico ((a - c.cx) / c.fx) ((b - c.cx) / c.fx) ×ˢ Ico ((a' - c.cy) / c.fy) ((b' - c.cy) / c.fy)} := by
  ext ω
  simp only [Lens.sees, Lens.depth, Lens.project, hb, hd, Bool.false_eq_true, if_false, mem_setOf_eq, one_mul, mem_prod]
  rw [mem_scaled hx, mem_scaled hy]

theorem sees_true {c : Lens} (hd : c.distortion = none) (hx : 0 < c.fx) (hy : 0 < c.fy) (hb : c.blender = true)
    (a b a' b' : ℝ) : c.sees (Ico a b ×ˢ Ico a' b') = {ω | half ω ∈ {ω : ℝ × ℝ × ℝ | 0 < ω.2.2 ∧
      (ω.1 / ω.2.2, ω.2.1 / ω.2.2) ∈
      Ico ((a - c.cx) / c.fx) ((b - c.cx) / c.fx) ×ˢ Ico ((a' - c.cy) / c.fy) ((b' - c.cy) / c.fy)}} := by
  ext ω
  simp only [Lens.sees, Lens.depth, Lens.project, hb, hd, if_true, mem_setOf_eq, neg_mul, one_mul, mem_prod, half_apply]
  rw [mem_scaled hx, mem_scaled hy]

/-- The value of the solid angle of a rectangle of the image. -/
noncomputable def Lens.rect (c : Lens) (a b a' b' : ℝ) : ℝ :=
  quad ((b - c.cx) / c.fx) ((b' - c.cy) / c.fy) - quad ((a - c.cx) / c.fx) ((b' - c.cy) / c.fy) -
    quad ((b - c.cx) / c.fx) ((a' - c.cy) / c.fy) + quad ((a - c.cx) / c.fx) ((a' - c.cy) / c.fy)

theorem sees_meas {c : Lens} (hd : c.distortion = none) (hx : 0 < c.fx) (hy : 0 < c.fy) (a b a' b' : ℝ) :
    MeasurableSet (c.sees (Ico a b ×ˢ Ico a' b')) := by
  rcases hb : c.blender with _ | _
  · rw [sees_false hd hx hy hb]; exact plane_meas _ _ _ _
  · rw [sees_true hd hx hy hb]
    exact (rows_meas (1, 0, 0) (0, -1, 0) (0, 0, -1) : Measurable half) (plane_meas _ _ _ _)

theorem sees_solid {c : Lens} (hd : c.distortion = none) (hx : 0 < c.fx) (hy : 0 < c.fy) {a b a' b' : ℝ} (hab : a ≤ b)
    (hab' : a' ≤ b') : sphereAll (c.sees (Ico a b ×ˢ Ico a' b')) = ENNReal.ofReal (c.rect a b a' b') := by
  have h1 : (a - c.cx) / c.fx ≤ (b - c.cx) / c.fx := by gcongr
  have h2 : (a' - c.cy) / c.fy ≤ (b' - c.cy) / c.fy := by gcongr
  rcases hb : c.blender with _ | _
  · rw [sees_false hd hx hy hb, solid_rect h1 h2]; rfl
  · rw [sees_true hd hx hy hb, half_measure (plane_meas _ _ _ _), solid_rect h1 h2]; rfl

theorem pixel_rect {c : Lens} (hd : c.distortion = none) (hx : 0 < c.fx) (hy : 0 < c.fy) (x y : ℕ) :
    c.pixelSolidAngle x y = c.rect x (x + 1) y (y + 1) := by
  have hdir : ∀ u v : ℝ, c.pixelToDirection u v =
      vec (if c.blender then -1 else 1) ((u - c.cx) / c.fx) ((v - c.cy) / c.fy) := by
    intro u v
    simp only [Lens.pixelToDirection, hd, vec]
    split_ifs <;> simp
  simp only [Lens.pixelSolidAngle, hdir]
  rw [rect_excess]
  · rfl
  · split_ifs <;> norm_num
  · gcongr; linarith
  · gcongr; linarith

theorem rect_pos {c : Lens} (hx : 0 < c.fx) (hy : 0 < c.fy) {a b a' b' : ℝ} (hab : a < b) (hab' : a' < b') :
    0 < c.rect a b a' b' := by
  have h1 : (a - c.cx) / c.fx < (b - c.cx) / c.fx := by gcongr
  have h2 : (a' - c.cy) / c.fy < (b' - c.cy) / c.fy := by gcongr
  unfold Lens.rect
  rw [← dens_rect]
  have hc : Continuous fun x : ℝ => ∫ y in (a' - c.cy) / c.fy..(b' - c.cy) / c.fy, dens x y :=
    intervalIntegral.continuous_parametric_intervalIntegral_of_continuous' (f := dens) dens_cont _ _
  refine intervalIntegral.intervalIntegral_pos_of_pos (hc.intervalIntegrable _ _) (fun x => ?_) h1
  exact intervalIntegral.intervalIntegral_pos_of_pos
    ((dens_cont.comp (by fun_prop : Continuous fun y : ℝ => (x, y))).intervalIntegrable _ _) (fun y => dens_pos x y) h2

/-- **C128 (solid angle of a pixel)** For every lens without distortion the stored solid angle of a pixel is the solid angle of
the directions in front of the camera that are projected into the pixel, and it is positive. -/
theorem C128_solid_angle {c : Lens} (hd : c.distortion = none) (hx : 0 < c.fx) (hy : 0 < c.fy) (x y : ℕ) :
    sphereAll (c.sees (pixelSquare x y)) = ENNReal.ofReal (c.pixelSolidAngle x y) ∧ 0 < c.pixelSolidAngle x y := by
  rw [pixel_rect hd hx hy]
  exact ⟨sees_solid hd hx hy (by linarith) (by linarith), rect_pos hx hy (by linarith) (by linarith)⟩

theorem rect_sum_x (c : Lens) (w : ℕ) (a' b' : ℝ) :
    ∑ x ∈ Finset.range w, c.rect (x : ℝ) (x + 1) a' b' = c.rect 0 w a' b' := by
  induction w with
  | zero => simp [Lens.rect]
  | succ n ih => rw [Finset.sum_range_succ, ih]; simp only [Lens.rect, Nat.cast_succ]; ring

theorem rect_sum_y (c : Lens) (h : ℕ) (a b : ℝ) :
    ∑ y ∈ Finset.range h, c.rect a b (y : ℝ) (y + 1) = c.rect a b 0 h := by
  induction h with
  | zero => simp [Lens.rect]
  | succ n ih => rw [Finset.sum_range_succ, ih]; simp only [Lens.rect, Nat.cast_succ]; ring

/-- **C128 (the pixels cover the field of view)** The solid angles of all pixels add up to the solid angle of the field of
view. -/
theorem C128_sum {c : Lens} (hd : c.distortion = none) (hx : 0 < c.fx) (hy : 0 < c.fy) :
    ENNReal.ofReal (∑ x ∈ Finset.range c.resX, ∑ y ∈ Finset.range c.resY, c.pixelSolidAngle x y) =
      sphereAll (c.sees (imageRect c.resX c.resY)) := by
  simp only [pixel_rect hd hx hy, rect_sum_y, rect_sum_x]
  unfold imageRect
  rw [sees_solid hd hx hy (by positivity) (by positivity)]

/-! ### radiance to power -/

theorem corner_ray {c : Lens} (hd : c.distortion = none) (x y : ℕ) :
    c.castRay x y = V3.normalize (c.pixelToDirection x y) := by
  simp only [Lens.castRay, hd]

theorem normalize_normalize {a : V3} (h : a ≠ V3.zero) : V3.normalize (V3.normalize a) = V3.normalize a := by
  conv_lhs => rw [show V3.normalize a = V3.smul (1 / V3.len a) a from rfl]
  exact normalize_smul (by have := V3.len_pos h; positivity) a

theorem dir_ne {c : Lens} (x y : ℝ) : c.pixelToDirection x y ≠ V3.zero := by
  intro e
  have := congrArg V3.z e
  unfold Lens.pixelToDirection at this
  simp only [V3.zero] at this
  split_ifs at this <;> norm_num at this

/-- The cosine the code uses is the one at the corner of the pixel. -/
theorem power_eq {c : Lens} (hd : c.distortion = none) (area : ℝ) (x y : ℕ) :
    c.radianceToPower area x y = area * (c.pixelSolidAngle x y * |(V3.normalize (c.pixelToDirection x y)).z|) := by
  unfold Lens.radianceToPower projectedArea
  rw [corner_ray hd, normalize_normalize (dir_ne _ _)]
  have : V3.dot (V3.normalize (c.pixelToDirection x y)) ⟨0, 0, 1⟩ = (V3.normalize (c.pixelToDirection x y)).z := by
    simp [V3.dot]
  rw [this]; ring

/-- The corner belongs to the pixel. -/
theorem corner_mem {c : Lens} (hd : c.distortion = none) (hx : 0 < c.fx) (hy : 0 < c.fy) (x y : ℕ) :
    ((V3.normalize (c.pixelToDirection x y)).x, (V3.normalize (c.pixelToDirection x y)).y,
      (V3.normalize (c.pixelToDirection x y)).z) ∈ c.sees (pixelSquare x y) := by
  have hl := V3.len_pos (dir_ne (c := c) x y)
  set k := 1 / V3.len (c.pixelToDirection x y) with hk
  have hk0 : 0 < k := by positivity
  have e : V3.normalize (c.pixelToDirection x y) = V3.smul k (c.pixelToDirection x y) := rfl
  rw [e]
  have hdir : c.pixelToDirection x y =
      if c.blender then ⟨(x - c.cx) / c.fx, -((y - c.cy) / c.fy), -1⟩ else ⟨(x - c.cx) / c.fx, (y - c.cy) / c.fy, 1⟩ := by
    simp only [Lens.pixelToDirection, hd]
  simp only [Lens.sees, Lens.depth, Lens.project, hd, mem_setOf_eq, pixelSquare, mem_prod, mem_Ico, hdir]
  have e1 : c.fx * (k * ((x - c.cx) / c.fx) / k) + c.cx = x := by field_simp; ring
  have e2 : c.fy * (k * ((y - c.cy) / c.fy) / k) + c.cy = y := by field_simp; ring
  rcases hb : c.blender with _ | _
  · simp only [V3.smul, Bool.false_eq_true, if_false, mul_one, one_mul, e1, e2]
    refine ⟨hk0, ⟨le_refl _, ?_⟩, le_refl _, ?_⟩ <;> linarith
  · simp only [V3.smul, if_true, mul_neg, mul_one, neg_neg, neg_mul, one_mul, e1, e2]
    refine ⟨hk0, ⟨le_refl _, ?_⟩, le_refl _, ?_⟩ <;> linarith

theorem sees_lt_top {c : Lens} (hd : c.distortion = none) (hx : 0 < c.fx) (hy : 0 < c.fy) (x y : ℕ) :
    sphereAll (c.sees (pixelSquare x y)) ≠ ⊤ := by
  rw [(C128_solid_angle hd hx hy x y).1]; exact ENNReal.ofReal_ne_top

/-- **C128 (radiance to power, partial)** Both the factor the library uses and the exact one lie between the solid angle of the
pixel times the aperture area times the smallest and the largest cosine over the pixel. Missing: equality. -/
theorem C128_power_partial {c : Lens} (hd : c.distortion = none) (hx : 0 < c.fx) (hy : 0 < c.fy) {area : ℝ} (ha : 0 ≤ area)
    (x y : ℕ) {lo hi : ℝ} (hlo : 0 ≤ lo)
    (h : ∀ ω ∈ c.sees (pixelSquare x y), nrm ω = 1 → lo ≤ |ω.2.2| ∧ |ω.2.2| ≤ hi) :
    c.radianceToPower area x y ∈ Icc (area * (c.pixelSolidAngle x y * lo)) (area * (c.pixelSolidAngle x y * hi)) ∧
      truePower c area x y ∈ Icc (area * (c.pixelSolidAngle x y * lo)) (area * (c.pixelSolidAngle x y * hi)) := by
  have hp := (C128_solid_angle hd hx hy x y).2
  have hn : nrm ((V3.normalize (c.pixelToDirection x y)).x, (V3.normalize (c.pixelToDirection x y)).y,
      (V3.normalize (c.pixelToDirection x y)).z) = 1 := by
    have := V3.dot_normalize (dir_ne (c := c) x y)
    unfold nrm
    rw [sqrt_eq_one, ← this]
    simp only [V3.dot]; ring
  have hc := h _ (corner_mem hd hx hy x y) hn
  refine ⟨?_, ?_⟩
  · rw [power_eq hd]
    constructor
    · gcongr; exact hc.1
    · gcongr; exact hc.2
  · have hm : MeasurableSet (c.sees (pixelSquare x y)) := sees_meas hd hx hy _ _ _ _
    have hmz : Measurable fun ω : ℝ × ℝ × ℝ => ENNReal.ofReal |ω.2.2| := by fun_prop
    have hhi : 0 ≤ hi := hlo.trans (hc.1.trans hc.2)
    have hae : ∀ᵐ ω ∂sphereAll.restrict (c.sees (pixelSquare x y)), lo ≤ |ω.2.2| ∧ |ω.2.2| ≤ hi := by
      filter_upwards [ae_restrict_mem hm, ae_restrict_of_ae sphereAll_unit] with ω h1 h2
      exact h ω h1 h2
    have l1 : ENNReal.ofReal (c.pixelSolidAngle x y * lo) ≤
        ∫⁻ ω in c.sees (pixelSquare x y), ENNReal.ofReal |ω.2.2| ∂sphereAll := by
      calc ENNReal.ofReal (c.pixelSolidAngle x y * lo) = ∫⁻ _ in c.sees (pixelSquare x y), ENNReal.ofReal lo ∂sphereAll := by
            rw [setLIntegral_const, (C128_solid_angle hd hx hy x y).1, mul_comm, ENNReal.ofReal_mul hlo]
        _ ≤ _ := lintegral_mono_ae (hae.mono fun ω hω => ENNReal.ofReal_le_ofReal hω.1)
    have l2 : ∫⁻ ω in c.sees (pixelSquare x y), ENNReal.ofReal |ω.2.2| ∂sphereAll ≤
        ENNReal.ofReal (c.pixelSolidAngle x y * hi) := by
      calc _ ≤ ∫⁻ _ in c.sees (pixelSquare x y), ENNReal.ofReal hi ∂sphereAll :=
            lintegral_mono_ae (hae.mono fun ω hω => ENNReal.ofReal_le_ofReal hω.2)
        _ = _ := by rw [setLIntegral_const, (C128_solid_angle hd hx hy x y).1, mul_comm (c.pixelSolidAngle x y), ENNReal.ofReal_mul hhi]
    have hfin : ∫⁻ ω in c.sees (pixelSquare x y), ENNReal.ofReal |ω.2.2| ∂sphereAll ≠ ⊤ :=
      ne_top_of_le_ne_top ENNReal.ofReal_ne_top l2
    unfold truePower
    constructor
    · gcongr
      exact (ENNReal.ofReal_le_iff_le_toReal hfin).1 l1
    · gcongr
      exact ENNReal.toReal_le_of_le_ofReal (by positivity) l2

/-- The property for the conversion: the factor is the power received from a unit radiance. -/
def C128_full : Prop :=
  ∀ (c : Lens) (area : ℝ) (x y : ℕ), c.distortion = none → 0 < c.fx → 0 < c.fy → 0 ≤ area →
    c.radianceToPower area x y = truePower c area x y

/-- A lens with its principal point at the corner of the first pixel. -/
def cornerLens : Lens := ⟨1, 1, 0, 0, 1, 1, false, none⟩

/-- **C128 is violated**: the cosine is taken at one corner of the pixel, which for the pixel next to the axis is the largest one
of all, so that the power comes out too large. -/
theorem C128_violated : ¬ C128_full := by
  intro hf
  have h := hf cornerLens 1 0 0 rfl (by norm_num [cornerLens]) (by norm_num [cornerLens]) (by norm_num)
  have hd : cornerLens.distortion = none := rfl
  have hx : 0 < cornerLens.fx := by norm_num [cornerLens]
  have hy : 0 < cornerLens.fy := by norm_num [cornerLens]
  have hs := C128_solid_angle hd hx hy 0 0
  rw [power_eq hd] at h
  have hz : |(V3.normalize (cornerLens.pixelToDirection ((0 : ℕ) : ℝ) ((0 : ℕ) : ℝ))).z| = 1 := by
    simp [cornerLens, Lens.pixelToDirection, V3.normalize, V3.len, V3.dot, V3.smul]
  rw [hz, mul_one, one_mul] at h
  unfold truePower at h
  rw [one_mul] at h
  have hne : sphereAll.restrict (cornerLens.sees (pixelSquare 0 0)) ≠ 0 := by
    intro e
    have := congrArg (fun μ => μ univ) e
    simp only [Measure.restrict_apply_univ, Measure.coe_zero, Pi.zero_apply] at this
    rw [hs.1, ENNReal.ofReal_eq_zero] at this
    linarith [hs.2]
  have hz1 : ∀ᵐ ω ∂sphereAll, |ω.2.2| < 1 := by
    refine sphereAll_ae ?_ ?_
    · exact measurableSet_lt (by fun_prop) measurable_const
    · intro z hz φ _
      simp only [sph]
      rw [abs_lt]; exact hz
  have hlt : ∫⁻ ω in cornerLens.sees (pixelSquare 0 0), ENNReal.ofReal |ω.2.2| ∂sphereAll <
      ∫⁻ _ in cornerLens.sees (pixelSquare 0 0), 1 ∂sphereAll := by
    refine lintegral_strict_mono hne (by fun_prop) ?_ ?_
    · refine ne_top_of_le_ne_top (sees_lt_top hd hx hy 0 0) ?_
      calc _ ≤ ∫⁻ _ in cornerLens.sees (pixelSquare 0 0), 1 ∂sphereAll := by
            refine lintegral_mono_ae ?_
            filter_upwards [ae_restrict_of_ae hz1] with ω hω
            exact ENNReal.ofReal_le_one.2 hω.le
        _ = _ := by simp
    · filter_upwards [ae_restrict_of_ae hz1] with ω hω
      exact ENNReal.ofReal_lt_one.2 hω
  rw [setLIntegral_one, hs.1] at hlt
  have := (ENNReal.lt_ofReal_iff_toReal_lt hlt.ne_top).1 hlt
  linarith

/-! ### instances of the hypotheses -/

/-- A pixel of an eighth of a turn in each direction from the axis sees a twelfth of the hemisphere. -/
example : cornerLens.pixelSolidAngle 0 0 = π / 6 := by
  rw [pixel_rect rfl (by norm_num [cornerLens]) (by norm_num [cornerLens])]
  have h : quad 1 1 = π / 6 := by
    unfold quad
    rw [← arctan_tan (x := π / 6) (by linarith [pi_pos]) (by linarith [pi_pos]), tan_pi_div_six]
    norm_num
  have h0 : ∀ t : ℝ, quad 0 t = 0 := fun t => by simp [quad]
  have h1 : ∀ t : ℝ, quad t 0 = 0 := fun t => by simp [quad]
  simp [Lens.rect, cornerLens, h, h0, h1]

example : ∃ c : Lens, c.distortion = none ∧ 0 < c.fx ∧ 0 < c.fy ∧ c.blender = true ∧ c.resX = 1024 :=
  ⟨⟨1800, 1750, 512, 383.5, 1024, 768, true, none⟩, rfl, by norm_num, by norm_num, rfl, rfl⟩

/-- The bounds `0` and `1` always serve. -/
example (c : Lens) (x y : ℕ) : ∀ ω ∈ c.sees (pixelSquare x y), nrm ω = 1 → (0 : ℝ) ≤ |ω.2.2| ∧ |ω.2.2| ≤ 1 := by
  intro ω _ h
  refine ⟨abs_nonneg _, ?_⟩
  unfold nrm at h
  rw [sqrt_eq_one] at h
  rw [abs_le_one_iff_mul_self_le_one]; nlinarith [sq_nonneg ω.1, sq_nonneg ω.2.1]

end Huira.Camera
