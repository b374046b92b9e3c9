import Verif.Materials.Vndf
import Verif.Materials.Unbiased

/-!
# Sampling the Cook–Torrance model estimates reflected light without bias (C93)
-/

set_option linter.unusedSimpArgs false
set_option linter.unusedVariables false

open MeasureTheory Set Real

namespace Huira.Sampling
open V3

/-- The mirror image of `w` in the microfacet normal `h`. -/
def mirror (w h : ℝ × ℝ × ℝ) : ℝ × ℝ × ℝ :=
  (2 * (w.1 * h.1 + w.2.1 * h.2.1 + w.2.2 * h.2.2)) • h - w

theorem mirror_meas (w : ℝ × ℝ × ℝ) : Measurable (mirror w) := by unfold mirror; fun_prop

/-- Seen from the zenith: mirroring stretches solid angle by four times the cosine. -/
theorem mirror_zenith {F : ℝ × ℝ × ℝ → ENNReal} (hF : Measurable F) :
    ∫⁻ h, ENNReal.ofReal (4 * h.2.2) * F (mirror (0, 0, 1) h) ∂sphereAll = ∫⁻ ω, F ω ∂sphereAll := by
  have hm := mirror_meas (0, 0, 1)
  have hs := sph_meas
  rw [sphereAll_lint (by fun_prop), sphereAll_lint hF]
  have hK : Measurable fun z : ℝ => ∫⁻ φ in Ioo 0 (2 * π), F (sph (z, φ)) :=
    Measurable.lintegral_prod_right' (f := fun q : ℝ × ℝ => F (sph q)) (hF.comp hs)
  have e := lintegral_image_eq_lintegral_abs_deriv_mul (s := Ioo (0 : ℝ) 1) (f := fun z => 2 * z ^ 2 - 1) (f' := fun z => 4 * z)
    measurableSet_Ioo (fun x _ => by
      have := (((hasDerivAt_id x).pow 2).const_mul 2).sub_const 1
      refine (this.congr_deriv ?_).hasDerivWithinAt
      simp; ring) (fun a ha b hb hab => by
      simp only at hab
      nlinarith [ha.1, hb.1]) fun z => ∫⁻ φ in Ioo 0 (2 * π), F (sph (z, φ))
  have im : (fun z : ℝ => 2 * z ^ 2 - 1) '' Ioo 0 1 = Ioo (-1) 1 := by
    ext t
    constructor
    · rintro ⟨z, ⟨h0, h1⟩, rfl⟩
      exact ⟨by nlinarith, by nlinarith⟩
    · rintro ⟨h0, h1⟩
      refine ⟨sqrt ((1 + t) / 2), ⟨sqrt_pos.2 (by linarith), ?_⟩, ?_⟩
      · rw [sqrt_lt' one_pos]; linarith
      · simp only; rw [sq_sqrt (by linarith)]; ring
  rw [im] at e
  rw [e]
  have split : ∫⁻ z in Ioo (-1 : ℝ) 1, ∫⁻ φ in Ioo 0 (2 * π), ENNReal.ofReal (4 * (sph (z, φ)).2.2) * F (mirror (0, 0, 1) (sph (z, φ))) =
      ∫⁻ z in Ioo (-1 : ℝ) 1, (Ioo (0 : ℝ) 1).indicator (fun z => ENNReal.ofReal |4 * z| * ∫⁻ φ in Ioo 0 (2 * π), F (sph (2 * z ^ 2 - 1, φ))) z := by
    refine setLIntegral_congr_fun measurableSet_Ioo fun z hz => ?_
    by_cases h : z ∈ Ioo (0 : ℝ) 1
    · rw [indicator_of_mem h, ← lintegral_const_mul' _ _ ENNReal.ofReal_ne_top]
      refine lintegral_congr fun φ => ?_
      have h4 : |4 * z| = 4 * z := abs_of_pos (by linarith [h.1])
      rw [h4]
      congr 2
      have hq : sqrt (1 - (2 * z ^ 2 - 1) ^ 2) = 2 * z * sqrt (1 - z ^ 2) := by
        rw [show 1 - (2 * z ^ 2 - 1) ^ 2 = (2 * z) ^ 2 * (1 - z ^ 2) by ring, sqrt_mul (sq_nonneg _), sqrt_sq (by linarith [h.1])]
      simp only [mirror, sph]
      refine Prod.ext ?_ (Prod.ext ?_ ?_)
      · simp; rw [hq]; ring
      · simp; rw [hq]; ring
      · simp; ring
    · rw [indicator_of_notMem h]
      have hz0 : z ≤ 0 := by
        by_contra hc
        exact h ⟨not_le.1 hc, hz.2⟩
      have : ∀ φ, ENNReal.ofReal (4 * (sph (z, φ)).2.2) = 0 := fun φ => ENNReal.ofReal_eq_zero.2 (by simp only [sph]; linarith)
      simp [this]
  rw [split, lintegral_indicator measurableSet_Ioo, Measure.restrict_restrict measurableSet_Ioo,
    inter_eq_left.2 (show Ioo (0 : ℝ) 1 ⊆ Ioo (-1) 1 from fun x hx => ⟨by linarith [hx.1], hx.2⟩)]

/-- Solid angle does not depend on the frame. -/
theorem rotate_sphere {t b w : V3} (h : Orthonormal t b w) {G : ℝ × ℝ × ℝ → ENNReal} (hG : Measurable G) :
    ∫⁻ ω, G (pt (localToWorld ⟨ω.1, ω.2.1, ω.2.2⟩ t b w)) ∂sphereAll = ∫⁻ ω, G ω ∂sphereAll := by
  set L := rows (pt t) (pt b) (pt w) with hL
  set L' := rows (t.x, b.x, w.x) (t.y, b.y, w.y) (t.z, b.z, w.z) with hL'
  have eL : ∀ x : ℝ × ℝ × ℝ, L x = pt (worldToLocal ⟨x.1, x.2.1, x.2.2⟩ t b w) := by
    intro x; simp only [hL, rows, LinearMap.coe_mk, AddHom.coe_mk, pt, worldToLocal, dot]
    refine Prod.ext (by simp; ring) (Prod.ext (by simp; ring) (by simp; ring))
  have eL' : ∀ x : ℝ × ℝ × ℝ, L' x = pt (localToWorld ⟨x.1, x.2.1, x.2.2⟩ t b w) := by
    intro x; simp only [hL', rows, LinearMap.coe_mk, AddHom.coe_mk, pt, localToWorld]
    refine Prod.ext (by simp; ring) (Prod.ext (by simp; ring) (by simp; ring))
  have h1 : ∀ x, L' (L x) = x := by
    intro x; rw [eL, eL']
    exact congrArg pt (C60_conversions h ⟨x.1, x.2.1, x.2.2⟩ V3.zero).2.1
  have h2 : ∀ x, L (L' x) = x := by
    intro x; rw [eL', eL]
    exact congrArg pt (C60_conversions h ⟨x.1, x.2.1, x.2.2⟩ V3.zero).1
  have hd : LinearMap.det L = 1 := by
    rw [hL, rows_det]
    obtain ⟨tt, bb, nn, tb, tn, bn, right⟩ := h
    rw [← right] at nn ⊢
    simp only [pt, cross, dot] at *
    linear_combination nn
  have key := lin_sphere L L' (rows_meas _ _ _) (rows_meas _ _ _) (by rw [hd]; exact one_ne_zero) h1 h2 (g := fun _ => 1)
    measurable_const hG
  simp only [mul_one] at key
  rw [key, hd]
  refine lintegral_congr_ae ?_
  filter_upwards [sphereAll_unit] with ω hω
  have hn : nrm (L' ω) = 1 := by
    rw [eL']
    have c := (C60_conversions h ⟨ω.1, ω.2.1, ω.2.2⟩ ⟨ω.1, ω.2.1, ω.2.2⟩).2.2.1
    have : nrm (pt (localToWorld ⟨ω.1, ω.2.1, ω.2.2⟩ t b w)) = nrm ω := by
      unfold nrm
      congr 1
      simp only [dot] at c
      simp only [pt]
      linarith
    rw [this, hω]
  rw [dirn_unit hn, hn, eL']
  norm_num

/-- From any direction: mirroring stretches solid angle by four times the cosine. -/
theorem mirror_sphere (w : V3) (hw : dot w w = 1) {F : ℝ × ℝ × ℝ → ENNReal} (hF : Measurable F) :
    ∫⁻ h, ENNReal.ofReal (4 * (w.x * h.1 + w.y * h.2.1 + w.z * h.2.2)) * F (mirror (pt w) h) ∂sphereAll = ∫⁻ ω, F ω ∂sphereAll := by
  classical
  have ho := C60_tangent_frame w hw (decide (w.z < 0)) (by simp) (by intro h; simp; linarith)
  set t := (tangentFrame w (decide (w.z < 0))).1
  set b := (tangentFrame w (decide (w.z < 0))).2
  have hm := mirror_meas (pt w)
  have hl : Measurable fun ω : ℝ × ℝ × ℝ => pt (localToWorld ⟨ω.1, ω.2.1, ω.2.2⟩ t b w) := by
    simp only [pt, localToWorld, add_x, add_y, add_z, hmul_x, hmul_y, hmul_z]; fun_prop
  rw [← rotate_sphere ho hF, ← mirror_zenith (F := fun ω => F (pt (localToWorld ⟨ω.1, ω.2.1, ω.2.2⟩ t b w))) (by fun_prop)]
  rw [← rotate_sphere ho (G := fun h => ENNReal.ofReal (4 * (w.x * h.1 + w.y * h.2.1 + w.z * h.2.2)) * F (mirror (pt w) h)) (by fun_prop)]
  refine lintegral_congr fun h => ?_
  have c := (C60_conversions ho ⟨h.1, h.2.1, h.2.2⟩ V3.zero).2.2.2.2
  have c' : w.x * (pt (localToWorld ⟨h.1, h.2.1, h.2.2⟩ t b w)).1 + w.y * (pt (localToWorld ⟨h.1, h.2.1, h.2.2⟩ t b w)).2.1 +
      w.z * (pt (localToWorld ⟨h.1, h.2.1, h.2.2⟩ t b w)).2.2 = h.2.2 := by
    simp only [dot, pt] at c ⊢
    linarith
  simp only [mirror]
  rw [show (pt w).1 = w.x from rfl, show (pt w).2.1 = w.y from rfl, show (pt w).2.2 = w.z from rfl, c']
  congr 2
  simp only [pt, localToWorld, add_x, add_y, add_z, hmul_x, hmul_y, hmul_z]
  refine Prod.ext ?_ (Prod.ext ?_ ?_) <;> simp <;> ring

theorem visible_split (w : V3) (r : ℝ) (h : ℝ × ℝ × ℝ) (hw : 0 < w.z) (h8 : 1e-8 ≤ w.z ^ 2) :
    visible w r h = max 0 (4 * (w.x * h.1 + w.y * h.2.1 + w.z * h.2.2)) *
      (Huira.Bsdf.ggxD h.2.2 (r * r * (r * r)) * Huira.Bsdf.smithG1 w.z (r * r * (r * r)) / (4 * w.z)) := by
  have hm : max (w.z * w.z) 1e-8 = w.z * w.z := max_eq_left (by rw [← sq]; exact h8)
  unfold visible Huira.Bsdf.ggxD Huira.Bsdf.smithG1
  simp only [hm]
  have e4 : max 0 (4 * (w.x * h.1 + w.y * h.2.1 + w.z * h.2.2)) = 4 * max 0 (w.x * h.1 + w.y * h.2.1 + w.z * h.2.2) := by
    rw [mul_max_of_nonneg _ _ (by norm_num : (0 : ℝ) ≤ 4), mul_zero]
  rw [e4, show r * r * (r * r) = r ^ 4 by ring, ← sq w.z, ← sq h.2.2, mul_assoc π, ← sq (h.2.2 ^ 2 * (r ^ 4 - 1) + 1)]
  field_simp

/-- The mirror image of the view in the normal drawn has, above the surface, the density the specular lobe reports. -/
theorem spec_lint (w : V3) (hu : dot w w = 1) (hz : 0 < w.z) (h8 : 1e-8 ≤ w.z ^ 2) (r : ℝ) (hr : 0 < r)
    (hb : (vndfVh w (r * r)).x * (vndfVh w (r * r)).x + (vndfVh w (r * r)).y * (vndfVh w (r * r)).y > 1e-7 ∨
      (vndfVh w (r * r)).x = 0 ∧ (vndfVh w (r * r)).y = 0)
    {F : ℝ × ℝ × ℝ → ENNReal} (hF : Measurable F) :
    ∫⁻ u, {ω : ℝ × ℝ × ℝ | 0 < ω.2.2}.indicator F (mirror (pt w) (pt (vndf w r u.1 u.2).dir)) ∂unif =
      ∫⁻ ω, ENNReal.ofReal (Huira.Bsdf.ggxD (dirn (pt w + ω)).2.2 (r * r * (r * r)) *
        Huira.Bsdf.smithG1 w.z (r * r * (r * r)) / (4 * w.z)) * F ω ∂solidAngle := by
  have hm := mirror_meas (pt w)
  have hdm := dirn_meas
  have hS : MeasurableSet {ω : ℝ × ℝ × ℝ | 0 < ω.2.2} :=
    measurableSet_lt measurable_const (by fun_prop : Measurable fun ω : ℝ × ℝ × ℝ => ω.2.2)
  have hFi := hF.indicator hS
  set K : ℝ × ℝ × ℝ → ℝ := fun h => Huira.Bsdf.ggxD h.2.2 (r * r * (r * r)) * Huira.Bsdf.smithG1 w.z (r * r * (r * r)) / (4 * w.z) with hK
  have hKm : Measurable K := by simp only [hK, Huira.Bsdf.ggxD]; fun_prop
  rw [vndf_lint w hu hz r hr hb (F := fun h => {ω : ℝ × ℝ × ℝ | 0 < ω.2.2}.indicator F (mirror (pt w) h)) (hFi.comp hm),
    solid_restrict, ← lintegral_indicator hS, ← lintegral_indicator hS]
  have key := mirror_sphere w hu (F := {ω : ℝ × ℝ × ℝ | 0 < ω.2.2}.indicator fun ω => ENNReal.ofReal (K (dirn (pt w + ω))) * F ω)
    (Measurable.indicator (by fun_prop) hS)
  refine Eq.trans (lintegral_congr_ae ?_) key
  filter_upwards [sphereAll_unit] with h hh
  set c := w.x * h.1 + w.y * h.2.1 + w.z * h.2.2 with hc
  have hvs := visible_split w r h hz h8
  rw [← hc] at hvs
  by_cases c0 : 0 < c
  · have hmir : mirror (pt w) h = (2 * c) • h - pt w := rfl
    have hdir : dirn (pt w + mirror (pt w) h) = h := by
      rw [hmir, add_sub_cancel, dirn_smul _ (by linarith), dirn_unit hh]
    have hmz : (mirror (pt w) h).2.2 = 2 * c * h.2.2 - w.z := by rw [hmir]; simp [pt]
    by_cases hz2 : 0 < (mirror (pt w) h).2.2
    · have hh0 : 0 < h.2.2 := by
        rw [hmz] at hz2
        by_contra hcon
        have := mul_nonneg c0.le (neg_nonneg.2 (not_lt.1 hcon))
        linarith
      rw [indicator_of_mem (show h ∈ {ω : ℝ × ℝ × ℝ | 0 < ω.2.2} from hh0), indicator_of_mem (show mirror (pt w) h ∈ {ω : ℝ × ℝ × ℝ | 0 < ω.2.2} from hz2),
        indicator_of_mem (show mirror (pt w) h ∈ {ω : ℝ × ℝ × ℝ | 0 < ω.2.2} from hz2), hdir, hvs,
        max_eq_right (by linarith), ENNReal.ofReal_mul (by linarith), mul_assoc]
    · have n1 : mirror (pt w) h ∉ {ω : ℝ × ℝ × ℝ | 0 < ω.2.2} := hz2
      rw [indicator_of_notMem n1, mul_zero]
      by_cases hh0 : h ∈ {ω : ℝ × ℝ × ℝ | 0 < ω.2.2}
      · rw [indicator_of_mem hh0, indicator_of_notMem n1, mul_zero]
      · rw [indicator_of_notMem hh0]
  · have n4 : ENNReal.ofReal (4 * c) = 0 := ENNReal.ofReal_eq_zero.2 (by linarith)
    rw [n4, zero_mul]
    by_cases hh0 : h ∈ {ω : ℝ × ℝ × ℝ | 0 < ω.2.2}
    · rw [indicator_of_mem hh0, hvs, max_eq_left (by linarith), zero_mul, ENNReal.ofReal_zero, zero_mul]
    · rw [indicator_of_notMem hh0]

/-- Stretching an interval. -/
theorem affine_lint (a b : ℝ) (hab : a ≤ b) (G : ℝ → ENNReal) :
    ∫⁻ x in Ioo a b, G ((x - a) / (b - a)) = ENNReal.ofReal (b - a) * ∫⁻ x in Ioo (0 : ℝ) 1, G x := by
  rcases eq_or_lt_of_le hab with rfl | h
  · simp
  · have hp : 0 < b - a := by linarith
    have e := lintegral_image_eq_lintegral_abs_deriv_mul (s := Ioo (0 : ℝ) 1) (f := fun x => a + (b - a) * x) (f' := fun _ => b - a)
      measurableSet_Ioo (fun x _ => by
        have := ((hasDerivAt_id x).const_mul (b - a)).const_add a
        simpa using this.hasDerivWithinAt) (fun x _ y _ hxy => by
        simp only at hxy
        exact mul_left_cancel₀ hp.ne' (by linarith)) fun x => G ((x - a) / (b - a))
    have im : (fun x : ℝ => a + (b - a) * x) '' Ioo 0 1 = Ioo a b := by
      ext t
      constructor
      · rintro ⟨x, ⟨h0, h1⟩, rfl⟩
        exact ⟨by nlinarith, by nlinarith⟩
      · rintro ⟨h0, h1⟩
        exact ⟨(t - a) / (b - a), ⟨by apply div_pos <;> linarith, by rw [div_lt_one hp]; linarith⟩, by simp only; field_simp; ring⟩
    rw [im] at e
    rw [e, ← lintegral_const_mul' _ _ ENNReal.ofReal_ne_top, abs_of_pos hp]
    refine lintegral_congr fun x => ?_
    congr 2
    field_simp
    ring

/-- Choosing a lobe by one random number and reusing what is left of it. -/
theorem lobe_lint (w : ℝ) (h0 : 0 < w) (h1 : w ≤ 1) {G H : ℝ × ℝ → ENNReal} (hG : Measurable G) (hH : Measurable H) :
    ∫⁻ u, (if u.1 < w then G (u.1 / w, u.2) else H ((u.1 - w) / (1 - w), u.2)) ∂unif =
      ENNReal.ofReal w * ∫⁻ u, G u ∂unif + ENNReal.ofReal (1 - w) * ∫⁻ u, H u ∂unif := by
  have hS : MeasurableSet {u : ℝ × ℝ | u.1 < w} := measurableSet_lt (by fun_prop) measurable_const
  have m1 : Measurable fun u : ℝ × ℝ => G (u.1 / w, u.2) := by fun_prop
  have m2 : Measurable fun u : ℝ × ℝ => H ((u.1 - w) / (1 - w), u.2) := by fun_prop
  have gi : ∀ {K : ℝ × ℝ → ENNReal}, Measurable K → Measurable fun x : ℝ => ∫⁻ y in Ioo (0 : ℝ) 1, K (x, y) :=
    fun hK => Measurable.lintegral_prod_right' hK
  unfold unif
  rw [lintegral_prod _ (Measurable.ite hS m1 m2).aemeasurable, lintegral_prod _ hG.aemeasurable, lintegral_prod _ hH.aemeasurable]
  have hu : Ioo (0 : ℝ) 1 = Ioo 0 w ∪ Ico w 1 := (Ioo_union_Ico_eq_Ioo h0 h1).symm
  have hd : Disjoint (Ioo 0 w) (Ico w 1) := by
    rw [Set.disjoint_left]; intro x hx hx'; exact absurd hx.2 (not_lt.2 hx'.1)
  have key : ∀ f : ℝ → ENNReal, ∫⁻ x in Ioo (0 : ℝ) 1, f x = (∫⁻ x in Ioo 0 w, f x) + ∫⁻ x in Ioo w 1, f x := by
    intro f
    conv_lhs => rw [hu]
    rw [lintegral_union measurableSet_Ico hd]
    congr 1
    exact (setLIntegral_congr Ioo_ae_eq_Ico).symm
  rw [key]
  congr 1
  · have := affine_lint 0 w h0.le (fun x => ∫⁻ y in Ioo (0 : ℝ) 1, G (x, y))
    simp only [sub_zero] at this
    rw [← this]
    refine setLIntegral_congr_fun measurableSet_Ioo fun x hx => ?_
    simp only [if_pos hx.2]
  · rw [← affine_lint w 1 h1 (fun x => ∫⁻ y in Ioo (0 : ℝ) 1, H (x, y))]
    refine setLIntegral_congr_fun measurableSet_Ioo fun x hx => ?_
    simp only [if_neg (not_lt.2 hx.1.le)]

end Huira.Sampling

namespace Huira.Bsdf
open Huira.Sampling V3

variable {n : ℕ}

/-- What `cookSample` gives for the local direction its lobe has drawn. -/
theorem cookSample_of (f : Frame) (hf : Orthonormal f.t f.b f.n) (p : Params n) (wo : V3) (hwo : 0 < dot wo f.n) (u1 u2 : ℝ) (d : V3)
    (hd : (if (lobe (0.5 * (1 + clamp p.metallic 0 1)) u1).1 then
        reflect (-worldToLocal wo f.t f.b f.n) (vndf (worldToLocal wo f.t f.b f.n) (clamp p.roughness 0.01 1)
          (lobe (0.5 * (1 + clamp p.metallic 0 1)) u1).2 u2).dir
      else (cosine (lobe (0.5 * (1 + clamp p.metallic 0 1)) u1).2 u2).dir) = d) :
    (0 < d.z → 0 < (cookSample wo f p u1 u2).pdf ∧ (cookSample wo f p u1 u2).wi = localToWorld d f.t f.b f.n ∧
      ∀ i, (cookSample wo f p u1 u2).value i = cookEval wo (localToWorld d f.t f.b f.n) f p i *
        (d.z / cookPdf wo (localToWorld d f.t f.b f.n) f p)) ∧
    (d.z ≤ 0 → (cookSample wo f p u1 u2).pdf = 0 ∧ ∀ i, (cookSample wo f p u1 u2).value i = 0) := by
  have hn : dot f.n (localToWorld d f.t f.b f.n) = d.z := by rw [dot_comm]; exact (C60_conversions hf d V3.zero).2.2.2.2
  have hwo' : 0 < dot f.n wo := by rw [dot_comm]; exact hwo
  constructor
  · intro hz
    have hq := cookPdf_pos wo (localToWorld d f.t f.b f.n) f p hf.nn hwo' (by rw [hn]; exact hz)
    have e : cookSample wo f p u1 u2 = ⟨localToWorld d f.t f.b f.n, fun i => cookEval wo (localToWorld d f.t f.b f.n) f p i *
        (d.z / cookPdf wo (localToWorld d f.t f.b f.n) f p), cookPdf wo (localToWorld d f.t f.b f.n) f p, false⟩ := by
      unfold cookSample
      rw [if_neg (not_le.2 hwo')]
      simp only [hd, hn]
      rw [if_neg (by push Not; intro _; exact hz), if_neg (not_le.2 hz), if_neg (not_le.2 hq)]
    rw [e]
    exact ⟨hq, rfl, fun _ => rfl⟩
  · intro hz
    unfold cookSample
    rw [if_neg (not_le.2 hwo')]
    simp only [hd, hn, if_pos hz]
    split_ifs <;> exact ⟨rfl, fun _ => rfl⟩

/-- The density reported, in local coordinates. -/
theorem cookPdf_local (f : Frame) (hf : Orthonormal f.t f.b f.n) (p : Params n) (wo : V3) (hwo : 0 < dot wo f.n)
    (ω : ℝ × ℝ × ℝ) (hω : 0 < ω.2.2) :
    cookPdf wo (localToWorld (vec ω) f.t f.b f.n) f p =
      0.5 * (1 + clamp p.metallic 0 1) *
        (ggxD (dirn (pt (worldToLocal wo f.t f.b f.n) + ω)).2.2 (clamp p.roughness 0.01 1 * clamp p.roughness 0.01 1 *
          (clamp p.roughness 0.01 1 * clamp p.roughness 0.01 1)) *
        smithG1 (dot wo f.n) (clamp p.roughness 0.01 1 * clamp p.roughness 0.01 1 *
          (clamp p.roughness 0.01 1 * clamp p.roughness 0.01 1)) / (4 * dot wo f.n)) +
      (1 - 0.5 * (1 + clamp p.metallic 0 1)) * (ω.2.2 * (1 / π)) := by
  have hn : dot f.n (localToWorld (vec ω) f.t f.b f.n) = ω.2.2 := by rw [dot_comm]; exact (C60_conversions hf _ V3.zero).2.2.2.2
  have hwo' : dot f.n wo = dot wo f.n := dot_comm _ _
  have hne := half_ne (nn := f.n) (wo := wo) (wi := localToWorld (vec ω) f.t f.b f.n) (by rw [hwo']; exact hwo) (by rw [hn]; exact hω)
  have hsum : wo + localToWorld (vec ω) f.t f.b f.n = localToWorld (worldToLocal wo f.t f.b f.n + vec ω) f.t f.b f.n := by
    conv_lhs => rw [← (C60_conversions hf wo V3.zero).2.1]
    ext <;> simp only [localToWorld, add_x, add_y, add_z, hmul_x, hmul_y, hmul_z] <;> ring
  have hh : dot f.n (V3.normalize (wo + localToWorld (vec ω) f.t f.b f.n)) = (dirn (pt (worldToLocal wo f.t f.b f.n) + ω)).2.2 := by
    have e1 : pt (worldToLocal wo f.t f.b f.n) + ω = pt (worldToLocal wo f.t f.b f.n + vec ω) := rfl
    rw [e1, ← pt_normalize, hsum, V3.normalize_eq, V3.normalize_eq, dot_smul_right, dot_comm,
      (C60_conversions hf (worldToLocal wo f.t f.b f.n + vec ω) V3.zero).2.2.2.2]
    simp only [pt, hmul_z, V3.len]
    rw [(C60_conversions hf (worldToLocal wo f.t f.b f.n + vec ω) (worldToLocal wo f.t f.b f.n + vec ω)).2.2.1]
  have hpos : 0 ≤ dot f.n (V3.normalize (wo + localToWorld (vec ω) f.t f.b f.n)) := by
    rw [V3.normalize_eq, dot_smul_right, dot_add_right, hn, hwo']
    have := len_pos hne
    positivity
  unfold cookPdf
  simp only
  rw [hn, hwo', if_neg (by push Not; exact ⟨hwo, hω⟩), max_eq_left hpos, hh]

/-- The core: any function of the direction drawn averages to its integral against the reported density. -/
theorem cook_lint (f : Frame) (hf : Orthonormal f.t f.b f.n) (p : Params n) (wo : V3) (hu : dot wo wo = 1) (hwo : 0 < dot wo f.n)
    (h8 : 1e-8 ≤ dot wo f.n ^ 2)
    (hb : let v := vndfVh (worldToLocal wo f.t f.b f.n) (clamp p.roughness 0.01 1 * clamp p.roughness 0.01 1)
      v.x * v.x + v.y * v.y > 1e-7 ∨ v.x = 0 ∧ v.y = 0)
    {F : ℝ × ℝ × ℝ → ENNReal} (hF : Measurable F) :
    ∫⁻ u, (if 0 < (cookSample wo f p u.1 u.2).pdf then
        F (pt (worldToLocal (cookSample wo f p u.1 u.2).wi f.t f.b f.n)) else 0) ∂unif =
      ∫⁻ ω, ENNReal.ofReal (cookPdf wo (localToWorld (vec ω) f.t f.b f.n) f p) * F ω ∂solidAngle := by
  have hpi := pi_pos
  set w := worldToLocal wo f.t f.b f.n with hw
  have hwz : w.z = dot wo f.n := rfl
  have hwu : dot w w = 1 := by rw [hw, (C60_conversions hf wo wo).2.2.2.1, hu]
  set r := clamp p.roughness 0.01 1 with hr
  have hr0 : 0 < r := lt_of_lt_of_le (by norm_num) (clamp_mem p.roughness 0.01 1 (by norm_num)).1
  have hm := clamp_mem p.metallic 0 1 (by norm_num)
  set s := 0.5 * (1 + clamp p.metallic 0 1) with hs
  have s0 : 0 < s := by rw [hs]; nlinarith [hm.1]
  have s1 : s ≤ 1 := by rw [hs]; nlinarith [hm.2]
  have hS : MeasurableSet {ω : ℝ × ℝ × ℝ | 0 < ω.2.2} :=
    measurableSet_lt measurable_const (by fun_prop : Measurable fun ω : ℝ × ℝ × ℝ => ω.2.2)
  set G : ℝ × ℝ → ENNReal := fun u => {ω : ℝ × ℝ × ℝ | 0 < ω.2.2}.indicator F (mirror (pt w) (pt (vndf w r u.1 u.2).dir)) with hG
  have hGm : Measurable G := (hF.indicator hS).comp ((mirror_meas _).comp (vndf_meas w r))
  have hcm : Measurable fun u : ℝ × ℝ => pt (cosine u.1 u.2).dir := by simp only [pt, cosine]; fun_prop
  set H : ℝ × ℝ → ENNReal := fun u => F (pt (cosine u.1 u.2).dir) with hH
  have hHm : Measurable H := hF.comp hcm
  have e1 : ∫⁻ u, (if 0 < (cookSample wo f p u.1 u.2).pdf then
        F (pt (worldToLocal (cookSample wo f p u.1 u.2).wi f.t f.b f.n)) else 0) ∂unif =
      ∫⁻ u, (if u.1 < s then G (u.1 / s, u.2) else H ((u.1 - s) / (1 - s), u.2)) ∂unif := by
    refine lintegral_congr_ae ?_
    unfold unif
    rw [Measure.prod_restrict]
    filter_upwards [ae_restrict_mem (measurableSet_Ioo.prod measurableSet_Ioo)] with u hu'
    by_cases hlt : u.1 < s
    · have hl : lobe s u.1 = (true, u.1 / s) := by unfold lobe; rw [if_pos hlt]
      obtain ⟨c1, c2⟩ := cookSample_of f hf p wo hwo u.1 u.2 (reflect (-w) (vndf w r (u.1 / s) u.2).dir) (by
        rw [← hs, hl, if_pos rfl])
      have hpt : pt (reflect (-w) (vndf w r (u.1 / s) u.2).dir) = mirror (pt w) (pt (vndf w r (u.1 / s) u.2).dir) := by
        simp only [reflect, mirror, pt, dot, sub_x, sub_y, sub_z, hmul_x, hmul_y, hmul_z, neg_x, neg_y, neg_z]
        refine Prod.ext ?_ (Prod.ext ?_ ?_) <;> simp <;> ring
      rw [if_pos hlt]
      simp only [hG]
      rw [← hpt]
      by_cases hz : 0 < (reflect (-w) (vndf w r (u.1 / s) u.2).dir).z
      · obtain ⟨a, b, _⟩ := c1 hz
        rw [if_pos a, b, (C60_conversions hf _ V3.zero).1, indicator_of_mem]
        exact hz
      · obtain ⟨a, _⟩ := c2 (not_lt.1 hz)
        rw [if_neg (by rw [a]; exact lt_irrefl _), indicator_of_notMem]
        exact hz
    · have hl : lobe s u.1 = (false, (u.1 - s) / (1 - s)) := by unfold lobe; rw [if_neg hlt]
      obtain ⟨c1, c2⟩ := cookSample_of f hf p wo hwo u.1 u.2 (cosine ((u.1 - s) / (1 - s)) u.2).dir (by
        rw [← hs, hl]; simp)
      rw [if_neg hlt]
      have hl2 := (lobe_mem s u.1 s0 s1 hu'.1.1.le hu'.1.2).2
      rw [hl] at hl2
      obtain ⟨a, b, _⟩ := c1 (cosine_z _ _ hl2)
      simp only [hH]
      rw [if_pos a, b, (C60_conversions hf _ V3.zero).1]
  rw [e1, lobe_lint s s0 s1 hGm hHm, spec_lint w hwu hwo h8 r hr0 hb hF]
  have e2 : ∫⁻ u, H u ∂unif = ∫⁻ ω, ENNReal.ofReal (ω.2.2 * (1 / π)) * F ω ∂solidAngle := by
    simp only [hH]
    rw [← lintegral_map hF hcm, cosine_density, lintegral_withDensity_eq_lintegral_mul _ (by fun_prop) hF]
    rfl
  have hdm := dirn_meas
  have hD : Measurable fun ω : ℝ × ℝ × ℝ => ENNReal.ofReal (ggxD (dirn (pt w + ω)).2.2 (r * r * (r * r)) *
      smithG1 w.z (r * r * (r * r)) / (4 * w.z)) * F ω := by
    have hd2 : Measurable fun ω : ℝ × ℝ × ℝ => (dirn (pt w + ω)).2.2 :=
      measurable_snd.comp (measurable_snd.comp (hdm.comp (measurable_const_add _)))
    have hg : Measurable fun x : ℝ => ggxD x (r * r * (r * r)) := by unfold ggxD; fun_prop
    exact (ENNReal.measurable_ofReal.comp (((hg.comp hd2).mul_const _).div_const _)).mul hF
  rw [e2, ← lintegral_const_mul' _ _ ENNReal.ofReal_ne_top, ← lintegral_const_mul' _ _ ENNReal.ofReal_ne_top,
    ← lintegral_add_left (hD.const_mul _)]
  have hsa : ∀ᵐ ω ∂solidAngle, 0 < ω.2.2 := by rw [solid_restrict]; exact ae_restrict_mem hS
  refine lintegral_congr_ae ?_
  filter_upwards [hsa] with ω h1
  rw [cookPdf_local f hf p wo hwo ω h1, ← hw, ← hr, ← hs, ← mul_assoc (ENNReal.ofReal s), ← mul_assoc (ENNReal.ofReal (1 - s)), ← add_mul, hwz]
  congr 1
  have ha2 := alpha2_pos p.roughness
  rw [← hr] at ha2
  have g1 := smithG1_pos (dot wo f.n) _ ha2.le
  have hd0 : 0 ≤ ggxD (dirn (pt w + ω)).2.2 (r * r * (r * r)) := by
    unfold ggxD
    simp only [mul_assoc π]
    exact div_nonneg ha2.le (mul_nonneg hpi.le (mul_self_nonneg _))
  have s2 : 0 ≤ 1 - s := by linarith
  rw [← ENNReal.ofReal_mul s0.le, ← ENNReal.ofReal_mul s2, ← ENNReal.ofReal_add (by positivity) (by positivity)]

theorem cookPdf_meas (f : Frame) (p : Params n) (wo : V3) (W : ℝ × ℝ × ℝ → V3) (hx : Measurable fun ω => (W ω).x)
    (hy : Measurable fun ω => (W ω).y) (hz : Measurable fun ω => (W ω).z) :
    Measurable fun ω => cookPdf wo (W ω) f p := by
  unfold cookPdf
  simp only
  have hd : Measurable fun ω => dot f.n (W ω) := by unfold dot; fun_prop
  have hh : Measurable fun ω => dot f.n (V3.normalize (wo + W ω)) := by
    simp only [V3.normalize_eq, dot, hmul_x, hmul_y, hmul_z, V3.len, add_x, add_y, add_z]; fun_prop
  refine ite_meas ((MeasurableSet.const _).union (measurableSet_le hd measurable_const)) measurable_const ?_
  unfold ggxD
  fun_prop

theorem cookEval_meas (f : Frame) (p : Params n) (wo : V3) (i : Fin n) (W : ℝ × ℝ × ℝ → V3) (hx : Measurable fun ω => (W ω).x)
    (hy : Measurable fun ω => (W ω).y) (hz : Measurable fun ω => (W ω).z) :
    Measurable fun ω => cookEval wo (W ω) f p i := by
  unfold cookEval
  simp only
  have hd : Measurable fun ω => dot f.n (W ω) := by unfold dot; fun_prop
  have hh : ∀ a : V3, Measurable fun ω => dot a (V3.normalize (wo + W ω)) := by
    intro a; simp only [V3.normalize_eq, dot, hmul_x, hmul_y, hmul_z, V3.len, add_x, add_y, add_z]; fun_prop
  have h1 := hh f.n
  have h2 := hh wo
  refine ite_meas ((MeasurableSet.const _).union (measurableSet_le hd measurable_const)) measurable_const ?_
  unfold ggxD schlick smithG2 smithG1
  fun_prop

/-- **C93.**  For Cook–Torrance, seen from a unit direction above the surface: the valid samples have exactly the density `pdf`
reports — the chance that a valid sample falls in any set of directions is the integral of `pdf` over it. -/
theorem C93_cook_density_partial (f : Frame) (hf : Orthonormal f.t f.b f.n) (p : Params n) (wo : V3) (hu : dot wo wo = 1)
    (hwo : 0 < dot wo f.n) (h8 : 1e-8 ≤ dot wo f.n ^ 2)
    (hb : let v := vndfVh (worldToLocal wo f.t f.b f.n) (clamp p.roughness 0.01 1 * clamp p.roughness 0.01 1)
      v.x * v.x + v.y * v.y > 1e-7 ∨ v.x = 0 ∧ v.y = 0)
    (A : Set (ℝ × ℝ × ℝ)) (hA : MeasurableSet A) :
    ∫⁻ u, (if 0 < (Kind.cookTorrance.sample wo f p u.1 u.2).pdf then
        A.indicator 1 (pt (worldToLocal (Kind.cookTorrance.sample wo f p u.1 u.2).wi f.t f.b f.n)) else 0) ∂unif =
      ∫⁻ ω in A, ENNReal.ofReal (Kind.cookTorrance.pdf wo (localToWorld (vec ω) f.t f.b f.n) f p) ∂solidAngle := by
  rw [← lintegral_indicator hA]
  refine Eq.trans (cook_lint f hf p wo hu hwo h8 hb (measurable_one.indicator hA)) (lintegral_congr fun ω => ?_)
  by_cases h : ω ∈ A
  · rw [indicator_of_mem h, indicator_of_mem h]; simp [Kind.pdf]
  · rw [indicator_of_notMem h, indicator_of_notMem h, mul_zero]

/-- **C93.**  For Cook–Torrance: the expected value of weight times incoming radiance, over the two random numbers, is the
reflection integral of BSDF times cosine times radiance over the hemisphere, for every radiance distribution. -/
theorem C93_cook_unbiased_partial (f : Frame) (hf : Orthonormal f.t f.b f.n) (p : Params n) (wo : V3) (hu : dot wo wo = 1)
    (hwo : 0 < dot wo f.n) (h8 : 1e-8 ≤ dot wo f.n ^ 2)
    (hb : let v := vndfVh (worldToLocal wo f.t f.b f.n) (clamp p.roughness 0.01 1 * clamp p.roughness 0.01 1)
      v.x * v.x + v.y * v.y > 1e-7 ∨ v.x = 0 ∧ v.y = 0)
    (i : Fin n) (L : V3 → ENNReal) (hL : Measurable fun ω => L (vec ω)) :
    ∫⁻ u, ENNReal.ofReal ((Kind.cookTorrance.sample wo f p u.1 u.2).value i) * L (Kind.cookTorrance.sample wo f p u.1 u.2).wi ∂unif =
    ∫⁻ ω, ENNReal.ofReal (Kind.cookTorrance.eval wo (localToWorld (vec ω) f.t f.b f.n) f p i *
        dot (localToWorld (vec ω) f.t f.b f.n) f.n) * L (localToWorld (vec ω) f.t f.b f.n) ∂solidAngle := by
  set W : ℝ × ℝ × ℝ → V3 := fun ω => localToWorld (vec ω) f.t f.b f.n with hW
  have hx : Measurable fun ω => (W ω).x := by simp only [hW, localToWorld, vec, add_x, hmul_x]; fun_prop
  have hy : Measurable fun ω => (W ω).y := by simp only [hW, localToWorld, vec, add_y, hmul_y]; fun_prop
  have hz : Measurable fun ω => (W ω).z := by simp only [hW, localToWorld, vec, add_z, hmul_z]; fun_prop
  have hev := cookEval_meas f p wo i W hx hy hz
  have hpd := cookPdf_meas f p wo W hx hy hz
  have hLW : Measurable fun ω => L (W ω) := by
    have : (fun ω => L (W ω)) = (fun ω => L (vec ω)) ∘ fun ω => (((W ω).x, (W ω).y, (W ω).z) : ℝ × ℝ × ℝ) := rfl
    rw [this]; exact hL.comp (hx.prodMk (hy.prodMk hz))
  have hFm : Measurable fun ω : ℝ × ℝ × ℝ => ENNReal.ofReal (cookEval wo (W ω) f p i * (ω.2.2 / cookPdf wo (W ω) f p)) * L (W ω) :=
    (ENNReal.measurable_ofReal.comp (hev.mul ((by fun_prop : Measurable fun ω : ℝ × ℝ × ℝ => ω.2.2).div hpd))).mul hLW
  have hS : MeasurableSet {ω : ℝ × ℝ × ℝ | 0 < ω.2.2} :=
    measurableSet_lt measurable_const (by fun_prop : Measurable fun ω : ℝ × ℝ × ℝ => ω.2.2)
  have hwo' : 0 < dot f.n wo := by rw [dot_comm]; exact hwo
  have key := cook_lint f hf p wo hu hwo h8 hb hFm
  have e1 : ∀ u : ℝ × ℝ, ENNReal.ofReal ((Kind.cookTorrance.sample wo f p u.1 u.2).value i) * L (Kind.cookTorrance.sample wo f p u.1 u.2).wi =
      (if 0 < (cookSample wo f p u.1 u.2).pdf then
        (fun ω : ℝ × ℝ × ℝ => ENNReal.ofReal (cookEval wo (W ω) f p i * (ω.2.2 / cookPdf wo (W ω) f p)) * L (W ω))
          (pt (worldToLocal (cookSample wo f p u.1 u.2).wi f.t f.b f.n)) else 0) := by
    intro u
    obtain ⟨c1, c2⟩ := cookSample_of f hf p wo hwo u.1 u.2 _ rfl
    show ENNReal.ofReal ((cookSample wo f p u.1 u.2).value i) * L (cookSample wo f p u.1 u.2).wi = _
    rcases lt_or_ge 0 (if (lobe (0.5 * (1 + clamp p.metallic 0 1)) u.1).1 then
        reflect (-worldToLocal wo f.t f.b f.n) (vndf (worldToLocal wo f.t f.b f.n) (clamp p.roughness 0.01 1)
          (lobe (0.5 * (1 + clamp p.metallic 0 1)) u.1).2 u.2).dir
      else (cosine (lobe (0.5 * (1 + clamp p.metallic 0 1)) u.1).2 u.2).dir).z with h | h
    · obtain ⟨a, b, c⟩ := c1 h
      rw [if_pos a, c, b, (C60_conversions hf _ V3.zero).1]
      rfl
    · obtain ⟨a, c⟩ := c2 h
      rw [if_neg (by rw [a]; exact lt_irrefl _), c]
      simp
  rw [lintegral_congr e1, key]
  have hsa : ∀ᵐ ω ∂solidAngle, 0 < ω.2.2 := by rw [solid_restrict]; exact ae_restrict_mem hS
  refine lintegral_congr_ae ?_
  filter_upwards [hsa] with ω h1
  have h3 : dot (W ω) f.n = ω.2.2 := (C60_conversions hf _ V3.zero).2.2.2.2
  have hq := cookPdf_pos wo (W ω) f p hf.nn hwo' (by rw [dot_comm, h3]; exact h1)
  rw [← mul_assoc, ← ENNReal.ofReal_mul hq.le, h3]
  congr 2
  show cookPdf wo (W ω) f p * (cookEval wo (W ω) f p i * (ω.2.2 / cookPdf wo (W ω) f p)) = cookEval wo (W ω) f p i * ω.2.2
  field_simp

/-- **C93.**  The density Cook–Torrance reports never integrates to more than one over the hemisphere; what is missing is the
chance that the mirror direction falls below the surface and the sample is invalid. -/
theorem C93_cook_mass_partial (f : Frame) (hf : Orthonormal f.t f.b f.n) (p : Params n) (wo : V3) (hu : dot wo wo = 1)
    (hwo : 0 < dot wo f.n) (h8 : 1e-8 ≤ dot wo f.n ^ 2)
    (hb : let v := vndfVh (worldToLocal wo f.t f.b f.n) (clamp p.roughness 0.01 1 * clamp p.roughness 0.01 1)
      v.x * v.x + v.y * v.y > 1e-7 ∨ v.x = 0 ∧ v.y = 0) :
    ∫⁻ ω, ENNReal.ofReal (Kind.cookTorrance.pdf wo (localToWorld (vec ω) f.t f.b f.n) f p) ∂solidAngle ≤ 1 := by
  have h := C93_cook_density_partial f hf p wo hu hwo h8 hb univ MeasurableSet.univ
  rw [Measure.restrict_univ] at h
  rw [← h]
  have h1 : unif univ = 1 := by unfold unif; rw [← univ_prod_univ, Measure.prod_prod]; simp
  calc _ ≤ ∫⁻ _, 1 ∂unif := lintegral_mono fun u => by
        simp only [indicator_univ, Pi.one_apply]
        split_ifs <;> simp
    _ = 1 := by rw [lintegral_one, h1]

/-- **C93.**  The density of every other model integrates to one. -/
theorem C93_mass_partial (k : Kind) (hk : k ≠ .cookTorrance) (hk' : k ≠ .null) (f : Frame) (hf : Orthonormal f.t f.b f.n)
    (p : Params n) (wo : V3) (hwo : 0 < dot wo f.n) :
    ∫⁻ ω, ENNReal.ofReal (k.pdf wo (localToWorld (vec ω) f.t f.b f.n) f p) ∂solidAngle = 1 := by
  have h := congrArg (fun m : Measure (ℝ × ℝ × ℝ) => m univ) (C93_density_partial k hk hk' f hf p wo hwo)
  rw [withDensity_apply _ MeasurableSet.univ, Measure.restrict_univ] at h
  rw [← h]
  have h1 : unif univ = 1 := by unfold unif; rw [← univ_prod_univ, Measure.prod_prod]; simp
  rw [Measure.map_apply_of_aemeasurable _ MeasurableSet.univ, preimage_univ, h1]
  have hc : Measurable fun u : ℝ × ℝ => pt (cosine u.1 u.2).dir := by simp only [pt, cosine]; fun_prop
  refine AEMeasurable.congr hc.aemeasurable ?_
  unfold unif
  rw [Measure.prod_restrict]
  filter_upwards [ae_restrict_mem (measurableSet_Ioo.prod measurableSet_Ioo)] with u hu
  rw [(sample_eq k hk hk' f hf p wo hwo u.1 u.2 hu.1.1 hu.1.2).1, (C60_conversions hf _ V3.zero).1]

/-- The hypotheses are met by a surface seen along its normal. -/
example (p : Params n) : ∃ (f : Frame) (wo : V3), Orthonormal f.t f.b f.n ∧ dot wo wo = 1 ∧ 0 < dot wo f.n ∧ 1e-8 ≤ dot wo f.n ^ 2 ∧
    (vndfVh (worldToLocal wo f.t f.b f.n) (clamp p.roughness 0.01 1 * clamp p.roughness 0.01 1)).x = 0 ∧
    (vndfVh (worldToLocal wo f.t f.b f.n) (clamp p.roughness 0.01 1 * clamp p.roughness 0.01 1)).y = 0 := by
  refine ⟨⟨⟨1, 0, 0⟩, ⟨0, 1, 0⟩, ⟨0, 0, 1⟩⟩, ⟨0, 0, 1⟩, ?_, by norm_num [dot], by norm_num [dot], by norm_num [dot], ?_, ?_⟩
  · constructor <;> simp [dot, cross]
  · simp [vndfVh, worldToLocal, dot, V3.normalize_eq]
  · simp [vndfVh, worldToLocal, dot, V3.normalize_eq]

/-- And by an oblique view of a rough surface. -/
example : let v := vndfVh (worldToLocal ⟨3 / 5, 0, 4 / 5⟩ ⟨1, 0, 0⟩ ⟨0, 1, 0⟩ ⟨0, 0, 1⟩) (clamp 1 0.01 1 * clamp 1 0.01 1)
    v.x * v.x + v.y * v.y > 1e-7 := by
  have hc : clamp 1 0.01 1 = 1 := by norm_num [clamp]
  have hw : worldToLocal ⟨3 / 5, 0, 4 / 5⟩ ⟨1, 0, 0⟩ ⟨0, 1, 0⟩ ⟨0, 0, 1⟩ = ⟨3 / 5, 0, 4 / 5⟩ := by simp [worldToLocal, dot]
  have hb : vndfVh ⟨3 / 5, 0, 4 / 5⟩ (1 * 1) = ⟨3 / 5, 0, 4 / 5⟩ := by
    have : V3.len ⟨3 / 5, 0, 4 / 5⟩ = 1 := by unfold V3.len V3.dot; norm_num
    simp only [vndfVh, one_mul, V3.normalize_eq, this]
    ext <;> simp
  simp only [hc, hw, hb]
  norm_num

end Huira.Bsdf
