import Verif.Materials.DensityProps
import Verif.Materials.BsdfProps
import Mathlib.MeasureTheory.Constructions.BorelSpace.Order
import Mathlib.MeasureTheory.Function.SpecialFunctions.Basic
import Mathlib.MeasureTheory.Function.SpecialFunctions.Inner
import Mathlib.MeasureTheory.Function.SpecialFunctions.RCLike

/-!
# Sampling a reflectance model estimates reflected light without bias (C93)
-/

set_option linter.unusedSimpArgs false
set_option linter.unusedVariables false

open MeasureTheory Set Real

namespace Huira.Bsdf
open Huira.Sampling V3

variable {n : ℕ}

/-- A point of the measurable space as a vector. -/
def vec (ω : ℝ × ℝ × ℝ) : V3 := ⟨ω.1, ω.2.1, ω.2.2⟩

theorem vec_pt (v : V3) : vec (pt v) = v := rfl

theorem ite_meas {α : Type} [MeasurableSpace α] {p : α → Prop} [DecidablePred p] {f g : α → ℝ} (hp : MeasurableSet {x | p x})
    (hf : Measurable f) (hg : Measurable g) : Measurable fun x => if p x then f x else g x := Measurable.ite hp hf hg

theorem clamp_meas {f : ℝ × ℝ × ℝ → ℝ} (hf : Measurable f) (lo hi : ℝ) : Measurable fun ω => clamp (f ω) lo hi := by
  unfold clamp
  exact ite_meas (measurableSet_lt hf measurable_const) measurable_const
    (ite_meas (measurableSet_lt measurable_const hf) measurable_const hf)

theorem eval_meas (k : Kind) (hk : k ≠ .cookTorrance) (wo : V3) (f : Frame) (p : Params n) (i : Fin n)
    (W : ℝ × ℝ × ℝ → V3) (hx : Measurable fun ω => (W ω).x) (hy : Measurable fun ω => (W ω).y)
    (hz : Measurable fun ω => (W ω).z) : Measurable fun ω => k.eval wo (W ω) f p i := by
  have hd : ∀ a : V3, Measurable fun ω => dot (W ω) a := fun a => by unfold dot; fun_prop
  have hc := clamp_meas (hd wo) (-1) 1
  have hS : MeasurableSet {ω | dot (W ω) f.n ≤ 0 ∨ dot wo f.n ≤ 0} :=
    (measurableSet_le (hd f.n) measurable_const).union (MeasurableSet.const _)
  have hn := hd f.n
  have hw := hd wo
  cases k with
  | lambertian =>
    simp only [Kind.eval, lambertianEval]
    exact ite_meas (measurableSet_le (hd f.n) measurable_const) measurable_const measurable_const
  | lommelSeeliger =>
    simp only [Kind.eval, lommelEval]
    exact ite_meas hS measurable_const (by fun_prop)
  | mcEwen =>
    simp only [Kind.eval, mcEwenEval]
    refine ite_meas hS measurable_const ?_
    have := Real.measurable_arccos.comp hc
    have h2 : Measurable fun ω => exp (-arccos (clamp (dot (W ω) wo) (-1) 1) * (3 * (1 / π))) :=
      Real.measurable_exp.comp ((this.neg).mul_const _)
    fun_prop
  | orenNayar =>
    simp only [Kind.eval, orenEval]
    refine ite_meas hS measurable_const ?_
    refine measurable_const.mul (measurable_const.add (measurable_const.mul ?_))
    refine ite_meas ?_ ?_ measurable_const
    · have m1 : Measurable fun ω => dot (W ω) wo - dot (W ω) f.n * dot wo f.n := by fun_prop
      have m2 : Measurable fun ω => max (dot (W ω) f.n) (dot wo f.n) := by fun_prop
      exact (measurableSet_lt measurable_const m1).inter (measurableSet_lt measurable_const m2)
    · fun_prop
  | hapke h B0 b c =>
    simp only [Kind.eval, hapkeEval]
    refine ite_meas hS measurable_const ?_
    have h1 : Measurable fun ω => tan (arccos (clamp (dot (W ω) wo) (-1) 1) * 0.5) := by
      simp only [tan_eq_sin_div_cos]
      have := Real.measurable_arccos.comp hc
      exact (Real.measurable_sin.comp (this.mul_const _)).div (Real.measurable_cos.comp (this.mul_const _))
    have h2 : Measurable fun ω => opposition h B0 (tan (arccos (clamp (dot (W ω) wo) (-1) 1) * 0.5)) := by
      unfold opposition
      split_ifs
      · exact measurable_const
      · fun_prop
    have h3 : ∀ g : ℝ, Measurable fun ω => hg g (clamp (dot (W ω) wo) (-1) 1) := by
      intro g; unfold hg; fun_prop
    have h4 : Measurable fun ω => dhg b c (clamp (dot (W ω) wo) (-1) 1) := by
      unfold dhg
      exact ((h3 (-b)).const_mul _).add ((h3 b).const_mul _)
    have h5 : Measurable fun ω => hFunction (dot (W ω) f.n) (p.albedo i) := by
      unfold hFunction; fun_prop
    fun_prop
  | null => simp only [Kind.eval]; exact measurable_const
  | cookTorrance => exact absurd rfl hk

/-- What a cosine-sampled model returns, as a function of the local direction. -/
theorem sample_eq (k : Kind) (hk : k ≠ .cookTorrance) (hk' : k ≠ .null) (f : Frame) (hf : Orthonormal f.t f.b f.n)
    (p : Params n) (wo : V3) (hwo : 0 < dot wo f.n) (u1 u2 : ℝ) (h0 : 0 < u1) (h1 : u1 < 1) :
    (k.sample wo f p u1 u2).wi = localToWorld (cosine u1 u2).dir f.t f.b f.n ∧
    ∀ i, (k.sample wo f p u1 u2).value i = k.eval wo (localToWorld (cosine u1 u2).dir f.t f.b f.n) f p i * π := by
  have hpi := pi_pos
  have hcz : dot (localToWorld (cosine u1 u2).dir f.t f.b f.n) f.n = (cosine u1 u2).dir.z :=
    (C60_conversions hf _ V3.zero).2.2.2.2
  have hzp := cosine_z u1 u2 h1
  have hn : ¬ ((cosine u1 u2).dir.z ≤ 0 ∨ dot wo f.n ≤ 0) := by push Not; exact ⟨hzp, hwo⟩
  cases k with
  | lambertian =>
    simp only [Kind.sample, lambertianSample, Kind.eval, lambertianEval, hcz, if_neg (not_le.mpr hzp), true_and]
    intro i; field_simp
  | lommelSeeliger =>
    simp only [Kind.sample, lommelSample, Kind.eval, lommelEval, hcz, if_neg hn, true_and]
    intro i; field_simp
  | mcEwen => simp only [Kind.sample, cosineSample, Kind.eval, hcz, if_neg hn, true_and]; intro i; trivial
  | orenNayar => simp only [Kind.sample, cosineSample, Kind.eval, hcz, if_neg hn, true_and]; intro i; trivial
  | hapke h B0 b c => simp only [Kind.sample, cosineSample, Kind.eval, hcz, if_neg hn, true_and]; intro i; trivial
  | cookTorrance => exact absurd rfl hk
  | null => exact absurd rfl hk'

/-- **C93.**  For the Lambertian, Lommel–Seeliger, McEwen, Oren–Nayar and Hapke models: the expected value of weight times
incoming radiance, over the two random numbers, is the reflection integral of BSDF times cosine times radiance over the
hemisphere, for every radiance distribution. -/
theorem C93_unbiased_partial (k : Kind) (hk : k ≠ .cookTorrance) (hk' : k ≠ .null) (f : Frame)
    (hf : Orthonormal f.t f.b f.n) (p : Params n) (wo : V3) (hwo : 0 < dot wo f.n) (i : Fin n) (L : V3 → ENNReal)
    (hL : Measurable fun ω => L (vec ω)) :
    ∫⁻ u, ENNReal.ofReal ((k.sample wo f p u.1 u.2).value i) * L (k.sample wo f p u.1 u.2).wi ∂unif =
    ∫⁻ ω, ENNReal.ofReal (k.eval wo (localToWorld (vec ω) f.t f.b f.n) f p i *
        dot (localToWorld (vec ω) f.t f.b f.n) f.n) * L (localToWorld (vec ω) f.t f.b f.n) ∂solidAngle := by
  have hpi := pi_pos
  set W : ℝ × ℝ × ℝ → V3 := fun ω => localToWorld (vec ω) f.t f.b f.n with hW
  have hx : Measurable fun ω => (W ω).x := by simp only [hW, localToWorld, vec, add_x, hmul_x]; fun_prop
  have hy : Measurable fun ω => (W ω).y := by simp only [hW, localToWorld, vec, add_y, hmul_y]; fun_prop
  have hz : Measurable fun ω => (W ω).z := by simp only [hW, localToWorld, vec, add_z, hmul_z]; fun_prop
  have hev := eval_meas k hk wo f p i W hx hy hz
  have hLW : Measurable fun ω => L (W ω) := by
    have : (fun ω => L (W ω)) = (fun ω => L (vec ω)) ∘ fun ω => (((W ω).x, (W ω).y, (W ω).z) : ℝ × ℝ × ℝ) := rfl
    rw [this]; exact hL.comp (hx.prodMk (hy.prodMk hz))
  -- the function integrated, of the local direction
  set F : ℝ × ℝ × ℝ → ENNReal := fun ω => ENNReal.ofReal (k.eval wo (W ω) f p i * π) * L (W ω) with hF
  have hFm : Measurable F := (ENNReal.measurable_ofReal.comp (hev.mul_const _)).mul hLW
  have hg : Measurable fun u : ℝ × ℝ => pt (cosine u.1 u.2).dir := by
    simp only [pt, cosine]; fun_prop
  have e1 : ∫⁻ u, ENNReal.ofReal ((k.sample wo f p u.1 u.2).value i) * L (k.sample wo f p u.1 u.2).wi ∂unif =
      ∫⁻ u, F (pt (cosine u.1 u.2).dir) ∂unif := by
    refine lintegral_congr_ae ?_
    unfold unif
    rw [Measure.prod_restrict]
    filter_upwards [ae_restrict_mem (measurableSet_Ioo.prod measurableSet_Ioo)] with u hu
    obtain ⟨a, b⟩ := sample_eq k hk hk' f hf p wo hwo u.1 u.2 hu.1.1 hu.1.2
    simp only [hF, hW, vec_pt, a, b]
  rw [e1, ← lintegral_map hFm hg, cosine_density, lintegral_withDensity_eq_lintegral_mul _ (by fun_prop) hFm]
  -- on the hemisphere the density is cosine over π
  have hsph : Measurable sph := by unfold sph; fun_prop
  have hsa : ∀ᵐ ω ∂solidAngle, 0 < ω.2.2 := by
    unfold solidAngle
    rw [ae_map_iff hsph.aemeasurable (measurableSet_lt measurable_const (by fun_prop)), Measure.prod_restrict]
    filter_upwards [ae_restrict_mem (measurableSet_Ioo.prod measurableSet_Ioo)] with u hu
    exact hu.1.1
  refine lintegral_congr_ae ?_
  filter_upwards [hsa] with ω h1
  have h3 : dot (W ω) f.n = ω.2.2 := (C60_conversions hf _ V3.zero).2.2.2.2
  simp only [Pi.mul_apply, hF]
  rw [← mul_assoc, ← ENNReal.ofReal_mul (by positivity)]
  congr 2
  show ω.2.2 * (1 / π) * (k.eval wo (W ω) f p i * π) = k.eval wo (W ω) f p i * dot (W ω) f.n
  rw [h3]; field_simp

/-- **C93.**  For the same models the directions sampled have exactly the density `pdf` reports, in every orthonormal frame. -/
theorem C93_density_partial (k : Kind) (hk : k ≠ .cookTorrance) (hk' : k ≠ .null) (f : Frame)
    (hf : Orthonormal f.t f.b f.n) (p : Params n) (wo : V3) (hwo : 0 < dot wo f.n) :
    Measure.map (fun u : ℝ × ℝ => pt (worldToLocal (k.sample wo f p u.1 u.2).wi f.t f.b f.n)) unif =
      solidAngle.withDensity fun ω => ENNReal.ofReal (k.pdf wo (localToWorld (vec ω) f.t f.b f.n) f p) := by
  have e1 : Measure.map (fun u : ℝ × ℝ => pt (worldToLocal (k.sample wo f p u.1 u.2).wi f.t f.b f.n)) unif =
      Measure.map (fun u : ℝ × ℝ => pt (cosine u.1 u.2).dir) unif := by
    refine Measure.map_congr ?_
    unfold unif
    rw [Measure.prod_restrict]
    filter_upwards [ae_restrict_mem (measurableSet_Ioo.prod measurableSet_Ioo)] with u hu
    rw [(sample_eq k hk hk' f hf p wo hwo u.1 u.2 hu.1.1 hu.1.2).1, (C60_conversions hf _ V3.zero).1]
  rw [e1, cosine_density]
  refine withDensity_congr_ae ?_
  have hsph : Measurable sph := by unfold sph; fun_prop
  have hsa : ∀ᵐ ω ∂solidAngle, 0 < ω.2.2 := by
    unfold solidAngle
    rw [ae_map_iff hsph.aemeasurable (measurableSet_lt measurable_const (by fun_prop)), Measure.prod_restrict]
    filter_upwards [ae_restrict_mem (measurableSet_Ioo.prod measurableSet_Ioo)] with u hu
    exact hu.1.1
  filter_upwards [hsa] with ω h1
  have h3 : dot (localToWorld (vec ω) f.t f.b f.n) f.n = ω.2.2 := (C60_conversions hf _ V3.zero).2.2.2.2
  congr 1
  have hn : ¬ (ω.2.2 ≤ 0 ∨ dot wo f.n ≤ 0) := by push Not; exact ⟨h1, hwo⟩
  cases k with
  | cookTorrance => exact absurd rfl hk
  | null => exact absurd rfl hk'
  | lambertian => simp only [Kind.pdf, h3, if_neg (not_le.mpr h1)]
  | lommelSeeliger => simp only [Kind.pdf, cosinePdf, h3, if_neg hn]
  | mcEwen => simp only [Kind.pdf, cosinePdf, h3, if_neg hn]
  | orenNayar => simp only [Kind.pdf, cosinePdf, h3, if_neg hn]
  | hapke h B0 b c => simp only [Kind.pdf, cosinePdf, h3, if_neg hn]

/-- **C93.**  No model reports a density for a direction below the surface, and no density is negative. -/
theorem C93_support (k : Kind) (f : Frame) (p : Params n) (wo wi : V3) :
    0 ≤ k.pdf wo wi f p ∧ (dot wi f.n ≤ 0 → k.pdf wo wi f p = 0) := by
  have hpi := pi_pos
  have hc : 0 ≤ cosinePdf wo wi f ∧ (dot wi f.n ≤ 0 → cosinePdf wo wi f = 0) := by
    unfold cosinePdf
    simp only
    split_ifs with h
    · exact ⟨le_rfl, fun _ => rfl⟩
    · push Not at h; exact ⟨by have := h.1; positivity, fun h' => absurd h.1 (not_lt.mpr h')⟩
  cases k with
  | lambertian =>
    simp only [Kind.pdf]
    split_ifs with h
    · exact ⟨le_rfl, fun _ => rfl⟩
    · push Not at h; exact ⟨by positivity, fun h' => absurd h (not_lt.mpr h')⟩
  | cookTorrance =>
    simp only [Kind.pdf]
    constructor
    · unfold cookPdf
      simp only
      split_ifs with h
      · exact le_rfl
      · push Not at h
        have hm := clamp_mem p.metallic 0 1 (by norm_num)
        have ha := alpha2_pos p.roughness
        have g1 := smithG1_pos (dot f.n wo) _ ha.le
        have hd : 0 ≤ ggxD (max (dot f.n (V3.normalize (wo + wi))) 0) (clamp p.roughness 0.01 1 * clamp p.roughness 0.01 1 *
            (clamp p.roughness 0.01 1 * clamp p.roughness 0.01 1)) := by
          unfold ggxD
          simp only [mul_assoc π]
          exact div_nonneg ha.le (mul_nonneg hpi.le (mul_self_nonneg _))
        have h1 := h.1
        have h2 := h.2
        have w1 : 0 ≤ 0.5 * (1 + clamp p.metallic 0 1) := by nlinarith [hm.1]
        have w2 : 0 ≤ 1 - 0.5 * (1 + clamp p.metallic 0 1) := by nlinarith [hm.2]
        refine add_nonneg (mul_nonneg w1 (div_nonneg (mul_nonneg hd g1.le) (by positivity))) (mul_nonneg w2 (by positivity))
    · intro h
      unfold cookPdf
      simp only
      rw [if_pos (Or.inr (by rw [dot_comm]; exact h))]
  | null => exact ⟨le_rfl, fun _ => rfl⟩
  | lommelSeeliger => exact hc
  | mcEwen => exact hc
  | orenNayar => exact hc
  | hapke h B0 b c => exact hc

/-- The hypotheses are met: the standard frame seen along the normal. -/
example : Orthonormal ⟨1, 0, 0⟩ ⟨0, 1, 0⟩ ⟨0, 0, 1⟩ ∧ 0 < dot ⟨0, 0, 1⟩ ⟨0, 0, 1⟩ := by
  constructor
  · constructor <;> simp [dot, cross]
  · simp [dot]

end Huira.Bsdf
