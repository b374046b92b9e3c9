import Verif.Core.OrbitModel
import Mathlib.Analysis.Calculus.Deriv.Inverse
import Mathlib.Analysis.Calculus.Deriv.MeanValue
import Mathlib.Topology.Order.IntermediateValue
import Mathlib.Tactic

/-!
# Keplerian orbits (C102)
-/

set_option linter.unusedSimpArgs false
set_option linter.unusedVariables false

open Real

namespace Huira.Orbit
open V3

/-- The direction of periapsis for inclination `i`, node `Ω` and argument of periapsis `ω` (specification). -/
noncomputable def periDir (i Ω ω : ℝ) : V3 :=
  ⟨cos Ω * cos ω - sin Ω * sin ω * cos i, sin Ω * cos ω + cos Ω * sin ω * cos i, sin ω * sin i⟩

/-- The direction of motion at periapsis (specification). -/
noncomputable def motionDir (i Ω ω : ℝ) : V3 :=
  ⟨-(cos Ω * sin ω) - sin Ω * cos ω * cos i, -(sin Ω * sin ω) + cos Ω * cos ω * cos i, cos ω * sin i⟩

/-- Elliptic two-body motion (specification): at every time there is an eccentric anomaly `E` solving Kepler's equation, and
position and velocity are those of the ellipse with semi-major axis `a` and eccentricity `e`. -/
def IsKepler (a e i Ω ω M0 t0 mu : ℝ) (state : ℝ → V3 × V3) : Prop :=
  ∀ t, ∃ E, E - e * sin E = M0 + sqrt (mu / a ^ 3) * (t - t0) ∧
    (state t).1 = (a * (cos E - e)) * periDir i Ω ω + (a * sqrt (1 - e ^ 2) * sin E) * motionDir i Ω ω ∧
    (state t).2 = (-(a * sin E) * (sqrt (mu / a ^ 3) / (1 - e * cos E))) * periDir i Ω ω +
      (a * sqrt (1 - e ^ 2) * cos E * (sqrt (mu / a ^ 3) / (1 - e * cos E))) * motionDir i Ω ω

/-- The documented contract of CSPICE's `conics_c` for elliptic orbits: the elements are *perifocal distance* (km),
eccentricity, inclination, node, argument of periapsis, mean anomaly at epoch, epoch, and gravitational parameter (km³/s²). -/
def ConicsOk (conicsC : Elements → ℝ → V3 × V3) : Prop :=
  ∀ rp e i Ω ω M0 t0 mu : ℝ, 0 < rp → 0 ≤ e → e < 1 → 0 < mu →
    IsKepler (rp / (1 - e)) e i Ω ω M0 t0 mu (conicsC ⟨rp, e, i, Ω, ω, M0, t0, mu⟩)

/-! ## Kepler's equation -/

theorem kepler_mono (e : ℝ) (h0 : 0 ≤ e) (h1 : e < 1) : StrictMono fun E : ℝ => E - e * sin E := by
  refine strictMono_of_deriv_pos fun x => ?_
  have hd : HasDerivAt (fun E : ℝ => E - e * sin E) (1 - e * cos x) x := (hasDerivAt_id x).sub ((hasDerivAt_sin x).const_mul e)
  rw [hd.deriv]
  nlinarith [cos_le_one x, neg_one_le_cos x]

theorem kepler_surj (e : ℝ) (h0 : 0 ≤ e) (h1 : e < 1) (M : ℝ) : ∃ E : ℝ, E - e * sin E = M := by
  have hc : Continuous fun E : ℝ => E - e * sin E := by fun_prop
  have := intermediate_value_Icc (show M - 1 ≤ M + 1 by linarith) hc.continuousOn
  obtain ⟨E, _, hE⟩ := this (show M ∈ Set.Icc _ _ from
    ⟨by nlinarith [neg_one_le_sin (M - 1), sin_le_one (M - 1)], by nlinarith [neg_one_le_sin (M + 1), sin_le_one (M + 1)]⟩)
  exact ⟨E, hE⟩

/-- Kepler's equation has one solution for every mean anomaly. -/
theorem kepler_unique (e : ℝ) (h0 : 0 ≤ e) (h1 : e < 1) (M : ℝ) : ∃! E : ℝ, E - e * sin E = M := by
  obtain ⟨E, hE⟩ := kepler_surj e h0 h1 M
  exact ⟨E, hE, fun y hy => (kepler_mono e h0 h1).injective (hy.trans hE.symm)⟩

/-- The contract can be met, so hypotheses of the form `ConicsOk` are not empty. -/
theorem conicsOk_exists : ∃ conicsC, ConicsOk conicsC := by
  classical
  refine ⟨fun el t =>
    let a := el.e0 / (1 - el.e1)
    let n := sqrt (el.e7 / a ^ 3)
    let E := if h : 0 ≤ el.e1 ∧ el.e1 < 1 then (kepler_surj el.e1 h.1 h.2 (el.e5 + n * (t - el.e6))).choose else 0
    ((a * (cos E - el.e1)) * periDir el.e2 el.e3 el.e4 + (a * sqrt (1 - el.e1 ^ 2) * sin E) * motionDir el.e2 el.e3 el.e4,
     (-(a * sin E) * (n / (1 - el.e1 * cos E))) * periDir el.e2 el.e3 el.e4 +
      (a * sqrt (1 - el.e1 ^ 2) * cos E * (n / (1 - el.e1 * cos E))) * motionDir el.e2 el.e3 el.e4), ?_⟩
  intro rp e i Ω ω M0 t0 mu hrp h0 h1 hmu t
  refine ⟨(kepler_surj e h0 h1 (M0 + sqrt (mu / (rp / (1 - e)) ^ 3) * (t - t0))).choose,
    (kepler_surj e h0 h1 (M0 + sqrt (mu / (rp / (1 - e)) ^ 3) * (t - t0))).choose_spec, ?_, ?_⟩
  · simp only [dif_pos (show 0 ≤ e ∧ e < 1 from ⟨h0, h1⟩)]
  · simp only [dif_pos (show 0 ≤ e ∧ e < 1 from ⟨h0, h1⟩)]

/-! ## What the motion is -/

theorem dirs (i Ω ω : ℝ) : dot (periDir i Ω ω) (periDir i Ω ω) = 1 ∧ dot (motionDir i Ω ω) (motionDir i Ω ω) = 1 ∧
    dot (periDir i Ω ω) (motionDir i Ω ω) = 0 := by
  have h1 := sin_sq_add_cos_sq i
  have h2 := sin_sq_add_cos_sq Ω
  have h3 := sin_sq_add_cos_sq ω
  simp only [dot, periDir, motionDir]
  generalize sin i = si at *; generalize cos i = ci at *
  generalize sin Ω = sO at *; generalize cos Ω = cO at *
  generalize sin ω = so at *; generalize cos ω = co at *
  refine ⟨?_, ?_, ?_⟩ <;> grind

/-- The length of the position vector. -/
theorem kepler_len (a e i Ω ω E : ℝ) (ha : 0 < a) (h0 : 0 ≤ e) (h1 : e < 1) :
    len ((a * (cos E - e)) * periDir i Ω ω + (a * sqrt (1 - e ^ 2) * sin E) * motionDir i Ω ω) = a * (1 - e * cos E) := by
  obtain ⟨pp, mm, pm⟩ := dirs i Ω ω
  have hs : sqrt (1 - e ^ 2) ^ 2 = 1 - e ^ 2 := sq_sqrt (by nlinarith)
  have hsc := sin_sq_add_cos_sq E
  have hD : 0 < 1 - e * cos E := by nlinarith [cos_le_one E, neg_one_le_cos E]
  have : dot ((a * (cos E - e)) * periDir i Ω ω + (a * sqrt (1 - e ^ 2) * sin E) * motionDir i Ω ω)
      ((a * (cos E - e)) * periDir i Ω ω + (a * sqrt (1 - e ^ 2) * sin E) * motionDir i Ω ω) = (a * (1 - e * cos E)) ^ 2 := by
    have e1 : ∀ (x y : ℝ) (p q : V3), dot (x * p + y * q) (x * p + y * q) = x ^ 2 * dot p p + 2 * x * y * dot p q + y ^ 2 * dot q q := by
      intro x y p q; simp only [dot, add_x, add_y, add_z, hmul_x, hmul_y, hmul_z]; ring
    rw [e1, pp, mm, pm]
    generalize sqrt (1 - e ^ 2) = s at *
    generalize cos E = c at *
    generalize sin E = sE at *
    have : sE ^ 2 = 1 - c ^ 2 := by linarith
    linear_combination a ^ 2 * sE ^ 2 * hs + a ^ 2 * (1 - e ^ 2) * this
  unfold len
  rw [this, sqrt_sq (by positivity)]

/-- Componentwise derivative of a vector function. -/
def Rate (f : ℝ → V3) (v : V3) (t : ℝ) : Prop :=
  HasDerivAt (fun t => (f t).x) v.x t ∧ HasDerivAt (fun t => (f t).y) v.y t ∧ HasDerivAt (fun t => (f t).z) v.z t

theorem rate_comb {x y : ℝ → ℝ} {x' y' t : ℝ} (hx : HasDerivAt x x' t) (hy : HasDerivAt y y' t) (p q : V3) :
    Rate (fun t => x t * p + y t * q) (x' * p + y' * q) t := by
  refine ⟨?_, ?_, ?_⟩
  · exact (hx.mul_const p.x).add (hy.mul_const q.x)
  · exact (hx.mul_const p.y).add (hy.mul_const q.y)
  · exact (hx.mul_const p.z).add (hy.mul_const q.z)

/-- The eccentric anomaly as a function of time, and its rate. -/
theorem anomaly (e n M0 t0 : ℝ) (h0 : 0 ≤ e) (h1 : e < 1) : ∃ E : ℝ → ℝ, (∀ t, E t - e * sin (E t) = M0 + n * (t - t0)) ∧
    (∀ t y, y - e * sin y = M0 + n * (t - t0) → y = E t) ∧ ∀ t, HasDerivAt E (n / (1 - e * cos (E t))) t := by
  set k : ℝ → ℝ := fun E => E - e * sin E with hk
  have hmono := kepler_mono e h0 h1
  have hsurj : Function.Surjective k := fun M => kepler_surj e h0 h1 M
  let o : ℝ ≃o ℝ := StrictMono.orderIsoOfSurjective k hmono hsurj
  have ho : ∀ x, o x = k x := fun x => rfl
  have hinv : ∀ M, HasDerivAt o.symm (1 - e * cos (o.symm M))⁻¹ M := by
    intro M
    refine HasDerivAt.of_local_left_inverse (f := k) (o.symm.continuous.continuousAt) ?_ ?_ ?_
    · exact (hasDerivAt_id _).sub ((hasDerivAt_sin _).const_mul e)
    · have : 0 < 1 - e * cos (o.symm M) := by nlinarith [cos_le_one (o.symm M), neg_one_le_cos (o.symm M)]
      exact this.ne'
    · exact Filter.Eventually.of_forall fun y => o.apply_symm_apply y
  refine ⟨fun t => o.symm (M0 + n * (t - t0)), fun t => o.apply_symm_apply _, fun t y hy => ?_, fun t => ?_⟩
  · show y = o.symm (M0 + n * (t - t0))
    rw [← hy]; exact (o.symm_apply_apply y).symm
  · have hl : HasDerivAt (fun t : ℝ => M0 + n * (t - t0)) n t := by
      simpa using (((hasDerivAt_id t).sub_const t0).const_mul n).const_add M0
    have := (hinv (M0 + n * (t - t0))).comp t hl
    refine this.congr_deriv ?_
    simp only
    ring

/-- **The specification is physics**: elliptic motion with `IsKepler` has the stated velocity as the rate of change of position,
obeys Newton's law of gravitation, stays between periapsis and apoapsis distance, and repeats after `2π √(a³/mu)`. -/
theorem kepler_motion (a e i Ω ω M0 t0 mu : ℝ) (ha : 0 < a) (h0 : 0 ≤ e) (h1 : e < 1) (hmu : 0 < mu) (state : ℝ → V3 × V3)
    (h : IsKepler a e i Ω ω M0 t0 mu state) :
    (∀ t, Rate (fun t => (state t).1) (state t).2 t) ∧
    (∀ t, Rate (fun t => (state t).2) ((-(mu / len (state t).1 ^ 3)) * (state t).1) t) ∧
    (∀ t, a * (1 - e) ≤ len (state t).1 ∧ len (state t).1 ≤ a * (1 + e)) ∧
    (∀ t, (state (t + 2 * π * sqrt (a ^ 3 / mu))) = state t) := by
  set n := sqrt (mu / a ^ 3) with hn
  have hn0 : 0 < n := sqrt_pos.2 (by positivity)
  have hn2 : n ^ 2 = mu / a ^ 3 := sq_sqrt (by positivity)
  obtain ⟨E, hE, huniq, hdE⟩ := anomaly e n M0 t0 h0 h1
  have hpos : ∀ t, (state t).1 = (a * (cos (E t) - e)) * periDir i Ω ω + (a * sqrt (1 - e ^ 2) * sin (E t)) * motionDir i Ω ω := by
    intro t; obtain ⟨y, hy, hp, _⟩ := h t; rw [hp, huniq t y hy]
  have hvel : ∀ t, (state t).2 = (-(a * sin (E t)) * (n / (1 - e * cos (E t)))) * periDir i Ω ω +
      (a * sqrt (1 - e ^ 2) * cos (E t) * (n / (1 - e * cos (E t)))) * motionDir i Ω ω := by
    intro t; obtain ⟨y, hy, _, hv⟩ := h t; rw [hv, huniq t y hy]
  have hD : ∀ t, 0 < 1 - e * cos (E t) := fun t => by nlinarith [cos_le_one (E t), neg_one_le_cos (E t)]
  have hc : ∀ t, HasDerivAt (fun t => cos (E t)) (-sin (E t) * (n / (1 - e * cos (E t)))) t := fun t => (hdE t).cos
  have hs : ∀ t, HasDerivAt (fun t => sin (E t)) (cos (E t) * (n / (1 - e * cos (E t)))) t := fun t => (hdE t).sin
  refine ⟨fun t => ?_, fun t => ?_, fun t => ?_, fun t => ?_⟩
  · have := rate_comb (((hc t).sub_const e).const_mul a) ((hs t).const_mul (a * sqrt (1 - e ^ 2))) (periDir i Ω ω) (motionDir i Ω ω)
    simp only [funext hpos]
    rw [hvel]
    convert this using 3 <;> ring
  · have hq : HasDerivAt (fun t => n / (1 - e * cos (E t)))
        (-(n * (e * sin (E t) * (n / (1 - e * cos (E t)))) / (1 - e * cos (E t)) ^ 2)) t := by
      have hden : HasDerivAt (fun t => 1 - e * cos (E t)) (e * sin (E t) * (n / (1 - e * cos (E t)))) t := by
        have := ((hc t).const_mul e).const_sub 1
        refine this.congr_deriv ?_
        ring
      have := (hasDerivAt_const t n).div hden (hD t).ne'
      refine this.congr_deriv ?_
      ring
    have hx : HasDerivAt (fun t => -(a * sin (E t)) * (n / (1 - e * cos (E t)))) _ t := ((hs t).const_mul a).neg.mul hq
    have hy : HasDerivAt (fun t => a * sqrt (1 - e ^ 2) * cos (E t) * (n / (1 - e * cos (E t)))) _ t :=
      ((hc t).const_mul (a * sqrt (1 - e ^ 2))).mul hq
    have := rate_comb hx hy (periDir i Ω ω) (motionDir i Ω ω)
    simp only [funext hvel]
    have hlen : len (state t).1 = a * (1 - e * cos (E t)) := by rw [hpos, kepler_len a e i Ω ω (E t) ha h0 h1]
    rw [hlen]
    have e1 : ∀ t, (state t).1 = (a * (cos (E t) - e)) * periDir i Ω ω + (a * sqrt (1 - e ^ 2) * sin (E t)) * motionDir i Ω ω := hpos
    have key : (-(mu / (a * (1 - e * cos (E t))) ^ 3)) * (state t).1 =
        (-(mu / (a * (1 - e * cos (E t))) ^ 3) * (a * (cos (E t) - e))) * periDir i Ω ω +
        (-(mu / (a * (1 - e * cos (E t))) ^ 3) * (a * sqrt (1 - e ^ 2) * sin (E t))) * motionDir i Ω ω := by
      rw [e1]; ext <;> simp only [add_x, add_y, add_z, hmul_x, hmul_y, hmul_z] <;> ring
    rw [key]
    have hmu' : mu = n ^ 2 * a ^ 3 := by rw [hn2]; field_simp
    have hDt := hD t
    have hsc := sin_sq_add_cos_sq (E t)
    convert this using 3
    · rw [hmu', Pi.neg_apply]
      generalize cos (E t) = c at *
      generalize sin (E t) = s at *
      have hs2 : s ^ 2 = 1 - c ^ 2 := by linarith
      have hD' : 1 - e * c ≠ 0 := hDt.ne'
      field_simp
      linear_combination -e * hs2
    · rw [hmu']
      generalize cos (E t) = c at *
      generalize sin (E t) = s at *
      have hD' : 1 - e * c ≠ 0 := hDt.ne'
      field_simp
      ring
  · rw [hpos, kepler_len a e i Ω ω (E t) ha h0 h1]
    exact ⟨by nlinarith [mul_nonneg ha.le (mul_nonneg h0 (sub_nonneg.2 (cos_le_one (E t))))],
      by nlinarith [mul_nonneg ha.le (mul_nonneg h0 (by linarith [neg_one_le_cos (E t)] : 0 ≤ 1 + cos (E t)))]⟩
  · have hT : n * (2 * π * sqrt (a ^ 3 / mu)) = 2 * π := by
      have : sqrt (a ^ 3 / mu) = 1 / n := by
        rw [hn, ← sqrt_one, ← sqrt_div zero_le_one]; congr 1; simp
      rw [this]; field_simp
    have hEt : E (t + 2 * π * sqrt (a ^ 3 / mu)) = E t + 2 * π := by
      refine (huniq _ _ ?_).symm
      rw [sin_add_two_pi]
      have := hE t
      linear_combination this - hT
    refine Prod.ext ?_ ?_
    · rw [hpos, hpos, hEt, cos_add_two_pi, sin_add_two_pi]
    · rw [hvel, hvel, hEt, cos_add_two_pi, sin_add_two_pi]

/-! ## The callback -/

theorem scale_kepler (a e i Ω ω M0 t0 mu : ℝ) (ha : 0 < a) (hmu : 0 < mu) (st : ℝ → V3 × V3) (h : IsKepler a e i Ω ω M0 t0 mu st) :
    IsKepler (1000 * a) e i Ω ω M0 t0 (mu * 1000 ^ 3) fun t => ((1000 : ℝ) * (st t).1, (1000 : ℝ) * (st t).2) := by
  have e1 : mu * 1000 ^ 3 / (1000 * a) ^ 3 = mu / a ^ 3 := by field_simp
  intro t
  obtain ⟨E, h1, h2, h3⟩ := h t
  refine ⟨E, by rw [e1]; exact h1, ?_, ?_⟩
  · simp only [h2]; ext <;> simp only [add_x, add_y, add_z, hmul_x, hmul_y, hmul_z] <;> ring
  · simp only [h3, e1]; ext <;> simp only [add_x, add_y, add_z, hmul_x, hmul_y, hmul_z] <;> ring

/-- **C102, full statement**: with semi-major axis `a` (metres), eccentricity `e` and gravitational parameter `mu` (km³/s²), the node
moves on the ellipse with these elements, in metres and metres per second. -/
def C102_full : Prop :=
  ∀ conicsC, ConicsOk conicsC → ∀ a e i Ω ω M0 t0 mu : ℝ, 0 < a → 0 ≤ e → e < 1 → 0 < mu →
    IsKepler a e i Ω ω M0 t0 (mu * 1000 ^ 3) (evaluate conicsC a e i Ω ω M0 t0 mu)

/-- **C102.**  What the node really does: it moves on the ellipse whose *periapsis distance* is the number given as semi-major axis. -/
theorem C102_actual (conicsC : Elements → ℝ → V3 × V3) (hc : ConicsOk conicsC) (a e i Ω ω M0 t0 mu : ℝ) (ha : 0 < a) (h0 : 0 ≤ e)
    (h1 : e < 1) (hmu : 0 < mu) :
    IsKepler (a / (1 - e)) e i Ω ω M0 t0 (mu * 1000 ^ 3) (evaluate conicsC a e i Ω ω M0 t0 mu) := by
  have h := hc (a / 1000) e i Ω ω M0 t0 mu (by positivity) h0 h1 hmu
  have h1' : 0 < 1 - e := by linarith
  have := scale_kepler _ e i Ω ω M0 t0 mu (by positivity) hmu _ h
  rw [show 1000 * (a / 1000 / (1 - e)) = a / (1 - e) by field_simp] at this
  exact this

/-- **C102** holds for circular orbits. -/
theorem C102_circular_partial (conicsC : Elements → ℝ → V3 × V3) (hc : ConicsOk conicsC) (a i Ω ω M0 t0 mu : ℝ) (ha : 0 < a)
    (hmu : 0 < mu) : IsKepler a 0 i Ω ω M0 t0 (mu * 1000 ^ 3) (evaluate conicsC a 0 i Ω ω M0 t0 mu) ∧
    ∀ t, len (evaluate conicsC a 0 i Ω ω M0 t0 mu t).1 = a := by
  have h := C102_actual conicsC hc a 0 i Ω ω M0 t0 mu ha le_rfl one_pos hmu
  rw [sub_zero, div_one] at h
  refine ⟨h, fun t => ?_⟩
  have := (kepler_motion a 0 i Ω ω M0 t0 _ ha le_rfl one_pos (by positivity) _ h).2.2.1 t
  simp only [sub_zero, add_zero, mul_one] at this
  exact le_antisymm this.2 this.1

/-- **C102.**  For every eccentricity below one the velocity reported is the rate of change of the position reported, the motion obeys
Newton's law with the gravitational parameter given (in SI units), and the period is that of semi-major axis `a/(1-e)`. -/
theorem C102_dynamics_partial (conicsC : Elements → ℝ → V3 × V3) (hc : ConicsOk conicsC) (a e i Ω ω M0 t0 mu : ℝ) (ha : 0 < a)
    (h0 : 0 ≤ e) (h1 : e < 1) (hmu : 0 < mu) :
    let st := evaluate conicsC a e i Ω ω M0 t0 mu
    (∀ t, Rate (fun t => (st t).1) (st t).2 t) ∧
    (∀ t, Rate (fun t => (st t).2) ((-(mu * 1000 ^ 3 / len (st t).1 ^ 3)) * (st t).1) t) ∧
    (∀ t, a ≤ len (st t).1 ∧ len (st t).1 ≤ a * (1 + e) / (1 - e)) ∧
    (∀ t, st (t + 2 * π * sqrt ((a / (1 - e)) ^ 3 / (mu * 1000 ^ 3))) = st t) := by
  intro st
  have h1' : 0 < 1 - e := by linarith
  have h := C102_actual conicsC hc a e i Ω ω M0 t0 mu ha h0 h1 hmu
  obtain ⟨k1, k2, k3, k4⟩ := kepler_motion (a / (1 - e)) e i Ω ω M0 t0 _ (by positivity) h0 h1 (by positivity) _ h
  refine ⟨k1, k2, fun t => ?_, k4⟩
  have := k3 t
  rw [div_mul_cancel₀ _ h1'.ne'] at this
  refine ⟨this.1, this.2.trans (le_of_eq (by ring))⟩

/-- **C102.**  With any eccentricity other than zero the orbit is not the one asked for: its lowest point is at distance `a` instead of
`a (1-e)`, at every choice of the other elements. -/
theorem C102_eccentric (conicsC : Elements → ℝ → V3 × V3) (hc : ConicsOk conicsC) (a e i Ω ω M0 t0 mu : ℝ) (ha : 0 < a)
    (h0 : 0 < e) (h1 : e < 1) (hmu : 0 < mu) :
    ¬ IsKepler a e i Ω ω M0 t0 (mu * 1000 ^ 3) (evaluate conicsC a e i Ω ω M0 t0 mu) := by
  intro h
  set n := sqrt (mu * 1000 ^ 3 / a ^ 3) with hn
  have hn0 : 0 < n := sqrt_pos.2 (by positivity)
  -- the time of periapsis of the orbit asked for
  obtain ⟨E, hE, hp, _⟩ := h (t0 - M0 / n)
  rw [← hn, show M0 + n * (t0 - M0 / n - t0) = 0 by field_simp; ring] at hE
  have hE0 : E = 0 := (kepler_mono e h0.le h1).injective (by show E - e * sin E = 0 - e * sin 0; rw [hE]; simp)
  have hl := kepler_len a e i Ω ω E ha h0.le h1
  rw [← hp, hE0, cos_zero] at hl
  have := (C102_dynamics_partial conicsC hc a e i Ω ω M0 t0 mu ha h0.le h1 hmu).2.2.1 (t0 - M0 / n)
  rw [hl] at this
  nlinarith [this.1, mul_pos ha h0]

/-- **C102 is violated.** -/
theorem C102_violated : ¬ C102_full := by
  intro h
  obtain ⟨c, hc⟩ := conicsOk_exists
  exact C102_eccentric c hc 7000000 0.5 0 0 0 0 0 398600 (by norm_num) (by norm_num) (by norm_num) (by norm_num)
    (h c hc 7000000 0.5 0 0 0 0 0 398600 (by norm_num) (by norm_num) (by norm_num) (by norm_num))

/-- A concrete orbit meeting the hypotheses: a low circular Earth orbit stays at 7000 km. -/
example : ∃ c, ConicsOk c ∧ len (evaluate c 7000000 0 1 2 3 4 5 398600 6).1 = 7000000 := by
  obtain ⟨c, hc⟩ := conicsOk_exists
  exact ⟨c, hc, (C102_circular_partial c hc 7000000 1 2 3 4 5 398600 (by norm_num) (by norm_num)).2 6⟩

end Huira.Orbit
