import Verif.Materials.BsdfModel
import Verif.Materials.FrameProps

/-!
# Reflectance models (C57, C58)
-/

set_option linter.unusedSimpArgs false
set_option linter.unusedVariables false

namespace Huira.Bsdf
open Real Huira.Sampling V3

variable {n : ℕ}

/-! ## Visible-normal sampling -/

theorem vndfDisc_le (V : V3) (hV : dot V V = 1) (hz : 0 < V.z) (u1 u2 : ℝ) (h0 : 0 ≤ u1) (h1 : u1 ≤ 1) :
    let d := vndfDisc V u1 u2
    d.1 * d.1 + d.2 * d.2 ≤ 1 ∧ -(V.z * sqrt (1 - d.1 * d.1)) ≤ d.2 ∧ d.1 * d.1 ≤ 1 := by
  intro d
  obtain ⟨x, y, z⟩ := V
  simp only [dot] at hV hz
  have hz1 : z ≤ 1 := by nlinarith [mul_self_nonneg x, mul_self_nonneg y]
  obtain ⟨t1, ht1⟩ : ∃ t, t = sqrt u1 * cos (2 * π * u2) := ⟨_, rfl⟩
  obtain ⟨t2, ht2⟩ : ∃ t, t = sqrt u1 * sin (2 * π * u2) := ⟨_, rfl⟩
  have hsum : t1 * t1 + t2 * t2 = u1 := by
    have := mul_self_sqrt h0
    have := sin_sq_add_cos_sq (2 * π * u2)
    rw [ht1, ht2]
    grind
  have ht11 : t1 * t1 ≤ 1 := by nlinarith [mul_self_nonneg t2]
  have hd : d = (t1, (1 - 0.5 * (1 + z)) * sqrt (1 - t1 * t1) + 0.5 * (1 + z) * t2) := by
    simp only [d, vndfDisc, ← ht1, ← ht2]
    rw [max_eq_right (by linarith)]
  obtain ⟨c, hc⟩ : ∃ c, c = sqrt (1 - t1 * t1) := ⟨_, rfl⟩
  have hc0 : 0 ≤ c := by rw [hc]; exact sqrt_nonneg _
  have hcc : c * c = 1 - t1 * t1 := by rw [hc]; exact mul_self_sqrt (by linarith)
  have hlo : -c ≤ t2 := by
    apply neg_le_of_abs_le; exact abs_le_of_sq_le_sq (by nlinarith) hc0
  have hhi : t2 ≤ c := by
    apply le_of_abs_le; exact abs_le_of_sq_le_sq (by nlinarith) hc0
  rw [hd]
  simp only
  rw [← hc]
  have b1 : -(z * c) ≤ (1 - 0.5 * (1 + z)) * c + 0.5 * (1 + z) * t2 := by nlinarith
  have b2 : (1 - 0.5 * (1 + z)) * c + 0.5 * (1 + z) * t2 ≤ c := by nlinarith
  refine ⟨?_, b1, ht11⟩
  have b3 : -c ≤ (1 - 0.5 * (1 + z)) * c + 0.5 * (1 + z) * t2 := by nlinarith
  nlinarith

/-- The sampled normal, before unstretching, is not below the surface; in the generic branch it is a unit vector. -/
theorem vndfNh_spec (V : V3) (hV : dot V V = 1) (hz : 0 < V.z) (u1 u2 : ℝ) (h0 : 0 ≤ u1) (h1 : u1 ≤ 1) :
    (V.x * V.x + V.y * V.y > 1e-7 → dot (vndfNh V u1 u2) (vndfNh V u1 u2) = 1 ∧ 0 ≤ (vndfNh V u1 u2).z) ∧
    ¬ ((vndfNh V u1 u2).x = 0 ∧ (vndfNh V u1 u2).y = 0 ∧ (vndfNh V u1 u2).z ≤ 0) := by
  obtain ⟨d1, d2, d3⟩ := vndfDisc_le V hV hz u1 u2 h0 h1
  obtain ⟨x, y, z⟩ := V
  simp only [dot] at hV hz
  unfold vndfNh vndfT1
  simp only
  generalize vndfDisc ⟨x, y, z⟩ u1 u2 = d at *
  obtain ⟨a, b⟩ := d
  simp only at d1 d2 d3 ⊢
  obtain ⟨c, hc⟩ : ∃ c, c = sqrt (max 0 (1 - a * a - b * b)) := ⟨_, rfl⟩
  have hc0 : 0 ≤ c := by rw [hc]; exact sqrt_nonneg _
  have hcc : c * c = 1 - a * a - b * b := by rw [hc, max_eq_right (by linarith)]; exact mul_self_sqrt (by linarith)
  rw [← hc]
  obtain ⟨k, hk⟩ : ∃ k, k = sqrt (1 - a * a) := ⟨_, rfl⟩
  have hk0 : 0 ≤ k := by rw [hk]; exact sqrt_nonneg _
  have hkk : k * k = 1 - a * a := by rw [hk]; exact mul_self_sqrt (by linarith)
  rw [← hk] at d2
  by_cases hb : x * x + y * y > 1e-7
  · have hpos : 0 < x * x + y * y := lt_trans (by norm_num) hb
    obtain ⟨l, hl⟩ : ∃ l, l = sqrt (x * x + y * y) := ⟨_, rfl⟩
    have hl0 : 0 < l := by rw [hl]; exact sqrt_pos.mpr hpos
    have hll : l * l = x * x + y * y := by rw [hl]; exact mul_self_sqrt hpos.le
    rw [if_pos hb, ← hl]
    obtain ⟨i, hi⟩ : ∃ i, i = 1 / l := ⟨_, rfl⟩
    have hil : i * l = 1 := by rw [hi]; field_simp
    rw [← hi]
    have hu : dot ((a : ℝ) * ((i : ℝ) * (⟨-y, x, 0⟩ : V3)) + b * cross ⟨x, y, z⟩ (i * (⟨-y, x, 0⟩ : V3)) + c * (⟨x, y, z⟩ : V3))
        ((a : ℝ) * ((i : ℝ) * (⟨-y, x, 0⟩ : V3)) + b * cross ⟨x, y, z⟩ (i * (⟨-y, x, 0⟩ : V3)) + c * (⟨x, y, z⟩ : V3)) = 1 := by
      simp only [dot, cross, add_x, add_y, add_z, hmul_x, hmul_y, hmul_z]
      grind
    have hzz : 0 ≤ ((a : ℝ) * ((i : ℝ) * (⟨-y, x, 0⟩ : V3)) + b * cross ⟨x, y, z⟩ (i * (⟨-y, x, 0⟩ : V3)) +
        c * (⟨x, y, z⟩ : V3)).z := by
      simp only [dot, cross, add_x, add_y, add_z, hmul_x, hmul_y, hmul_z]
      have e : a * (i * 0) + b * (x * (i * x) - y * (i * -y)) + c * z = b * l + c * z := by
        have : i * (x * x + y * y) = l := by rw [← hll, ← mul_assoc, hil, one_mul]
        linear_combination b * this
      rw [e]
      by_cases hb0 : 0 ≤ b
      · positivity
      · push Not at hb0
        have hll' : l * l = 1 - z * z := by linarith
        -- c ≥ k l
        have h1 : b * b ≤ (z * k) * (z * k) := by nlinarith
        have h2 : (k * l) * (k * l) ≤ c * c := by
          have : (k * l) * (k * l) = (k * k) * (l * l) := by ring
          rw [this, hkk, hll', hcc]
          have : z * k * (z * k) = z * z * (k * k) := by ring
          rw [this, hkk] at h1
          nlinarith
        have h3 : k * l ≤ c := abs_le_of_sq_le_sq' (by nlinarith) hc0 |>.2
        nlinarith [mul_le_mul_of_nonneg_right h3 hz.le, mul_le_mul_of_nonneg_right d2 hl0.le]
    refine ⟨fun _ => ⟨hu, hzz⟩, ?_⟩
    rintro ⟨e1, e2, e3⟩
    have e4 := le_antisymm e3 hzz
    have : dot ((a : ℝ) * ((i : ℝ) * (⟨-y, x, 0⟩ : V3)) + b * cross ⟨x, y, z⟩ (i * (⟨-y, x, 0⟩ : V3)) + c * (⟨x, y, z⟩ : V3))
        ((a : ℝ) * ((i : ℝ) * (⟨-y, x, 0⟩ : V3)) + b * cross ⟨x, y, z⟩ (i * (⟨-y, x, 0⟩ : V3)) + c * (⟨x, y, z⟩ : V3)) = 0 := by
      unfold dot; rw [e1, e2, e4]; ring
    rw [hu] at this
    exact one_ne_zero this
  · refine ⟨fun h => absurd h hb, ?_⟩
    rw [if_neg hb]
    simp only [cross, add_x, add_y, add_z, hmul_x, hmul_y, hmul_z]
    rintro ⟨e1, e2, e3⟩
    have e1' : a = -(c * x) := by linarith
    have e2' : b * z = -(c * y) := by linarith
    have hcz : c * (y * y + z * z) ≤ 0 := by
      have e3' : -(b * y) + c * z ≤ 0 := by linarith
      have e4 : c * (y * y + z * z) = (-(b * y) + c * z) * z := by linear_combination y * e2'
      rw [e4]; exact mul_nonpos_of_nonpos_of_nonneg e3' hz.le
    have hc' : c = 0 := by
      have : 0 < y * y + z * z := by nlinarith [mul_self_nonneg y]
      nlinarith
    have ha' : a = 0 := by rw [e1', hc']; ring
    have hb' : b = 0 := by
      rw [hc'] at e2'
      have : b * z = 0 := by linarith
      exact (mul_eq_zero.mp this).resolve_right hz.ne'
    rw [hc', ha', hb'] at hcc
    norm_num at hcc

/-- **C59** for `ggx_vndf_sample` (geometry): for a view direction above the surface the half vector is a unit vector that is
not below the surface. -/
theorem C59_vndf_unit_partial (wo : V3) (hz : 0 < wo.z) (r : ℝ) (hr : 0 < r) (u1 u2 : ℝ) (h0 : 0 ≤ u1) (h1 : u1 ≤ 1) :
    dot (vndf wo r u1 u2).dir (vndf wo r u1 u2).dir = 1 ∧ 0 ≤ (vndf wo r u1 u2).dir.z := by
  have ha : 0 < r * r := by positivity
  have hne : (⟨r * r * wo.x, r * r * wo.y, wo.z⟩ : V3) ≠ V3.zero := by
    intro e; have := congrArg V3.z e; simp only [V3.zero] at this; linarith
  have hV : dot (vndfVh wo (r * r)) (vndfVh wo (r * r)) = 1 := dot_normalize hne
  have hVz : 0 < (vndfVh wo (r * r)).z := by
    simp only [vndfVh, normalize_eq, hmul_z]
    have := len_pos hne
    positivity
  obtain ⟨_, hN⟩ := vndfNh_spec _ hV hVz u1 u2 h0 h1
  have hne2 : (⟨r * r * (vndfNh (vndfVh wo (r * r)) u1 u2).x, r * r * (vndfNh (vndfVh wo (r * r)) u1 u2).y,
      max 0 (vndfNh (vndfVh wo (r * r)) u1 u2).z⟩ : V3) ≠ V3.zero := by
    intro e
    apply hN
    have e1 := congrArg V3.x e
    have e2 := congrArg V3.y e
    have e3 := congrArg V3.z e
    simp only [V3.zero] at e1 e2 e3
    refine ⟨(mul_eq_zero.mp e1).resolve_left ha.ne', (mul_eq_zero.mp e2).resolve_left ha.ne', ?_⟩
    rw [← e3]; exact le_max_right _ _
  refine ⟨dot_normalize hne2, ?_⟩
  simp only [vndf, normalize_eq, hmul_z]
  have := len_pos hne2
  have := le_max_left 0 (vndfNh (vndfVh wo (r * r)) u1 u2).z
  positivity

/-! ## Sampling weights (C57) -/

theorem clamp_mem (x lo hi : ℝ) (h : lo ≤ hi) : lo ≤ clamp x lo hi ∧ clamp x lo hi ≤ hi := by
  unfold clamp; split_ifs <;> constructor <;> linarith

/-- The lobe choice keeps the remapped number in `[0, 1)` and never divides by zero. -/
theorem lobe_mem (w u1 : ℝ) (hw : 0 < w) (hw1 : w ≤ 1) (h0 : 0 ≤ u1) (h1 : u1 < 1) :
    0 ≤ (lobe w u1).2 ∧ (lobe w u1).2 < 1 := by
  unfold lobe
  split_ifs with h
  · exact ⟨by positivity, by rw [div_lt_one hw]; exact h⟩
  · push Not at h
    have : 0 < 1 - w := by linarith
    exact ⟨div_nonneg (by linarith) this.le, by rw [div_lt_one this]; linarith⟩

theorem cosine_z (u1 u2 : ℝ) (h1 : u1 < 1) : 0 < (cosine u1 u2).dir.z := by
  simp only [cosine]
  exact sqrt_pos.mpr (lt_max_of_lt_right (by linarith))

theorem cosine_unit (u1 u2 : ℝ) (h0 : 0 ≤ u1) (h1 : u1 < 1) :
    dot (cosine u1 u2).dir (cosine u1 u2).dir = 1 := by
  simp only [cosine, dot]
  have e1 := mul_self_sqrt h0
  have e2 := mul_self_sqrt (show (0 : ℝ) ≤ max 0 (1 - u1) from le_max_left _ _)
  rw [max_eq_right (by linarith : (0 : ℝ) ≤ 1 - u1)] at e2 ⊢
  have := sin_sq_add_cos_sq (2 * π * u2)
  grind

theorem ggxD_pos (nh a : ℝ) (h0 : 0 ≤ nh) (h1 : nh ≤ 1) (ha : 0 < a) : 0 < ggxD nh a := by
  have hpi := pi_pos
  have : 0 < nh * nh * (a - 1) + 1 := by nlinarith [mul_nonneg h0 h0, mul_nonneg (mul_nonneg h0 h0) ha.le]
  unfold ggxD
  positivity

theorem smithG1_pos (nv a : ℝ) (ha : 0 ≤ a) : 0 < smithG1 nv a := by
  unfold smithG1
  have := sqrt_nonneg (1 + a * ((1 - nv * nv) / max (nv * nv) 1e-8))
  positivity

theorem smithG1_le (nv a : ℝ) (ha : 0 ≤ a) (h : nv * nv ≤ 1) : smithG1 nv a ≤ 1 := by
  unfold smithG1
  have h1 : 0 ≤ (1 - nv * nv) / max (nv * nv) 1e-8 :=
    div_nonneg (by linarith) (le_max_of_le_right (by norm_num))
  have h2 : 1 ≤ sqrt (1 + a * ((1 - nv * nv) / max (nv * nv) 1e-8)) := by
    rw [one_le_sqrt]; nlinarith [mul_nonneg ha h1]
  rw [div_le_one (by linarith)]; linarith

theorem dot_le_one {a b : V3} (ha : dot a a = 1) (hb : dot b b = 1) : dot a b ≤ 1 := by
  have := cauchy_schwarz a b
  rw [ha, hb] at this
  nlinarith

theorem half_ne {nn wo wi : V3} (h1 : 0 < dot nn wo) (h2 : 0 < dot nn wi) : wo + wi ≠ V3.zero := by
  intro e
  have : dot nn (wo + wi) = 0 := by rw [e]; simp [dot, V3.zero]
  rw [dot_add_right] at this
  linarith

theorem alpha2_pos (x : ℝ) : 0 < clamp x 0.01 1 * clamp x 0.01 1 * (clamp x 0.01 1 * clamp x 0.01 1) := by
  have : 0 < clamp x 0.01 1 := lt_of_lt_of_le (by norm_num) (clamp_mem x 0.01 1 (by norm_num)).1
  positivity

theorem cookPdf_pos (wo wi : V3) (f : Frame) (p : Params n) (hf : dot f.n f.n = 1)
    (h1 : 0 < dot f.n wo) (h2 : 0 < dot f.n wi) : 0 < cookPdf wo wi f p := by
  have hpi := pi_pos
  have hne := half_ne h1 h2
  have hm := clamp_mem p.metallic 0 1 (by norm_num)
  have hnh : max (dot f.n (V3.normalize (wo + wi))) 0 ≤ 1 := max_le (dot_le_one hf (dot_normalize hne)) zero_le_one
  have hD := ggxD_pos _ _ (le_max_right _ _) hnh (alpha2_pos p.roughness)
  have hG := smithG1_pos (dot f.n wo) _ (alpha2_pos p.roughness).le
  unfold cookPdf
  simp only
  rw [if_neg (by push Not; exact ⟨h1, h2⟩)]
  have ha : 0 < 0.5 * (1 + clamp p.metallic 0 1) := by nlinarith [hm.1]
  have hb : 0 ≤ 1 - 0.5 * (1 + clamp p.metallic 0 1) := by nlinarith [hm.2]
  positivity

theorem reflect_unit (I N : V3) (hI : dot I I = 1) (hN : dot N N = 1) : dot (reflect I N) (reflect I N) = 1 := by
  obtain ⟨a, b, c⟩ := I
  obtain ⟨x, y, z⟩ := N
  simp only [reflect, dot, sub_x, sub_y, sub_z, hmul_x, hmul_y, hmul_z] at *
  grind

/-- The local direction Cook–Torrance draws is a unit vector, whichever lobe is chosen. -/
theorem cook_local_unit (woL : V3) (hu : dot woL woL = 1) (hz : 0 < woL.z) (r m u1 u2 : ℝ) (h0 : 0 ≤ u1) (h1 : u1 < 1) :
    dot (if (lobe (0.5 * (1 + clamp m 0 1)) u1).1 = true then
        reflect (-woL) (vndf woL (clamp r 0.01 1) (lobe (0.5 * (1 + clamp m 0 1)) u1).2 u2).dir
      else (cosine (lobe (0.5 * (1 + clamp m 0 1)) u1).2 u2).dir)
      (if (lobe (0.5 * (1 + clamp m 0 1)) u1).1 = true then
        reflect (-woL) (vndf woL (clamp r 0.01 1) (lobe (0.5 * (1 + clamp m 0 1)) u1).2 u2).dir
      else (cosine (lobe (0.5 * (1 + clamp m 0 1)) u1).2 u2).dir) = 1 := by
  have hm := clamp_mem m 0 1 (by norm_num)
  have hl := lobe_mem (0.5 * (1 + clamp m 0 1)) u1 (by nlinarith [hm.1]) (by nlinarith [hm.2]) h0 h1
  have hr : 0 < clamp r 0.01 1 := lt_of_lt_of_le (by norm_num) (clamp_mem r 0.01 1 (by norm_num)).1
  split_ifs
  · apply reflect_unit
    · simpa [dot] using hu
    · exact (C59_vndf_unit_partial woL hz _ hr _ _ hl.1 hl.2.le).1
  · exact cosine_unit _ _ hl.1 hl.2

/-- What a sample of a non-delta model promises. -/
structure Promise (k : Kind) (f : Frame) (p : Params n) (wo : V3) (s : BSample n) : Prop where
  /-- it is not a delta sample -/
  notDelta : s.isDelta = false
  /-- a valid sample is a unit direction above the surface; the pdf returned is the pdf reported for the direction; and weight
  times pdf is the BSDF times the cosine -/
  valid : s.pdf > 0 → dot s.wi s.wi = 1 ∧ 0 < dot s.wi f.n ∧ s.pdf = k.pdf wo s.wi f p ∧
    ∀ i, s.value i * k.pdf wo s.wi f p = k.eval wo s.wi f p i * dot s.wi f.n
  /-- any other sample carries nothing -/
  invalid : ¬ s.pdf > 0 → s.pdf = 0 ∧ ∀ i, s.value i = 0

/-- **C57.**  For every model other than the pass-through one, every orthonormal frame, unit outgoing direction and random numbers,
`sample` keeps its promise. -/
theorem C57_weight (k : Kind) (hk : k ≠ .null) (f : Frame) (hf : Orthonormal f.t f.b f.n) (p : Params n) (wo : V3)
    (hwo : dot wo wo = 1) (u1 u2 : ℝ) (h0 : 0 ≤ u1) (h1 : u1 < 1) : Promise k f p wo (k.sample wo f p u1 u2) := by
  have hpi := pi_pos
  -- the cosine-sampled direction
  have hcz : dot (localToWorld (cosine u1 u2).dir f.t f.b f.n) f.n = (cosine u1 u2).dir.z :=
    (C60_conversions hf _ V3.zero).2.2.2.2
  have hcu : dot (localToWorld (cosine u1 u2).dir f.t f.b f.n) (localToWorld (cosine u1 u2).dir f.t f.b f.n) = 1 := by
    rw [(C60_conversions hf _ _).2.2.1]; exact cosine_unit u1 u2 h0 h1
  have hzp := cosine_z u1 u2 h1
  have hpdf : (cosine u1 u2).pdf = (cosine u1 u2).dir.z * (1 / π) := rfl
  have hpp : 0 < (cosine u1 u2).dir.z * (1 / π) := by positivity
  have gen : ∀ (k : Kind) (ev : V3 → V3 → Frame → Params n → (Fin n → ℝ)), k.eval = ev →
      (∀ wo wi f (p : Params n), k.pdf wo wi f p = cosinePdf wo wi f) → Promise k f p wo (cosineSample ev wo f p u1 u2) := by
    intro k ev hev hpd
    unfold cosineSample
    simp only
    rw [hcz]
    split_ifs with hc
    · exact ⟨rfl, fun h => absurd h (by simp [noSample]), fun _ => ⟨rfl, fun _ => rfl⟩⟩
    · have hp : k.pdf wo (localToWorld (cosine u1 u2).dir f.t f.b f.n) f p = (cosine u1 u2).dir.z * (1 / π) := by
        rw [hpd]; unfold cosinePdf; rw [hcz, if_neg hc]
      refine ⟨rfl, fun _ => ⟨hcu, by simp only; rw [hcz]; exact hzp, by simp only; rw [hp, hpdf], fun i => ?_⟩, fun h => ?_⟩
      · simp only
        rw [hp, hev, hcz]; field_simp
      · exact absurd (by simpa [hpdf] using hpp) h
  cases k with
  | null => exact absurd rfl hk
  | mcEwen => exact gen _ _ rfl (fun _ _ _ _ => rfl)
  | orenNayar => exact gen _ _ rfl (fun _ _ _ _ => rfl)
  | hapke h B0 b c => exact gen _ _ rfl (fun _ _ _ _ => rfl)
  | lambertian =>
    simp only [Kind.sample, lambertianSample]
    rw [if_neg (by rw [hcz]; exact not_le.mpr hzp)]
    have hp : Kind.lambertian.pdf wo (localToWorld (cosine u1 u2).dir f.t f.b f.n) f p = (cosine u1 u2).dir.z * (1 / π) := by
      simp only [Kind.pdf]; rw [hcz, if_neg (not_le.mpr hzp)]
    refine ⟨rfl, fun _ => ⟨hcu, by simp only; rw [hcz]; exact hzp, by simp only; rw [hp, hpdf], fun i => ?_⟩, fun h => ?_⟩
    · simp only
      rw [hp]
      simp only [Kind.eval, lambertianEval]
      rw [hcz, if_neg (not_le.mpr hzp)]; ring
    · exact absurd (by simpa [hpdf] using hpp) h
  | lommelSeeliger =>
    simp only [Kind.sample, lommelSample]
    rw [hcz]
    split_ifs with hc
    · exact ⟨rfl, fun h => absurd h (by simp [noSample]), fun _ => ⟨rfl, fun _ => rfl⟩⟩
    · have hp : Kind.lommelSeeliger.pdf wo (localToWorld (cosine u1 u2).dir f.t f.b f.n) f p =
          (cosine u1 u2).dir.z * (1 / π) := by
        simp only [Kind.pdf, cosinePdf]; rw [hcz, if_neg hc]
      refine ⟨rfl, fun _ => ⟨hcu, by simp only; rw [hcz]; exact hzp, by simp only; rw [hp, hpdf], fun i => ?_⟩, fun h => ?_⟩
      · simp only
        rw [hp]
        simp only [Kind.eval, lommelEval]
        rw [hcz, if_neg hc]
        push Not at hc
        have : 0 < (cosine u1 u2).dir.z + dot wo f.n := by linarith
        field_simp
      · exact absurd (by simpa [hpdf] using hpp) h
  | cookTorrance =>
    have hinv : ∀ w, Promise Kind.cookTorrance f p wo (noSample w) := fun w =>
      ⟨rfl, fun h => absurd h (by simp [noSample]), fun _ => ⟨rfl, fun _ => rfl⟩⟩
    simp only [Kind.sample]
    unfold cookSample
    simp only
    by_cases ha : dot f.n wo ≤ 0
    · rw [if_pos ha]; exact hinv _
    rw [if_neg ha]
    have hwz : (worldToLocal wo f.t f.b f.n).z = dot wo f.n := rfl
    have hu := cook_local_unit (worldToLocal wo f.t f.b f.n) (by rw [(C60_conversions hf wo wo).2.2.2.1]; exact hwo)
      (by rw [hwz, dot_comm]; exact not_le.mp ha) p.roughness p.metallic u1 u2 h0 h1
    generalize (if (lobe (0.5 * (1 + clamp p.metallic 0 1)) u1).1 = true then
        reflect (-worldToLocal wo f.t f.b f.n) (vndf (worldToLocal wo f.t f.b f.n) (clamp p.roughness 0.01 1)
          (lobe (0.5 * (1 + clamp p.metallic 0 1)) u1).2 u2).dir
      else (cosine (lobe (0.5 * (1 + clamp p.metallic 0 1)) u1).2 u2).dir) = wiL at *
    split_ifs with hb hc hd
    · exact hinv _
    · exact hinv _
    · exact hinv _
    · push Not at ha hc hd
      refine ⟨rfl, fun _ => ⟨?_, ?_, rfl, fun i => ?_⟩, fun h => absurd hd h⟩
      · rw [(C60_conversions hf _ _).2.2.1]; exact hu
      · rw [dot_comm]; exact hc
      · simp only [Kind.pdf, Kind.eval]
        rw [dot_comm _ f.n]
        field_simp

/-- When samples are valid: Lambertian always; the other cosine-sampled models exactly when the viewer is above the surface;
Cook–Torrance only then. -/
theorem C57_valid (k : Kind) (f : Frame) (hf : Orthonormal f.t f.b f.n) (p : Params n) (wo : V3)
    (u1 u2 : ℝ) (h0 : 0 ≤ u1) (h1 : u1 < 1) :
    ((k.sample wo f p u1 u2).isValid ↔ match k with
      | .lambertian => True
      | .null => True
      | .cookTorrance => (k.sample wo f p u1 u2).isValid ∧ 0 < dot wo f.n
      | _ => 0 < dot wo f.n) := by
  have hpi := pi_pos
  have hcz : dot (localToWorld (cosine u1 u2).dir f.t f.b f.n) f.n = (cosine u1 u2).dir.z :=
    (C60_conversions hf _ V3.zero).2.2.2.2
  have hzp := cosine_z u1 u2 h1
  have hpdf : (cosine u1 u2).pdf = (cosine u1 u2).dir.z * (1 / π) := rfl
  have hpp : 0 < (cosine u1 u2).dir.z * (1 / π) := by positivity
  have gen : ∀ ev : V3 → V3 → Frame → Params n → (Fin n → ℝ),
      (cosineSample ev wo f p u1 u2).isValid ↔ 0 < dot wo f.n := by
    intro ev
    unfold cosineSample
    simp only
    rw [hcz]
    split_ifs with hc
    · simp only [BSample.isValid, noSample, gt_iff_lt, lt_irrefl, false_iff, not_lt]
      rcases hc with hc | hc
      · linarith
      · exact hc
    · push Not at hc
      simp only [BSample.isValid, hpdf, hc.2, iff_true]; exact hpp
  cases k with
  | null => simp [Kind.sample, BSample.isValid]
  | mcEwen => exact gen _
  | orenNayar => exact gen _
  | hapke h B0 b c => exact gen _
  | lambertian =>
    simp only [Kind.sample, lambertianSample, iff_true]
    rw [if_neg (by rw [hcz]; exact not_le.mpr hzp)]
    simp only [BSample.isValid, hpdf]; exact hpp
  | lommelSeeliger =>
    simp only [Kind.sample, lommelSample]
    rw [hcz]
    split_ifs with hc
    · simp only [BSample.isValid, noSample, gt_iff_lt, lt_irrefl, false_iff, not_lt]
      rcases hc with hc | hc
      · linarith
      · exact hc
    · push Not at hc
      simp only [BSample.isValid, hpdf, hc.2, iff_true]; exact hpp
  | cookTorrance =>
    simp only
    constructor
    · intro h
      refine ⟨h, ?_⟩
      by_contra hc
      simp only [Kind.sample, BSample.isValid, cookSample] at h
      rw [if_pos (by rw [dot_comm]; exact not_lt.mp hc)] at h
      simp [noSample] at h
    · exact fun h => h.1

/-- Cook–Torrance rejects a sample drawn from the diffuse lobe never, and one from the specular lobe only when the reflection
points below the surface. -/
theorem C57_cook_valid (f : Frame) (hf : Orthonormal f.t f.b f.n) (p : Params n) (wo : V3) (hwo : 0 < dot wo f.n)
    (u1 u2 : ℝ) (h0 : 0 ≤ u1) (h1 : u1 < 1) (hd : 0.5 * (1 + clamp p.metallic 0 1) ≤ u1) :
    (Kind.cookTorrance.sample wo f p u1 u2).isValid := by
  have hm := clamp_mem p.metallic 0 1 (by norm_num)
  have hl := lobe_mem (0.5 * (1 + clamp p.metallic 0 1)) u1 (by nlinarith [hm.1]) (by nlinarith [hm.2]) h0 h1
  have hlf : (lobe (0.5 * (1 + clamp p.metallic 0 1)) u1).1 = false := by
    unfold lobe; rw [if_neg (not_lt.mpr hd)]
  simp only [Kind.sample, cookSample, hlf, Bool.false_eq_true, false_and, if_false]
  have hno : 0 < dot f.n wo := by rw [dot_comm]; exact hwo
  have hcz : dot f.n (localToWorld (cosine (lobe (0.5 * (1 + clamp p.metallic 0 1)) u1).2 u2).dir f.t f.b f.n) =
      (cosine (lobe (0.5 * (1 + clamp p.metallic 0 1)) u1).2 u2).dir.z := by
    rw [dot_comm]; exact (C60_conversions hf _ V3.zero).2.2.2.2
  have hzp := cosine_z (lobe (0.5 * (1 + clamp p.metallic 0 1)) u1).2 u2 hl.2
  rw [if_neg (not_le.mpr hno), if_neg (by rw [hcz]; exact not_le.mpr hzp)]
  have hq := cookPdf_pos wo (localToWorld (cosine (lobe (0.5 * (1 + clamp p.metallic 0 1)) u1).2 u2).dir f.t f.b f.n) f p
    hf.nn hno (by rw [hcz]; exact hzp)
  rw [if_neg (not_le.mpr hq)]
  exact hq

/-- The pass-through model continues in the same direction with weight 1 as a delta sample, and reports no density and no
reflectance for any direction. -/
theorem C57_null (f : Frame) (p : Params n) (wo wi : V3) (u1 u2 : ℝ) :
    Kind.null.sample wo f p u1 u2 = ⟨-wo, fun _ => 1, 1, true⟩ ∧ Kind.null.pdf wo wi f p = 0 ∧
    Kind.null.eval wo wi f p = fun _ => 0 := ⟨rfl, rfl, rfl⟩

/-! ## Reciprocity and sign (C58) -/

theorem half_dot (wo wi : V3) (ho : dot wo wo = 1) (hi : dot wi wi = 1) :
    dot wo (V3.normalize (wo + wi)) = dot wi (V3.normalize (wo + wi)) := by
  rw [normalize_eq, dot_smul_right, dot_smul_right, dot_add_right, dot_add_right, ho, hi, dot_comm wi wo, add_comm]

theorem add_comm' (a b : V3) : a + b = b + a := by ext <;> simp [add_comm]

/-- **C58.**  For directions above the surface every model gives the same value with the directions swapped. -/
theorem C58_reciprocal (k : Kind) (f : Frame) (p : Params n) (wo wi : V3) (ho : dot wo wo = 1) (hi : dot wi wi = 1)
    (hco : 0 < dot wo f.n) (hci : 0 < dot wi f.n) : k.eval wo wi f p = k.eval wi wo f p := by
  have c1 : ¬ (dot wi f.n ≤ 0 ∨ dot wo f.n ≤ 0) := by push Not; exact ⟨hci, hco⟩
  have c2 : ¬ (dot wo f.n ≤ 0 ∨ dot wi f.n ≤ 0) := by push Not; exact ⟨hco, hci⟩
  funext i
  cases k with
  | null => rfl
  | lambertian => simp only [Kind.eval, lambertianEval]; rw [if_neg (not_le.mpr hci), if_neg (not_le.mpr hco)]
  | lommelSeeliger =>
    simp only [Kind.eval, lommelEval]; rw [if_neg c1, if_neg c2, add_comm]
  | mcEwen =>
    simp only [Kind.eval, mcEwenEval]; rw [if_neg c1, if_neg c2, add_comm (dot wi f.n), dot_comm wi wo]
  | orenNayar =>
    simp only [Kind.eval, orenEval]
    rw [if_neg c1, if_neg c2, dot_comm wi wo, max_comm (dot wi f.n), mul_comm (dot wi f.n)]
  | hapke h B0 b c =>
    simp only [Kind.eval, hapkeEval]
    rw [if_neg c1, if_neg c2, dot_comm wi wo, add_comm (dot wi f.n), mul_comm (hFunction (dot wi f.n) _)]
  | cookTorrance =>
    simp only [Kind.eval, cookEval]
    rw [dot_comm f.n wo, dot_comm f.n wi, if_neg c1, if_neg c2, half_dot wo wi ho hi, add_comm' wo wi, smithG2, smithG2,
      mul_comm (smithG1 (dot wo f.n) _), mul_right_comm 4 (dot wo f.n)]

/-- Parameters in their documented ranges. -/
structure Physical (k : Kind) (p : Params n) : Prop where
  albedo : ∀ i, 0 ≤ p.albedo i ∧ p.albedo i ≤ 1
  hapke : ∀ h B0 b c, k = .hapke h B0 b c → 0 ≤ B0 ∧ -1 < b ∧ b < 1 ∧ 0 ≤ c ∧ c ≤ 1

theorem hg_pos (g a : ℝ) (h1 : -1 < g) (h2 : g < 1) (ha : -1 ≤ a) (ha' : a ≤ 1) : 0 < hg g a := by
  have h3 : 0 < 1 - g * g := by nlinarith
  have h4 : 0 < 1 + g * g - 2 * g * a := by
    rcases le_or_gt 0 g with h | h
    · nlinarith [mul_nonneg h (sub_nonneg.mpr ha'), sq_pos_of_pos (sub_pos.mpr h2)]
    · nlinarith [mul_nonneg (neg_nonneg.mpr h.le) (by linarith : 0 ≤ a + 1), sq_pos_of_pos (by linarith : 0 < 1 + g)]
  exact div_pos h3 (rpow_pos_of_pos h4 _)

theorem one_le_hFunction (mu w : ℝ) (h : 0 ≤ mu) (h0 : 0 ≤ w) : 1 ≤ hFunction mu w := by
  have h1 : sqrt (1 - w) ≤ 1 := by rw [sqrt_le_one]; linarith
  have h2 := sqrt_nonneg (1 - w)
  unfold hFunction
  rw [le_div_iff₀ (by positivity)]
  nlinarith

/-- **C58.**  No model ever gives a negative value, for any directions, when its parameters are in range. -/
theorem C58_nonneg (k : Kind) (f : Frame) (hn : dot f.n f.n = 1) (p : Params n) (hp : Physical k p) (wo wi : V3)
    (ho : dot wo wo = 1) (hi : dot wi wi = 1) (i : Fin n) : 0 ≤ k.eval wo wi f p i := by
  have hpi := pi_pos
  obtain ⟨ha0, ha1⟩ := hp.albedo i
  cases k with
  | null => exact le_rfl
  | lambertian => simp only [Kind.eval, lambertianEval]; split_ifs <;> positivity
  | lommelSeeliger =>
    simp only [Kind.eval, lommelEval]
    split_ifs with hc
    · exact le_rfl
    · push Not at hc
      have : 0 < dot wi f.n + dot wo f.n := by linarith
      positivity
  | mcEwen =>
    simp only [Kind.eval, mcEwenEval]
    split_ifs with hc
    · exact le_rfl
    · push Not at hc
      have h1 : 0 < dot wi f.n + dot wo f.n := by linarith
      have h2 : exp (-arccos (clamp (dot wi wo) (-1) 1) * (3 * (1 / π))) ≤ 1 := by
        rw [exp_le_one_iff]
        have := arccos_nonneg (clamp (dot wi wo) (-1) 1)
        have h3 : 0 ≤ 3 * (1 / π) := by positivity
        nlinarith
      have h4 := exp_pos (-arccos (clamp (dot wi wo) (-1) 1) * (3 * (1 / π)))
      have h5 : 0 ≤ 1 - exp (-arccos (clamp (dot wi wo) (-1) 1) * (3 * (1 / π))) := by linarith
      positivity
  | orenNayar =>
    simp only [Kind.eval, orenEval]
    split_ifs with hc hd
    · exact le_rfl
    · have h1 : 0 < max (dot wi f.n) (dot wo f.n) := lt_trans (by norm_num) hd.2
      have hs := mul_self_nonneg (p.roughness * (π / 2))
      have h2 : p.roughness * (π / 2) * (p.roughness * (π / 2)) / (p.roughness * (π / 2) * (p.roughness * (π / 2)) + 0.33) ≤ 1 := by
        rw [div_le_one (by positivity)]; linarith
      have h3 : 0 ≤ 1 - 0.5 * (p.roughness * (π / 2) * (p.roughness * (π / 2)) /
        (p.roughness * (π / 2) * (p.roughness * (π / 2)) + 0.33)) := by linarith
      have h4 := hd.1.le
      positivity
    · have hs := mul_self_nonneg (p.roughness * (π / 2))
      have h2 : p.roughness * (π / 2) * (p.roughness * (π / 2)) / (p.roughness * (π / 2) * (p.roughness * (π / 2)) + 0.33) ≤ 1 := by
        rw [div_le_one (by positivity)]; linarith
      have h3 : 0 ≤ 1 - 0.5 * (p.roughness * (π / 2) * (p.roughness * (π / 2)) /
        (p.roughness * (π / 2) * (p.roughness * (π / 2)) + 0.33)) := by linarith
      rw [mul_zero, add_zero]
      positivity
  | hapke h B0 b c =>
    obtain ⟨hB, hb1, hb2, hc1, hc2⟩ := hp.hapke h B0 b c rfl
    simp only [Kind.eval, hapkeEval]
    split_ifs with hc
    · exact le_rfl
    · push Not at hc
      have h1 : 0 < dot wi f.n + dot wo f.n := by linarith
      have hcl := clamp_mem (dot wi wo) (-1) 1 (by norm_num)
      have hP : 0 ≤ dhg b c (clamp (dot wi wo) (-1) 1) := by
        unfold dhg
        have g1 := hg_pos (-b) (clamp (dot wi wo) (-1) 1) (by linarith) (by linarith) hcl.1 hcl.2
        have g2 := hg_pos b (clamp (dot wi wo) (-1) 1) hb1 hb2 hcl.1 hcl.2
        have : 0 ≤ 1 - c := by linarith
        positivity
      have hT : 0 ≤ tan (arccos (clamp (dot wi wo) (-1) 1) * 0.5) := by
        apply tan_nonneg_of_nonneg_of_le_pi_div_two
        · have := arccos_nonneg (clamp (dot wi wo) (-1) 1); positivity
        · have := arccos_le_pi (clamp (dot wi wo) (-1) 1); linarith
      have hBB : 0 ≤ opposition h B0 (tan (arccos (clamp (dot wi wo) (-1) 1) * 0.5)) := by
        unfold opposition
        split_ifs with hh
        · exact le_rfl
        · push Not at hh; positivity
      have hHi := one_le_hFunction (dot wi f.n) (p.albedo i) hc.1.le ha0
      have hHo := one_le_hFunction (dot wo f.n) (p.albedo i) hc.2.le ha0
      have hHH : 1 ≤ hFunction (dot wi f.n) (p.albedo i) * hFunction (dot wo f.n) (p.albedo i) := by nlinarith
      have hbr : 0 ≤ (1 + opposition h B0 (tan (arccos (clamp (dot wi wo) (-1) 1) * 0.5))) *
          dhg b c (clamp (dot wi wo) (-1) 1) - 1 +
          hFunction (dot wi f.n) (p.albedo i) * hFunction (dot wo f.n) (p.albedo i) := by
        nlinarith [mul_nonneg hBB hP]
      positivity
  | cookTorrance =>
    simp only [Kind.eval, cookEval]
    split_ifs with hc
    · exact le_rfl
    · push Not at hc
      have hne := half_ne hc.1 hc.2
      have hm := clamp_mem p.metallic 0 1 (by norm_num)
      have hnh : max (dot f.n (V3.normalize (wo + wi))) 0 ≤ 1 := max_le (dot_le_one hn (dot_normalize hne)) zero_le_one
      have hoh : max (dot wo (V3.normalize (wo + wi))) 0 ≤ 1 := max_le (dot_le_one ho (dot_normalize hne)) zero_le_one
      have hD := ggxD_pos _ _ (le_max_right _ _) hnh (alpha2_pos p.roughness)
      have hG1 := smithG1_pos (dot f.n wo) _ (alpha2_pos p.roughness).le
      have hG2 := smithG1_pos (dot f.n wi) _ (alpha2_pos p.roughness).le
      have hm' : 0 ≤ 1 - clamp p.metallic 0 1 := by linarith [hm.2]
      have hf0 : 0 ≤ p.albedo i * clamp p.metallic 0 1 + 0.04 * (1 - clamp p.metallic 0 1) := by
        have := hm.1; positivity
      have hf1 : p.albedo i * clamp p.metallic 0 1 + 0.04 * (1 - clamp p.metallic 0 1) ≤ 1 := by
        nlinarith [mul_le_mul_of_nonneg_right ha1 hm.1]
      have hF : 0 ≤ schlick (max (dot wo (V3.normalize (wo + wi))) 0)
          (p.albedo i * clamp p.metallic 0 1 + 0.04 * (1 - clamp p.metallic 0 1)) := by
        unfold schlick
        have ht : 0 ≤ 1 - max (dot wo (V3.normalize (wo + wi))) 0 := by linarith
        have : 0 ≤ 1 - (p.albedo i * clamp p.metallic 0 1 + 0.04 * (1 - clamp p.metallic 0 1)) := by linarith
        positivity
      have := hc.1
      have := hc.2
      unfold smithG2
      positivity

/-- Reciprocity for all directions fails for the Lambertian model, which does not look at the outgoing direction: it reflects
light to a viewer below the surface, but not from there. -/
theorem C58_lambertian_below (f : Frame) (p : Params n) (wo wi : V3) (hci : 0 < dot wi f.n) (hco : dot wo f.n < 0) :
    Kind.lambertian.eval wo wi f p = (fun i => p.albedo i * (1 / π)) ∧ Kind.lambertian.eval wi wo f p = fun _ => 0 := by
  constructor <;> funext i <;> simp only [Kind.eval, lambertianEval]
  · rw [if_neg (not_le.mpr hci)]
  · rw [if_pos hco.le]

/-- Every other model is zero as soon as one direction is not above the surface. -/
theorem C58_below (k : Kind) (hk : k ≠ .lambertian) (f : Frame) (p : Params n) (wo wi : V3)
    (h : dot wi f.n ≤ 0 ∨ dot wo f.n ≤ 0) : k.eval wo wi f p = fun _ => 0 := by
  funext i
  cases k with
  | null => rfl
  | lambertian => exact absurd rfl hk
  | lommelSeeliger => simp only [Kind.eval, lommelEval]; rw [if_pos h]
  | mcEwen => simp only [Kind.eval, mcEwenEval]; rw [if_pos h]
  | orenNayar => simp only [Kind.eval, orenEval]; rw [if_pos h]
  | hapke => simp only [Kind.eval, hapkeEval]; rw [if_pos h]
  | cookTorrance => simp only [Kind.eval, cookEval]; rw [if_pos]; rw [dot_comm f.n wo, dot_comm f.n wi]; exact h.symm

/-- Full reciprocity, without the restriction to directions above the surface. -/
def C58_full : Prop := ∀ (k : Kind) (f : Frame) (p : Params 1) (wo wi : V3), dot wo wo = 1 → dot wi wi = 1 →
  k.eval wo wi f p = k.eval wi wo f p

theorem C58_violated : ¬ C58_full := by
  intro h
  have hpi := pi_pos
  have h1 := h .lambertian ⟨⟨1, 0, 0⟩, ⟨0, 1, 0⟩, ⟨0, 0, 1⟩⟩ ⟨fun _ => 1, 0, 0⟩ ⟨0, 0, -1⟩ ⟨0, 0, 1⟩ (by simp [dot]) (by simp [dot])
  obtain ⟨e1, e2⟩ := C58_lambertian_below (n := 1) ⟨⟨1, 0, 0⟩, ⟨0, 1, 0⟩, ⟨0, 0, 1⟩⟩ ⟨fun _ => 1, 0, 0⟩ ⟨0, 0, -1⟩ ⟨0, 0, 1⟩
    (by simp [dot]) (by simp [dot])
  rw [e1, e2] at h1
  have := congrFun h1 0
  simp at this

/-! ## The models compute the published formulas -/

/-- Oren–Nayar's term is `max(0, cos(φi − φo)) · sin α · tan β` with `α` the larger and `β` the smaller of the two zenith angles,
for every pair of angles that are not both within 1e-6 of grazing. -/
theorem C58_oren_nayar_term (ti tO phi : ℝ) (hi0 : 0 ≤ ti) (hi1 : ti < π / 2) (ho0 : 0 ≤ tO) (ho1 : tO < π / 2)
    (hg : 1e-6 < max (cos ti) (cos tO)) :
    let ci := cos ti
    let co := cos tO
    let dotv := sin ti * sin tO * cos phi + cos ti * cos tO
    (if dotv - ci * co > 0 ∧ max ci co > 1e-6 then (dotv - ci * co) / max ci co else 0) =
      max 0 (cos phi) * sin (max ti tO) * tan (min ti tO) := by
  intro ci co dotv
  have hpi := pi_pos
  have si := sin_nonneg_of_nonneg_of_le_pi hi0 (by linarith)
  have so := sin_nonneg_of_nonneg_of_le_pi ho0 (by linarith)
  have ci0 : 0 < cos ti := cos_pos_of_mem_Ioo ⟨by linarith, hi1⟩
  have co0 : 0 < cos tO := cos_pos_of_mem_Ioo ⟨by linarith, ho1⟩
  have e : dotv - ci * co = sin ti * sin tO * cos phi := by simp only [dotv, ci, co]; ring
  rw [e]
  have key : sin (max ti tO) * tan (min ti tO) = sin ti * sin tO / max (cos ti) (cos tO) := by
    rcases le_total ti tO with h | h
    · have : cos tO ≤ cos ti := cos_le_cos_of_nonneg_of_le_pi hi0 (by linarith) h
      rw [max_eq_right h, min_eq_left h, max_eq_left this, tan_eq_sin_div_cos]; ring
    · have : cos ti ≤ cos tO := cos_le_cos_of_nonneg_of_le_pi ho0 (by linarith) h
      rw [max_eq_left h, min_eq_right h, max_eq_right this, tan_eq_sin_div_cos]; ring
  rw [mul_assoc (max 0 (cos phi)), key]
  have hss : 0 ≤ sin ti * sin tO := mul_nonneg si so
  split_ifs with hc
  · have hcp : 0 < cos phi := by
      by_contra hn
      have := mul_nonpos_of_nonneg_of_nonpos hss (not_lt.mp hn)
      linarith [hc.1]
    rw [max_eq_right hcp.le]; ring
  · have h2 : sin ti * sin tO * cos phi ≤ 0 := by
      by_contra hn
      exact hc ⟨not_le.mp hn, hg⟩
    rcases le_or_gt (cos phi) 0 with h3 | h3
    · rw [max_eq_left h3, zero_mul]
    · have : sin ti * sin tO = 0 := le_antisymm (by
        by_contra hn
        have := mul_pos (not_le.mp hn) h3
        linarith) hss
      rw [this]; simp

/-- The half-vector density of the visible-normal sampler, divided by `4 wo·h` for the change to the reflected direction, is the
specular part of the density Cook–Torrance reports (when no clamp is active). -/
theorem C57_vndf_pdf (wo : V3) (r u1 u2 : ℝ) (hz : 0 < wo.z) (hz' : 1e-8 ≤ wo.z * wo.z)
    (hoh : 0 < dot wo (vndf wo r u1 u2).dir)
    (hcl : (vndf wo r u1 u2).pdf ≠ 1e-8) :
    (vndf wo r u1 u2).pdf / (4 * dot wo (vndf wo r u1 u2).dir) =
      ggxD (vndf wo r u1 u2).dir.z (r * r * (r * r)) * smithG1 wo.z (r * r * (r * r)) / (4 * wo.z) := by
  have hz8 : 1e-8 ≤ |wo.z| := by
    rw [abs_of_pos hz]
    by_contra hc
    push Not at hc
    nlinarith
  have hp : (vndf wo r u1 u2).pdf = ggxD (vndf wo r u1 u2).dir.z (r * r * (r * r)) * smithG1 wo.z (r * r * (r * r)) *
      dot wo (vndf wo r u1 u2).dir / wo.z := by
    have e1 : (vndf wo r u1 u2).pdf = max (ggxD (vndf wo r u1 u2).dir.z (r * r * (r * r)) *
        (1 / (1 + (-1 + sqrt (1 + r * r * (r * r) * ((1 - wo.z * wo.z) / max (wo.z * wo.z) 1e-8))) * 0.5)) *
        max (dot wo (vndf wo r u1 u2).dir) 0 / max |wo.z| 1e-8) 1e-8 := rfl
    have e2 : 1 / (1 + (-1 + sqrt (1 + r * r * (r * r) * ((1 - wo.z * wo.z) / max (wo.z * wo.z) 1e-8))) * 0.5) =
        smithG1 wo.z (r * r * (r * r)) := by
      unfold smithG1
      have := sqrt_nonneg (1 + r * r * (r * r) * ((1 - wo.z * wo.z) / max (wo.z * wo.z) 1e-8))
      simp only
      generalize sqrt (1 + r * r * (r * r) * ((1 - wo.z * wo.z) / max (wo.z * wo.z) 1e-8)) = q at *
      rw [div_eq_div_iff (by nlinarith) (by linarith)]
      ring
    rw [e1] at hcl
    rw [e1, max_eq_left (le_of_not_ge fun h => hcl (max_eq_right h)), e2, max_eq_left hoh.le, max_eq_left hz8, abs_of_pos hz]
  rw [hp]
  field_simp

/-- The hypotheses of `C57_vndf_pdf` hold for a viewer at the zenith and the first random number zero: the normal itself is drawn. -/
example : (vndf ⟨0, 0, 1⟩ 1 0 0).dir = ⟨0, 0, 1⟩ ∧ (vndf ⟨0, 0, 1⟩ 1 0 0).pdf ≠ 1e-8 := by
  have hV : vndfVh ⟨0, 0, 1⟩ (1 * 1) = ⟨0, 0, 1⟩ := by
    ext <;> simp [vndfVh, normalize_eq, len, dot]
  have hN : vndfNh ⟨0, 0, 1⟩ 0 0 = ⟨0, 0, 1⟩ := by
    simp only [vndfNh, vndfT1, vndfDisc]
    norm_num [cross]
    ext <;> simp
  have hd : (vndf ⟨0, 0, 1⟩ 1 0 0).dir = ⟨0, 0, 1⟩ := by
    simp only [vndf, hV, hN]
    ext <;> simp [normalize_eq, len, dot]
  refine ⟨hd, ?_⟩
  have h1 : 1 / π ≤ (vndf ⟨0, 0, 1⟩ 1 0 0).pdf := by
    refine le_trans (le_of_eq ?_) (le_max_left _ _)
    have hz : (V3.normalize ⟨1 * 1 * (vndfNh (vndfVh ⟨0, 0, 1⟩ (1 * 1)) 0 0).x, 1 * 1 * (vndfNh (vndfVh ⟨0, 0, 1⟩ (1 * 1)) 0 0).y,
        max 0 (vndfNh (vndfVh ⟨0, 0, 1⟩ (1 * 1)) 0 0).z⟩) = ⟨0, 0, 1⟩ := hd
    rw [hz]
    simp [dot]
    norm_num
  have h2 : (1e-8 : ℝ) < 1 / π := by
    rw [lt_div_iff₀ pi_pos]; nlinarith [pi_le_four]
  linarith

/-- Parameters in range: a grey rough surface. -/
example : Physical (.hapke 0.05 1 0.3 0.5) (⟨fun _ => 0.2, 0.5, 0⟩ : Params 3) :=
  ⟨fun _ => by norm_num, by rintro h B0 b c e; cases e; norm_num⟩

end Huira.Bsdf
