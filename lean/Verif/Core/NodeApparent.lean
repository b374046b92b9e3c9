import Mathlib.Topology.MetricSpace.Contracting
import Verif.Core.NodeProps

set_option linter.unusedSimpArgs false

/-!
# C86 (light time), C70 (stellar aberration), C87 (nadir pointing)
-/

namespace Huira.World

open V3 Rot Xform Transform

/-! ## Lemmas on lengths -/

theorem len_nonneg (a : V3) : 0 ≤ len a := Real.sqrt_nonneg _

theorem dot_le_len (a b : V3) : dot a b ≤ len a * len b := by
  by_contra h
  push Not at h
  have h1 := cauchy_schwarz a b
  rw [← len_sq a, ← len_sq b] at h1
  nlinarith [len_nonneg a, len_nonneg b, mul_nonneg (len_nonneg a) (len_nonneg b)]

theorem abs_dot_le_len (a b : V3) : |dot a b| ≤ len a * len b := by
  rw [abs_le]
  constructor
  · have h := dot_le_len (-a) b
    have e1 : dot (-a) b = -dot a b := by simp [dot]; ring
    have e2 : len (-a) = len a := by simp [len, dot]
    rw [e1, e2] at h
    linarith
  · exact dot_le_len a b

theorem len_add_le (a b : V3) : len (a + b) ≤ len a + len b := by
  have h : dot (a + b) (a + b) = dot a a + 2 * dot a b + dot b b := by simp [dot]; ring
  have h2 := dot_le_len a b
  apply Real.sqrt_le_iff.mpr
  refine ⟨add_nonneg (len_nonneg a) (len_nonneg b), ?_⟩
  have ha := len_sq a
  have hb := len_sq b
  nlinarith

theorem abs_len_sub_le (a b : V3) : |len a - len b| ≤ len (a - b) := by
  rw [abs_le]
  have e1 : b + (a - b) = a := by ext <;> simp
  have e2 : a + (b - a) = b := by ext <;> simp
  have h1 := len_add_le b (a - b)
  have h2 := len_add_le a (b - a)
  rw [e1] at h1
  rw [e2] at h2
  have e3 : len (b - a) = len (a - b) := by unfold len dot; congr 1; simp; ring
  rw [e3] at h2
  constructor <;> linarith

theorem len_smul (k : ℝ) (a : V3) : len (k * a) = |k| * len a := by
  have h : dot (k * a) (k * a) = k ^ 2 * dot a a := by simp [dot]; ring
  unfold len
  rw [h, Real.sqrt_mul (sq_nonneg k), Real.sqrt_sq_eq_abs]

/-! ## C86: light time -/

theorem lightLoop_bound (pos : ℝ → V3) (obs : V3) (c tol k tau : ℝ) (hc : 0 < c) (hk0 : 0 ≤ k) (hk : k < 1)
    (hf : ∀ s t, |len (obs - pos s) / c - len (obs - pos t) / c| ≤ k * |s - t|) (htau : len (obs - pos tau) / c = tau) :
    ∀ (m : Nat) (last dt E : ℝ), |dt - tau| ≤ E →
      |(lightLoop pos obs c tol (m + 1) last dt).1 - tau| ≤ max (tol / (1 - k)) (k ^ m * E) ∧
      (lightLoop pos obs c tol (m + 1) last dt).2 = len (obs - pos (lightLoop pos obs c tol (m + 1) last dt).1) / c := by
  have h1k : 0 < 1 - k := by linarith
  intro m
  induction m with
  | zero =>
    intro last dt E hE
    simp only [lightLoop]
    split
    · refine ⟨le_max_of_le_right (by simpa using hE), rfl⟩
    · refine ⟨le_max_of_le_right (by simpa using hE), rfl⟩
  | succ m ih =>
    intro last dt E hE
    rw [lightLoop]
    by_cases hb : |len (obs - pos dt) / c - dt| < tol
    · rw [if_pos hb]
      refine ⟨le_max_of_le_left ?_, rfl⟩
      rw [le_div_iff₀ h1k]
      have h2 := hf dt tau
      rw [htau] at h2
      have h3 : |dt - tau| ≤ |len (obs - pos dt) / c - dt| + |len (obs - pos dt) / c - tau| := by
        have := abs_sub_abs_le_abs_sub (dt - tau) (len (obs - pos dt) / c - tau)
        have e : dt - tau - (len (obs - pos dt) / c - tau) = -(len (obs - pos dt) / c - dt) := by ring
        rw [e, abs_neg] at this
        linarith
      nlinarith
    · rw [if_neg hb]
      have h2 := hf dt tau
      rw [htau] at h2
      obtain ⟨i1, i2⟩ := ih dt (len (obs - pos dt) / c) (k * E) (h2.trans (mul_le_mul_of_nonneg_left hE hk0))
      refine ⟨?_, i2⟩
      rw [pow_succ, mul_assoc]
      exact i1

theorem light_time_exists (f : ℝ → ℝ) (k : ℝ) (hk0 : 0 ≤ k) (hk : k < 1) (hf : ∀ s t, |f s - f t| ≤ k * |s - t|) :
    ∃ tau, f tau = tau := by
  have hl : LipschitzWith ⟨k, hk0⟩ f := LipschitzWith.of_dist_le_mul fun s t => by
    rw [Real.dist_eq, Real.dist_eq]; exact hf s t
  have hcw : ContractingWith ⟨k, hk0⟩ f := ⟨by exact_mod_cast hk, hl⟩
  exact ⟨hcw.fixedPoint, hcw.fixedPoint_isFixedPt⟩

/-- **C86.** Let the node move at most at `k` times the speed of light, `k < 1` (`state τ` is its world transform `τ` seconds
before the observation). Then there is exactly one light time `τ` consistent with the node's motion (the light emitted `τ`
seconds ago travels the distance from where the node was then), and the transform returned for GEOMETRIC_STATE is the
node's transform at a light time that misses `τ` by at most the tolerance over `1 - k` or `k ^ 10 * τ`, so its position is
off by at most `k c` times that. For TRUE_STATE it is the transform at the observation time itself. -/
theorem C86_light_time (state : ℝ → Transform) (observer : Transform) (c tol k : ℝ) (hc : 0 < c) (hk0 : 0 ≤ k) (hk : k < 1)
    (hs : ∀ s t, len ((state s).position - (state t).position) ≤ k * c * |s - t|) :
    apparentTransform .trueState c tol state observer = some (state 0) ∧
    ∃ tau, len (observer.position - (state tau).position) = c * tau ∧
      (∀ tau', len (observer.position - (state tau').position) = c * tau' → tau' = tau) ∧
      ∃ l, apparentTransform .geometricState c tol state observer = some (state l) ∧
        |l - tau| ≤ max (tol / (1 - k)) (k ^ 10 * tau) ∧
        len ((state l).position - (state tau).position) ≤ k * c * max (tol / (1 - k)) (k ^ 10 * tau) := by
  refine ⟨rfl, ?_⟩
  have hf : ∀ s t, |len (observer.position - (state s).position) / c - len (observer.position - (state t).position) / c| ≤
      k * |s - t| := by
    intro s t
    rw [← sub_div, abs_div, abs_of_pos hc, div_le_iff₀ hc]
    have h1 := abs_len_sub_le (observer.position - (state s).position) (observer.position - (state t).position)
    have e : len (observer.position - (state s).position - (observer.position - (state t).position)) =
        len ((state s).position - (state t).position) := by
      unfold len dot; congr 1; simp; ring
    rw [e] at h1
    have := hs s t
    nlinarith
  obtain ⟨tau, htau⟩ := light_time_exists _ k hk0 hk hf
  have htau' : len (observer.position - (state tau).position) = c * tau := by
    rw [div_eq_iff hc.ne'] at htau; linarith
  have htau0 : 0 ≤ tau := by
    rw [← htau]; exact div_nonneg (len_nonneg _) hc.le
  refine ⟨tau, htau', ?_, ?_⟩
  · intro t ht
    have h1 := hf t tau
    rw [htau, ht, mul_div_cancel_left₀ _ hc.ne'] at h1
    have h2 := abs_nonneg (t - tau)
    have : |t - tau| = 0 := by nlinarith
    linarith [abs_eq_zero.mp this]
  · have h0 : |len (observer.position - (state 0).position) / c - tau| ≤ k * tau := by
      have := hf 0 tau
      rw [htau] at this
      simpa [abs_of_nonneg htau0] using this
    obtain ⟨b1, _⟩ := lightLoop_bound (fun t => (state t).position) observer.position c tol k tau hc hk0 hk hf htau 9 0 _ _ h0
    have e : k ^ 9 * (k * tau) = k ^ 10 * tau := by ring
    rw [e] at b1
    refine ⟨_, rfl, b1, ?_⟩
    have h2 := hs (geometric (fun t => (state t).position) observer.position c tol).1 tau
    exact h2.trans (mul_le_mul_of_nonneg_left b1 (mul_nonneg hk0 hc.le))

/-- C86: no iteration error for a node at rest, whose light time is found at once. -/
example (p : V3) (observer : Transform) (tol : ℝ) (htol : 0 < tol) :
    apparentTransform .geometricState 299792458 tol (fun _ => { Transform.default with position := p }) observer =
      some { Transform.default with position := p } := rfl

/-- The hypotheses of `C86_light_time` are met by a node receding at 1/10 of the speed of light. -/
example : ∃ l, apparentTransform .geometricState 10 (1e-12) (fun t => { Transform.default with position := ⟨100 - t, 0, 0⟩ })
    Transform.default = some { Transform.default with position := ⟨100 - l, 0, 0⟩ } ∧ |l - 100 / 11| ≤ 2e-9 := by
  obtain ⟨_, tau, h1, h2, l, h3, h4, _⟩ := C86_light_time (fun t => { Transform.default with position := ⟨100 - t, 0, 0⟩ })
    Transform.default 10 (1e-12) (1 / 10) (by norm_num) (by norm_num) (by norm_num) (by
      intro s t
      have : len ((⟨100 - s, 0, 0⟩ : V3) - ⟨100 - t, 0, 0⟩) = |s - t| := by
        unfold len dot
        simp only [sub_x, sub_y, sub_z, sub_self, mul_zero, add_zero]
        rw [Real.sqrt_mul_self_eq_abs, ← abs_neg]; congr 1; ring
      simp only [this]; linarith [abs_nonneg (s - t)])
  have e : tau = 100 / 11 := by
    refine (h2 (100 / 11) ?_).symm
    unfold len dot
    simp only [Transform.default, sub_x, sub_y, sub_z]
    rw [show ((0 : ℝ) - (100 - 100 / 11)) * (0 - (100 - 100 / 11)) + (0 - 0) * (0 - 0) + (0 - 0) * (0 - 0) = (1000 / 11) * (1000 / 11) by norm_num,
      Real.sqrt_mul_self (by norm_num)]
    norm_num
  subst e
  refine ⟨l, h3, h4.trans ?_⟩
  apply max_le <;> norm_num

/-! ## C70: aberration -/

/-- The relativistic Doppler factor of the observer's speed `b` (in units of the speed of light). -/
noncomputable def lorentz (b : V3) : ℝ := 1 / Real.sqrt (1 - dot b b)

/-- Where an observer moving with velocity `b` (in units of the speed of light) sees a source that is in direction `u` for an
observer at rest: the photon arriving along `-u` with unit energy has, after a Lorentz boost with `b`, the momentum
`k' = k + ((γ - 1) (k·b) / b² - γ) b` and the energy `γ (1 - k·b)`, where `k = -u`. -/
noncomputable def seen (b u : V3) : V3 :=
  if dot b b = 0 then u
  else
    let k := -u
    let g := lorentz b
    (-1 / (g * (1 - dot k b))) * (k + ((g - 1) * dot k b / dot b b - g) * b)

/-- **C70 in full**: with stellar aberration, a node is shown in the direction in which a moving observer sees it, at its
distance. -/
def C70_full : Prop :=
  ∀ (c : ℝ) (obs vObs p : V3), 0 < c → 1e-8 < len (p - obs) → dot ((1 / c) * vObs) ((1 / c) * vObs) < 0.999999 →
    apparent c obs vObs p = some (obs + len (p - obs) * seen ((1 / c) * vObs) (normalize (p - obs)))

/-- The amount by which the direction differs from the relativistic one. -/
theorem aberrate_seen (c : ℝ) (u v : V3) (hu : dot u u = 1) (hv : dot ((1 / c) * v) ((1 / c) * v) < 0.999999) :
    aberrate c u v = some (seen ((1 / c) * v) u -
      ((1 - Real.sqrt (1 - dot ((1 / c) * v) ((1 / c) * v))) *
        (1 + dot u ((1 / c) * v) / (1 + Real.sqrt (1 - dot ((1 / c) * v) ((1 / c) * v)))) /
        (1 + dot u ((1 / c) * v))) * ((1 / c) * v)) := by
  unfold aberrate seen lorentz
  simp only []
  rw [if_pos hv]
  generalize hb : (1 / c) * v = b at *
  congr 1
  set g := Real.sqrt (1 - dot b b) with hg
  have hg0 : 0 < g := Real.sqrt_pos.mpr (by norm_num at hv ⊢; linarith)
  have hgg : g * g = 1 - dot b b := Real.mul_self_sqrt (by norm_num at hv ⊢; linarith)
  have ha : 0 < 1 + dot u b := by
    have h1 := cauchy_schwarz u b
    rw [hu, one_mul] at h1
    norm_num at hv
    nlinarith
  have hk : dot (-u) b = -dot u b := by simp [dot]; ring
  by_cases h0 : dot b b = 0
  · have hbz := dot_self_eq_zero.mp h0
    rw [if_pos h0]
    have hg1 : g = 1 := by rw [hg, h0]; simp
    rw [hg1, hbz]
    have : dot u zero = 0 := by simp [dot, zero]
    rw [this]
    ext <;> simp [zero] <;> norm_num
  · rw [if_neg h0, hk]
    have hgp : 0 < 1 + g := by linarith
    have hb2 : dot b b = (1 - g) * (1 + g) := by linarith
    have h1g : 1 - g ≠ 0 := by
      intro e; apply h0; rw [hb2, e, zero_mul]
    rw [hb2]
    have e1 : 1 + 1 / g ≠ 0 := by positivity
    have e2 : 1 + g ≠ 0 := hgp.ne'
    have e3 := ha.ne'
    generalize dot u b = a at *
    have e4 : (1 : ℝ) - -a = 1 + a := by ring
    rw [e4]
    ext
    · simp only [hmul_x, add_x, sub_x, neg_x]
      field_simp
      ring
    · simp only [hmul_y, add_y, sub_y, neg_y]
      field_simp
      ring
    · simp only [hmul_z, add_z, sub_z, neg_z]
      field_simp
      ring

/-- **C70, partial.** `apparent_position` throws exactly if the observer is (within 5e-7) as fast as light; an observer at
rest sees every node where it is; and at up to half the speed of light the direction (as a vector of length about one)
misses the relativistic one by at most three times the cube of the speed (in units of the speed of light). -/
theorem C70_partial (c : ℝ) (hc : 0 < c) (obs vObs p : V3) (hd : 1e-8 < len (p - obs)) :
    (apparent c obs vObs p = none ↔ 0.999999 ≤ dot ((1 / c) * vObs) ((1 / c) * vObs)) ∧
    (vObs = zero → apparent c obs vObs p = some p) ∧
    (len ((1 / c) * vObs) ≤ 1 / 2 → ∃ w, apparent c obs vObs p = some (obs + len (p - obs) * w) ∧
      len (w - seen ((1 / c) * vObs) (normalize (p - obs))) ≤ 3 * len ((1 / c) * vObs) ^ 3) := by
  have hl : 0 < len (p - obs) := by norm_num at hd; linarith
  have hne : p - obs ≠ zero := by
    intro e
    rw [e] at hl
    simp [len, dot, zero] at hl
  have hu : dot ((1 / len (p - obs)) * (p - obs)) ((1 / len (p - obs)) * (p - obs)) = 1 := dot_normalize hne
  have hbind : ∀ o : Option V3, (do let a ← o; return obs + len (p - obs) * a) = o.map (fun a => obs + len (p - obs) * a) := by
    intro o; cases o <;> rfl
  unfold apparent
  simp only []
  rw [if_pos hd]
  refine ⟨?_, ?_, ?_⟩
  · unfold aberrate
    simp only []
    by_cases hv : dot ((1 / c) * vObs) ((1 / c) * vObs) < 0.999999
    · rw [if_pos hv]
      exact ⟨fun h => (by cases h), fun h => absurd hv (not_lt.mpr h)⟩
    · rw [if_neg hv]
      exact ⟨fun _ => not_lt.mp hv, fun _ => rfl⟩
  · intro hv
    have hz : (1 / c) * vObs = zero := by rw [hv]; ext <;> simp [zero]
    rw [aberrate_seen c _ vObs hu (by rw [hz]; simp [dot, zero]; norm_num), hz]
    have : dot zero zero = 0 := by simp [dot, zero]
    unfold seen
    rw [if_pos this]
    simp only [hbind, Option.map_some]
    congr 1
    ext <;> simp [zero] <;> field_simp <;> ring
  · intro hb
    set b := (1 / c) * vObs with hbdef
    have hb0 := len_nonneg b
    have hbb := len_sq b
    have hv : dot b b < 0.999999 := by norm_num; nlinarith
    rw [aberrate_seen c _ vObs hu hv]
    simp only [hbind, Option.map_some]
    refine ⟨_, rfl, ?_⟩
    rw [← hbdef]
    set u := (1 / len (p - obs)) * (p - obs) with hudef
    have hun : normalize (p - obs) = u := rfl
    rw [hun]
    set g := Real.sqrt (1 - dot b b) with hg
    have hgg : g * g = 1 - dot b b := Real.mul_self_sqrt (by norm_num at hv ⊢; linarith)
    have hg0 : 0 < g := Real.sqrt_pos.mpr (by norm_num at hv ⊢; linarith)
    have hg1 : g ≤ 1 := by nlinarith [dot_self_nonneg b]
    have e : ∀ (s : V3) (x : ℝ), len (s - x * b - s) = |x| * len b := by
      intro s x
      rw [← len_smul]; unfold len dot; congr 1; simp
    rw [e]
    have hab := abs_dot_le_len u b
    have hlu : len u = 1 := by unfold len; rw [hu, Real.sqrt_one]
    rw [hlu, one_mul] at hab
    obtain ⟨ha1, ha2⟩ := abs_le.mp hab
    set a := dot u b
    have hden : 0 < 1 + a := by linarith
    have hk : |1 + a / (1 + g)| ≤ 3 / 2 := by
      have : |a / (1 + g)| ≤ 1 / 2 := by
        rw [abs_div, abs_of_pos (by linarith : 0 < 1 + g), div_le_iff₀ (by linarith)]
        nlinarith [abs_le.mpr ⟨ha1, ha2⟩]
      calc |1 + a / (1 + g)| ≤ |1| + |a / (1 + g)| := abs_add_le _ _
        _ ≤ 3 / 2 := by rw [abs_one]; linarith
    rw [abs_div, abs_mul, abs_of_nonneg (by linarith : 0 ≤ 1 - g), abs_of_pos hden]
    have h1g : 1 - g ≤ len b ^ 2 := by nlinarith
    have key : (1 - g) * |1 + a / (1 + g)| / (1 + a) ≤ 3 * len b ^ 2 := by
      rw [div_le_iff₀ hden]
      have : (1 - g) * |1 + a / (1 + g)| ≤ len b ^ 2 * (3 / 2) :=
        mul_le_mul h1g hk (abs_nonneg _) (by positivity)
      nlinarith [sq_nonneg (len b)]
    calc _ ≤ 3 * len b ^ 2 * len b := mul_le_mul_of_nonneg_right key hb0
      _ = 3 * len b ^ 3 := by ring

/-- **C70, violated**: for an observer moving at 3/5 of the speed of light at right angles to the line of sight, the node is
shown 7 % too close (the direction returned is not a unit vector). -/
theorem C70_violated : ¬ C70_full := by
  intro h
  have hl : len ((⟨1, 0, 0⟩ : V3) - zero) = 1 := by simp [len, dot, zero]
  have hs : Real.sqrt (1 - (9 / 25)) = 4 / 5 := by
    rw [show (1 : ℝ) - 9 / 25 = (4 / 5) ^ 2 by norm_num, Real.sqrt_sq (by norm_num)]
  have hb : (1 / (1 : ℝ)) * (⟨0, 3 / 5, 0⟩ : V3) = ⟨0, 3 / 5, 0⟩ := by ext <;> simp
  have hbb : dot (⟨0, 3 / 5, 0⟩ : V3) ⟨0, 3 / 5, 0⟩ = 9 / 25 := by simp [dot]; norm_num
  have hdot : dot (⟨1, 0, 0⟩ : V3) ⟨0, 3 / 5, 0⟩ = 0 := by simp [dot]
  have hn : normalize ((⟨1, 0, 0⟩ : V3) - zero) = ⟨1, 0, 0⟩ := by
    rw [normalize_eq, hl]
    ext <;> simp [zero]
  have := h 1 zero ⟨0, 3 / 5, 0⟩ ⟨1, 0, 0⟩ one_pos (by rw [hl]; norm_num) (by rw [hb, hbb]; norm_num)
  unfold apparent at this
  simp only [hl, hn] at this
  rw [if_pos (by norm_num)] at this
  have hu : (1 / (1 : ℝ)) * ((⟨1, 0, 0⟩ : V3) - zero) = ⟨1, 0, 0⟩ := by ext <;> simp [zero]
  rw [hu, aberrate_seen 1 _ _ (by simp [dot]) (by rw [hb, hbb]; norm_num), hb, hbb, hs, hdot] at this
  have hy := congrArg V3.y (Option.some.inj this)
  norm_num [zero] at hy

/-- The hypotheses of `C70_partial` hold for the Earth's orbital motion; the direction is good to 3e-12. -/
example : ∃ w, apparent 299792458 zero ⟨0, 29979, 0⟩ ⟨1, 0, 0⟩ = some (zero + len ((⟨1, 0, 0⟩ : V3) - zero) * w) ∧
    len (w - seen ((1 / 299792458 : ℝ) * (⟨0, 29979, 0⟩ : V3)) (normalize ((⟨1, 0, 0⟩ : V3) - zero))) ≤ 3e-12 := by
  have hl : len ((⟨1, 0, 0⟩ : V3) - zero) = 1 := by simp [len, dot, zero]
  have hb : len ((1 / 299792458 : ℝ) * (⟨0, 29979, 0⟩ : V3)) = 29979 / 299792458 := by
    rw [len_smul]
    have : len (⟨0, 29979, 0⟩ : V3) = 29979 := by
      simp [len, dot, Real.sqrt_mul_self]
    rw [this, abs_of_pos (by norm_num)]; norm_num
  obtain ⟨w, h1, h2⟩ := (C70_partial 299792458 (by norm_num) zero ⟨0, 29979, 0⟩ ⟨1, 0, 0⟩ (by rw [hl]; norm_num)).2.2
    (by rw [hb]; norm_num)
  refine ⟨w, h1, h2.trans ?_⟩
  rw [hb]; norm_num

/-- C70: `seen` is a unit vector, at the angle given by the textbook formula `cos θ' = (cos θ + β) / (1 + β cos θ)`. -/
theorem C70_spec (b u : V3) (hu : dot u u = 1) (hb : dot b b < 1) :
    dot (seen b u) (seen b u) = 1 ∧ (1 + dot u b) * dot (seen b u) b = dot u b + dot b b := by
  unfold seen lorentz
  simp only []
  by_cases h0 : dot b b = 0
  · have hbz := dot_self_eq_zero.mp h0
    rw [if_pos h0, hu, hbz]
    simp [dot, zero]
  · rw [if_neg h0]
    set g := Real.sqrt (1 - dot b b) with hg
    have hgg : g * g = 1 - dot b b := Real.mul_self_sqrt (by linarith)
    have hg0 : 0 < g := Real.sqrt_pos.mpr (by linarith)
    have hk : dot (-u) b = -dot u b := by simp [dot]; ring
    have ha : 0 < 1 + dot u b := by
      have h1 := cauchy_schwarz u b
      rw [hu, one_mul] at h1
      nlinarith
    rw [hk]
    set a := dot u b with hadef
    set q := dot b b with hq
    -- write the momentum as -u + m b
    have hm : ∀ m k : ℝ, dot (k * (-u + m * b)) (k * (-u + m * b)) = k ^ 2 * (1 - 2 * m * a + m ^ 2 * q) := by
      intro m k
      have : dot (k * (-u + m * b)) (k * (-u + m * b)) = k ^ 2 * (dot u u - 2 * m * dot u b + m ^ 2 * dot b b) := by
        simp [dot]; ring
      rw [this, hu]
    have hm2 : ∀ m k : ℝ, dot (k * (-u + m * b)) b = k * (-a + m * q) := by
      intro m k
      have : dot (k * (-u + m * b)) b = k * (-dot u b + m * dot b b) := by simp [dot]; ring
      rw [this]
    rw [hm, hm2]
    have hq2 : q = 1 - g * g := by linarith
    have h1 : (1 - g) * (1 + g) ≠ 0 := by
      intro e; apply h0; rw [hq2]; linarith
    have h1g : 1 - g ≠ 0 := left_ne_zero_of_mul h1
    have h2g : 1 + g ≠ 0 := right_ne_zero_of_mul h1
    have hq3 : q = (1 - g) * (1 + g) := by rw [hq2]; ring
    rw [hq3]
    have e4 : (1 : ℝ) - -a = 1 + a := by ring
    have e5 := ha.ne'
    rw [e4]
    clear_value a g
    constructor
    · field_simp
      ring
    · field_simp
      ring

/-! ## C87: nadir pointing -/

/-- **C87.** The nadir-pointing callbacks give, for a position and velocity that are not parallel, the orientation whose z
axis points away from (`up`) or towards the parent's origin, whose x axis is perpendicular to position and velocity, and
whose y axis lies in the orbital plane on the side of the velocity; no orientation otherwise. -/
theorem C87_nadir (up : Bool) (p v : V3) :
    (nadir up p v = none ↔ cross v p = zero) ∧
    ∀ r w, nadir up p v = some (r, w) →
      IsRotation r ∧ r.mulVec ⟨0, 0, 1⟩ = (if up then 1 / len p else -1 / len p) * p ∧
      dot (r.mulVec ⟨1, 0, 0⟩) p = 0 ∧ dot (r.mulVec ⟨1, 0, 0⟩) v = 0 ∧ 0 < dot (r.mulVec ⟨0, 1, 0⟩) v := by
  have hz0 : (zero : V3) = ⟨0, 0, 0⟩ := rfl
  have hnz : ∀ a : V3, dot a a = 0 → normalize? a = none := fun a h => by unfold normalize?; rw [if_pos h]
  have hns : ∀ a : V3, a ≠ zero → normalize? a = some (normalize a) := fun a h => by
    unfold normalize?; rw [if_neg (fun e => h (dot_self_eq_zero.mp e))]
  by_cases hp : p = zero
  · have h1 : nadir up p v = none := by
      unfold nadir; rw [hnz p (by rw [hp]; simp [dot, zero])]; rfl
    have h2 : cross v p = zero := by rw [hp]; ext <;> simp [cross, zero]
    exact ⟨⟨fun _ => h2, fun _ => h1⟩, fun r w h => by rw [h1] at h; cases h⟩
  by_cases hv : v = zero
  · have h1 : nadir up p v = none := by
      unfold nadir; rw [hns p hp, hnz v (by rw [hv]; simp [dot, zero])]; rfl
    have h2 : cross v p = zero := by rw [hv]; ext <;> simp [cross, zero]
    exact ⟨⟨fun _ => h2, fun _ => h1⟩, fun r w h => by rw [h1] at h; cases h⟩
  have hlp := len_pos hp
  have hlv := len_pos hv
  -- the axis z is `s p`
  obtain ⟨s, hs, hs0, hzz⟩ : ∃ s : ℝ, s = (if up then 1 / len p else -1 / len p) ∧ s ≠ 0 ∧
      (if up then normalize p else -normalize p) = s * p := by
    refine ⟨_, rfl, ?_, ?_⟩
    · cases up
      · simp [hlp.ne']
      · simp [hlp.ne']
    · cases up
      · rw [if_neg (by simp), if_neg (by simp), normalize_eq]; ext <;> simp <;> ring
      · rw [if_pos rfl, if_pos rfl, normalize_eq]
  have hz1 : dot (s * p) (s * p) = 1 := by
    rw [← hzz]
    cases up
    · have e : dot (-normalize p) (-normalize p) = dot (normalize p) (normalize p) := by simp [dot]
      rw [if_neg (by simp), e, dot_normalize hp]
    · rw [if_pos rfl, dot_normalize hp]
  have hcr : cross (normalize v) (s * p) = (s / len v) * cross v p := by
    rw [normalize_eq]; ext <;> simp [cross] <;> ring
  have hunf : nadir up p v = (do
      let x ← normalize? ((s / len v) * cross v p)
      let y ← normalize? (cross (s * p) x)
      let r ← fromBasis x y (s * p)
      return (r, ⟨0, 0, 0⟩)) := by
    unfold nadir
    rw [hns p hp, hns v hv]
    simp only [Option.bind_eq_bind, Option.bind_some, hzz, hcr]
  by_cases hc : cross v p = zero
  · have h1 : nadir up p v = none := by
      rw [hunf, hnz _ (by rw [hc]; simp [dot, zero])]; rfl
    exact ⟨⟨fun _ => hc, fun _ => h1⟩, fun r w h => by rw [h1] at h; cases h⟩
  · have hk : s / len v ≠ 0 := div_ne_zero hs0 hlv.ne'
    have hc' : (s / len v) * cross v p ≠ zero := by
      intro e
      apply hc
      rw [V3.ext_iff] at e ⊢
      simp only [hmul_x, hmul_y, hmul_z, zero, mul_eq_zero, hk, false_or] at e ⊢
      exact e
    set x := normalize ((s / len v) * cross v p) with hx
    have hxx : dot x x = 1 := dot_normalize hc'
    obtain ⟨k, hk0, hxk⟩ : ∃ k : ℝ, 0 < k ∧ x = k * ((s / len v) * cross v p) := ⟨_, one_div_pos.mpr (len_pos hc'), rfl⟩
    have hxp : dot x p = 0 := by rw [hxk]; simp [dot, cross]; ring
    have hxv : dot x v = 0 := by rw [hxk]; simp [dot, cross]; ring
    have hzx : dot (s * p) x = 0 := by rw [dot_smul_left, dot_comm, hxp, mul_zero]
    have hyy : dot (cross (s * p) x) (cross (s * p) x) = 1 := by
      have : dot (cross (s * p) x) (cross (s * p) x) = dot (s * p) (s * p) * dot x x - dot (s * p) x * dot (s * p) x := by
        simp [dot, cross]; ring
      rw [this, hz1, hxx, hzx]; norm_num
    have hyne : cross (s * p) x ≠ zero := by
      intro e; rw [e] at hyy; simp [dot, zero] at hyy
    have hort : Ortho ⟨x, cross (s * p) x, s * p⟩ := by
      refine ⟨hxx, hyy, dot_cross_right _ _, ?_⟩
      show s * p = cross x (cross (s * p) x)
      have : cross x (cross (s * p) x) = dot x x * (s * p) - dot (s * p) x * x := by
        ext <;> simp [dot, cross] <;> ring
      rw [this, hxx, hzx]
      ext <;> simp
    have hres : nadir up p v = some (⟨x, cross (s * p) x, s * p⟩, ⟨0, 0, 0⟩) := by
      rw [hunf, hns _ hc', ← hx]
      simp only [Option.bind_eq_bind, Option.bind_some]
      rw [hns _ hyne, normalize_unit hyy]
      simp only [Option.bind_eq_bind, Option.bind_some, fromBasis]
      rw [setMatrix_ortho hort]
      rfl
    refine ⟨⟨fun h => (by rw [hres] at h; cases h), fun h => absurd h hc⟩, ?_⟩
    intro r w h
    rw [hres] at h
    obtain ⟨rfl, rfl⟩ := Prod.mk.inj (Option.some.inj h)
    have e0 : (⟨x, cross (s * p) x, s * p⟩ : M3).mulVec ⟨1, 0, 0⟩ = x := by ext <;> simp
    have e1 : (⟨x, cross (s * p) x, s * p⟩ : M3).mulVec ⟨0, 1, 0⟩ = cross (s * p) x := by ext <;> simp
    have e2 : (⟨x, cross (s * p) x, s * p⟩ : M3).mulVec ⟨0, 0, 1⟩ = s * p := by ext <;> simp
    rw [e0, e1, e2]
    refine ⟨hort.isRotation, by rw [hs], hxp, hxv, ?_⟩
    have : dot (cross (s * p) x) v = (k * s ^ 2 / len v) * dot (cross v p) (cross v p) := by
      rw [hxk]; simp [dot, cross]; field_simp; ring
    rw [this]
    have := dot_self_pos hc
    positivity

/-- C87: a satellite above the x axis moving along y. -/
example : nadir false ⟨7, 0, 0⟩ ⟨0, 1, 0⟩ ≠ none := by
  intro h
  have := (C87_nadir false ⟨7, 0, 0⟩ ⟨0, 1, 0⟩).1.mp h
  simp [cross, zero] at this

/-- The aberrated state is the geometric (light-time corrected) state with only its position displaced; it is refused
exactly when the displacement is. -/
theorem C86_aberrated_state (c tol : ℝ) (state : ℝ → Transform) (observer g : Transform)
    (hg : apparentTransform .geometricState c tol state observer = some g) :
    apparentTransform .aberratedState c tol state observer =
      (apparent c observer.position observer.velocity g.position).map (fun p => { g with position := p }) := by
  simp only [apparentTransform, Option.some.injEq] at hg
  simp only [apparentTransform, hg]
  cases apparent c observer.position observer.velocity g.position <;> rfl

end Huira.World
