import Verif.View.Observer
set_option linter.unusedSimpArgs false
/-!
# Objects in the camera's frame: distances (C144), objects and stars (C145)
-/
namespace Huira.Observer
noncomputable section
open V3 Rot Xform World Transform

/-! ### Specification of C144 -/

/-- Where the point `q` of an object is in the world, as the observation mode defines it for the camera's instance. -/
def worldPoint (mode : ObsMode) (light tol : ℝ) (node : Transform) (o : Object) (q : V3) : Option V3 := do
  let app ← apparentTransform mode light tol o.state node
  let t ← o.path.foldlM Transform.compose app
  return t.applyPoint q

/-- **C144 in full**: whatever the pose of the camera's instance (rotation, and a scale without zeros), a point of an object is as far
from the camera in the view as in the world. -/
def C144_full : Prop := ∀ (mode : ObsMode) (light tol : ℝ) (node : Transform) (c : Cam) (o : Object) (q p w : V3),
  Valid node → o.Ok → pointInView mode light tol node c o q = some p → worldPoint mode light tol node o q = some w →
  len p = len (w - node.position)

/-! ### Lemmas -/

theorem ortho_dot {m : M3} (h : Ortho m) (u v : V3) : dot (m.mulVec u) (m.mulVec v) = dot u v := by
  have h1 := h.xx
  have h2 := h.yy
  have h3 := h.xy
  have h4 := h.zz
  have h5 : dot m.c0 m.c2 = 0 := by rw [h.z, dot_cross_left]
  have h6 : dot m.c1 m.c2 = 0 := by rw [h.z, dot_cross_right]
  simp only [dot, mulVec_x, mulVec_y, mulVec_z] at *
  linear_combination u.x * v.x * h1 + u.y * v.y * h2 + u.z * v.z * h4 + (u.x * v.y + u.y * v.x) * h3 + (u.x * v.z + u.z * v.x) * h5 +
    (u.y * v.z + u.z * v.y) * h6

theorem ortho_len {m : M3} (h : Ortho m) (v : V3) : len (m.mulVec v) = len v := by simp [len, ortho_dot h]

/-- A camera whose instance is scaled by the same factor in all directions has every point of every object where it is, seen from the
camera's place with the camera's axes, divided by the factor. -/
theorem view_uniform (mode : ObsMode) (light tol : ℝ) (node : Transform) (c : Cam) (o : Object) (q : V3) (k : ℝ) (_hk : k ≠ 0)
    (hs : node.scale = ⟨k, k, k⟩) (hn : IsRotation node.rotation) (ho : o.Ok) :
    pointInView mode light tol node c o q = (worldPoint mode light tol node o q).map fun w =>
      (1 / k) * (node.rotation.mul (rotZ c.rotation)).transpose.mulVec (w - node.position) := by
  have hra := mul_rot hn (rotZ_ortho c.rotation).isRotation
  simp only [pointInView, worldPoint, pose_eq node _ hn, Option.bind_eq_bind, Option.bind_some, place]
  rw [apparent_indep mode light tol o.state { node with rotation := node.rotation.mul (rotZ c.rotation) } node rfl rfl]
  obtain ⟨i, e1, r1, s1, p1, -, -⟩ := inverse_some (a := { node with rotation := node.rotation.mul (rotZ c.rotation) }) hra
  simp only [e1, Option.bind_some]
  cases hg : apparentTransform mode light tol o.state node with
  | none => rfl
  | some g =>
    have hgr := apparent_rot _ _ _ _ _ _ ho.state hg
    have h1 : IsRotation i.rotation := by rw [r1]; exact transpose_ortho hra
    obtain ⟨t, f1, tr, tp, ts, -, -⟩ := compose_some h1 hgr
    have hsc : ∀ v, had i.scale v = (1 / k) * v := by
      intro v
      rw [s1, hs]
      ext <;> simp
    obtain ⟨t', u', k1, k2, k3⟩ := path_affine (fun v => (1 / k) * (node.rotation.mul (rotZ c.rotation)).transpose.mulVec v)
      ((1 / k) * (node.rotation.mul (rotZ c.rotation)).transpose.mulVec (-node.position))
      (by intro x y; rw [mulVec_add]; ext <;> simp <;> ring) o.path t g ho.path (by rw [tr]; exact mul_rot h1 hgr) hgr
      (by
        rw [tp, hsc, p1, r1, hs, mulVec_smul]
        have : had (-node.position) ⟨1 / k, 1 / k, 1 / k⟩ = (1 / k) * (-node.position) := by ext <;> simp <;> ring
        rw [this, mulVec_smul]
        ext <;> simp <;> ring)
      (by
        intro w v
        rw [tr, ts, mul_mulVec, had_assoc, hsc, mulVec_smul, mulVec_smul, mulVec_smul, r1])
    simp only [Option.bind_some, f1, k1, k2, Option.map_some, k3]
    simp only [Option.pure_def, Option.map_some, Option.some.injEq, ← mulVec_neg]
    rw [show ∀ a b : V3, a - b = a + -b from fun a b => by ext <;> simp <;> ring, mulVec_add]
    ext <;> simp <;> ring

/-! ### C144 -/

/-- **C144 (partial).**  A camera whose instance is not scaled has every point of every object in the direction and at the distance it
has in the world: the offset from the camera expressed in the camera's axes. -/
theorem C144_partial (mode : ObsMode) (light tol : ℝ) (node : Transform) (c : Cam) (o : Object) (q : V3)
    (hs : node.scale = ⟨1, 1, 1⟩) (hn : IsRotation node.rotation) (ho : o.Ok) :
    ∃ m, Ortho m ∧ (∀ v, m.mulVec v = node.rotation.mulVec (turnZ c.rotation v)) ∧
      pointInView mode light tol node c o q = (worldPoint mode light tol node o q).map (fun w => m.transpose.mulVec (w - node.position)) ∧
      ∀ p w, pointInView mode light tol node c o q = some p → worldPoint mode light tol node o q = some w →
        len p = len (w - node.position) ∧ w = node.position + m.mulVec p := by
  have hra := mul_rot hn (rotZ_ortho c.rotation).isRotation
  have key : pointInView mode light tol node c o q = (worldPoint mode light tol node o q).map
      (fun w => (node.rotation.mul (rotZ c.rotation)).transpose.mulVec (w - node.position)) := by
    rw [view_uniform mode light tol node c o q 1 one_ne_zero hs hn ho]
    congr 1
    funext w
    ext <;> simp
  refine ⟨node.rotation.mul (rotZ c.rotation), hra.ortho, fun v => by rw [mul_mulVec, rotZ_mulVec], key, ?_⟩
  intro p w h1 h2
  rw [key, h2] at h1
  simp only [Option.map_some, Option.some.injEq] at h1
  rw [← h1]
  refine ⟨ortho_len hra.ortho.transpose _, ?_⟩
  rw [hra.ortho.expand]
  ext <;> simp

/-- **C144 (partial).**  A camera under a uniform scale sees things in their directions (exactly opposite ones for a negative factor), at
their distances divided by the factor: the distances are right exactly for the factors one and minus one. -/
theorem C144_scaled_partial (mode : ObsMode) (light tol : ℝ) (node : Transform) (c : Cam) (o : Object) (q p w : V3) (k : ℝ) (hk : k ≠ 0)
    (hs : node.scale = ⟨k, k, k⟩) (hn : IsRotation node.rotation) (ho : o.Ok)
    (hp : pointInView mode light tol node c o q = some p) (hw : worldPoint mode light tol node o q = some w) :
    w - node.position = k * node.rotation.mulVec (turnZ c.rotation p) ∧ len p = len (w - node.position) / |k| ∧
    (w ≠ node.position → (len p = len (w - node.position) ↔ |k| = 1)) := by
  have hra := mul_rot hn (rotZ_ortho c.rotation).isRotation
  rw [view_uniform mode light tol node c o q k hk hs hn ho, hw] at hp
  simp only [Option.map_some, Option.some.injEq] at hp
  have hl : len p = len (w - node.position) / |k| := by
    rw [← hp, len_smul, ortho_len hra.ortho.transpose, abs_div, abs_one]
    ring
  refine ⟨?_, hl, ?_⟩
  · rw [← rotZ_mulVec, ← mul_mulVec, ← hp, mulVec_smul, hra.ortho.expand]
    ext <;> simp <;> field_simp
  · intro hne
    have hpos : 0 < len (w - node.position) := by
      rcases lt_or_eq_of_le (len_nonneg (w - node.position)) with h | h
      · exact h
      · exfalso
        have : dot (w - node.position) (w - node.position) = 0 := by
          have := h.symm
          rw [len, Real.sqrt_eq_zero (dot_self_nonneg _)] at this
          exact this
        rw [dot_self_eq_zero] at this
        apply hne
        rw [V3.ext_iff] at this ⊢
        simp [V3.zero, sub_eq_zero] at this
        exact this
    have hk' : 0 < |k| := abs_pos.mpr hk
    rw [hl, div_eq_iff hk'.ne']
    constructor
    · intro h
      have : len (w - node.position) * (|k| - 1) = 0 := by linarith
      rcases mul_eq_zero.mp this with h | h
      · exact absurd h hpos.ne'
      · linarith
    · intro h; rw [h, mul_one]

theorem exObject_world (node : Transform) : worldPoint .trueState 299792458 1e-6 node exObject ⟨0, 0, 0⟩ = some ⟨1, 0, 10⟩ := by
  have ho := ortho_one.isRotation
  have hm : M3.one.mul M3.one = M3.one := by apply ext_mulVec; intro v; rw [mul_mulVec, one_mulVec]
  have hc : Rot.compose M3.one M3.one = some M3.one := by rw [compose_eq ho.ortho ho.ortho, hm]
  simp only [worldPoint, exObject, apparentTransform, Transform.default, Option.bind_eq_bind, Option.bind_some,
    Transform.compose, hc, List.foldlM_cons, List.foldlM_nil, Transform.applyPoint, one_mulVec, Option.pure_def]
  congr 1
  ext <;> simp

/-- The hypotheses of `C144_partial` are met by the object of the example, seen at its distance. -/
example : ∃ p, pointInView .trueState 299792458 1e-6 Transform.default (exCam.setRotation 0) exObject ⟨0, 0, 0⟩ = some p ∧ len p = Real.sqrt 101 := by
  refine ⟨_, exObject_view, ?_⟩
  simp [len, dot]
  norm_num

/-- C144 does not hold: a camera attached to a node of scale two sees everything at half its distance. -/
theorem C144_violated : ¬ C144_full := by
  intro H
  obtain ⟨node, hnode⟩ : ∃ n : Transform, n = { Transform.default with scale := ⟨2, 2, 2⟩ } := ⟨_, rfl⟩
  have hs : node.scale = ⟨2, 2, 2⟩ := by rw [hnode]
  have hr : IsRotation node.rotation := by rw [hnode]; exact ortho_one.isRotation
  have hx : node.position.x = 0 := by rw [hnode]; rfl
  have hv : Valid node := ⟨hr, by rw [hs]; norm_num, by rw [hs]; norm_num, by rw [hs]; norm_num⟩
  have hw := exObject_world node
  have hp := view_uniform .trueState 299792458 1e-6 node exCam exObject ⟨0, 0, 0⟩ 2 (by norm_num) hs hr exObject_ok
  rw [hw, Option.map_some] at hp
  have h1 := H _ _ _ _ _ _ _ _ _ hv exObject_ok hp hw
  have h2 := (C144_scaled_partial _ _ _ _ _ _ _ _ _ 2 (by norm_num) hs hr exObject_ok hp hw).2.2 (by
    intro h
    have := congrArg V3.x h
    rw [hx] at this
    simp at this)
  have := h2.mp h1
  norm_num at this

/-- **C144, directions, violated.**  A camera under a scale that is not the same in all directions does not even see things in their
directions: unturned, at the origin and stretched by two along `x`, it has what is at `(1, 0, 10)` at `(1/2, 0, 10)`. -/
theorem C144_violated_direction : pointInView .trueState 299792458 1e-6 { Transform.default with scale := ⟨2, 1, 1⟩ }
    (exCam.setRotation 0) ⟨fun _ => { Transform.default with position := ⟨1, 0, 10⟩ }, []⟩ ⟨0, 0, 0⟩ = some ⟨1 / 2, 0, 10⟩ := by
  have hz : M3.one.mul (rotZ 0) = M3.one := by
    apply ext_mulVec; intro v; rw [mul_mulVec, rotZ_mulVec, turnZ_zero]
  have ho := ortho_one.isRotation
  have ht : M3.one.transpose = M3.one := by ext <;> simp [M3.transpose, M3.one]
  have hm : M3.one.mul M3.one = M3.one := by apply ext_mulVec; intro v; rw [mul_mulVec, one_mulVec]
  have hi : Rot.inverse M3.one = some M3.one := by rw [inverse_eq ho.ortho, ht]
  have hc : Rot.compose M3.one M3.one = some M3.one := by rw [compose_eq ho.ortho ho.ortho, hm]
  have hpose : pose { Transform.default with scale := ⟨2, 1, 1⟩ } (exCam.setRotation 0) =
      some { Transform.default with scale := ⟨2, 1, 1⟩ } := by
    rw [pose_eq _ _ (by exact ho)]
    simp [Cam.setRotation, Transform.default, hz]
  simp only [pointInView, hpose, Option.bind_eq_bind, Option.bind_some, place]
  simp only [apparentTransform, Transform.default, Transform.inverse, hi, Option.bind_eq_bind, Option.bind_some,
    Transform.compose, hc, List.foldlM_nil, Transform.applyPoint, one_mulVec, Option.pure_def]
  congr 1
  ext <;> simp

/-! ### Specification of C145 -/

/-- Where the observation mode takes a node to be, before aberration: now, or when the light left it. -/
def taken (mode : ObsMode) (light tol : ℝ) (state : ℝ → Transform) (observer : V3) : V3 :=
  match mode with
  | .trueState => (state 0).position
  | _ => (state (geometric (fun t => (state t).position) observer light tol).1).position

/-- Two directions are the same up to their lengths. -/
def SameWay (x y : V3) : Prop := ∃ k : ℝ, 0 < k ∧ x = k * y

/-- A node in front of a star is shown in front of the star. -/
def Together (mode : ObsMode) (light tol : ℝ) (node : Transform) (c : Cam) (state : ℝ → Transform) (d : V3) : Prop :=
  ∀ x y, pointInView mode light tol node c ⟨state, []⟩ ⟨0, 0, 0⟩ = some x → starInView light node c d = some y → SameWay x y

/-- **C145 in full**: in every observation mode, for every motion of the camera slower than light, a node that is in the direction of a
star is shown in the direction in which the star is shown. -/
def C145_full : Prop := ∀ (mode : ObsMode) (light tol dist : ℝ) (node : Transform) (c : Cam) (state : ℝ → Transform) (d : V3),
  0 < light → IsRotation node.rotation → node.scale = ⟨1, 1, 1⟩ → (∀ t, IsRotation (state t).rotation) → dot d d = 1 → 1e-8 < dist →
  dot ((1 / light) * node.velocity) ((1 / light) * node.velocity) < 0.999999 →
  taken mode light tol state node.position = node.position + dist * d → Together mode light tol node c state d

/-! ### C145 -/

theorem star_eq (light : ℝ) (node : Transform) (c : Cam) (d : V3) (hn : IsRotation node.rotation) :
    starInView light node c d =
      (aberrate light d node.velocity).map fun a => (node.rotation.mul (rotZ c.rotation)).transpose.mulVec a := by
  have hra := mul_rot hn (rotZ_ortho c.rotation).isRotation
  simp only [starInView, pose_eq node _ hn, Option.bind_eq_bind, Option.bind_some, inverse_eq hra.ortho]
  cases aberrate light d node.velocity <;> rfl

theorem origin_eq (mode : ObsMode) (light tol : ℝ) (node : Transform) (c : Cam) (state : ℝ → Transform)
    (hn : IsRotation node.rotation) (hs : node.scale = ⟨1, 1, 1⟩) (ho : ∀ t, IsRotation (state t).rotation) :
    pointInView mode light tol node c ⟨state, []⟩ ⟨0, 0, 0⟩ = (apparentTransform mode light tol state node).map fun g =>
      (node.rotation.mul (rotZ c.rotation)).transpose.mulVec (g.position - node.position) := by
  rw [view_uniform mode light tol node c ⟨state, []⟩ ⟨0, 0, 0⟩ 1 one_ne_zero hs hn ⟨ho, by simp⟩]
  simp only [worldPoint, Option.bind_eq_bind]
  cases apparentTransform mode light tol state node with
  | none => rfl
  | some g =>
    simp only [Option.bind_some, List.foldlM_nil, Option.pure_def, Option.map_some, Transform.applyPoint, Option.some.injEq]
    ext <;> simp

/-- **C145 (partial).**  With aberration, nodes and stars move together. -/
theorem C145_aberrated_partial (light tol dist : ℝ) (node : Transform) (c : Cam) (state : ℝ → Transform) (d : V3)
    (hn : IsRotation node.rotation) (hs : node.scale = ⟨1, 1, 1⟩)
    (ho : ∀ t, IsRotation (state t).rotation) (hd : dot d d = 1) (hdist : 1e-8 < dist)
    (ht : taken .aberratedState light tol state node.position = node.position + dist * d) :
    Together .aberratedState light tol node c state d := by
  have h0 : 0 < dist := lt_trans (by norm_num) hdist
  intro x y hx hy
  rw [origin_eq _ _ _ _ _ _ hn hs ho] at hx
  rw [star_eq _ _ _ _ hn] at hy
  simp only [taken] at ht
  simp only [apparentTransform, ht] at hx
  have hrel : node.position + dist * d - node.position = dist * d := by ext <;> simp
  have hlen : len (dist * d) = dist := by
    rw [len_smul, len, hd, Real.sqrt_one, mul_one, abs_of_pos h0]
  have hu : (1 / dist) * (dist * d) = d := by ext <;> simp <;> field_simp
  simp only [apparent, hrel, hlen, if_pos hdist, hu] at hx
  cases ha : aberrate light d node.velocity with
  | none => simp [ha] at hy
  | some a =>
    simp [ha] at hx hy
    refine ⟨dist, h0, ?_⟩
    rw [← hx, ← hy, ← mulVec_smul]
    congr 1
    ext <;> simp

theorem smul_cancel (m : M3) (h : Ortho m) (x y : V3) : SameWay (m.transpose.mulVec x) (m.transpose.mulVec y) ↔ SameWay x y := by
  constructor
  · rintro ⟨k, hk, e⟩
    refine ⟨k, hk, ?_⟩
    rw [← mulVec_smul] at e
    have := congrArg m.mulVec e
    rwa [h.expand, h.expand] at this
  · rintro ⟨k, hk, rfl⟩
    exact ⟨k, hk, mulVec_smul _ _ _⟩

/-- Aberration keeps a direction exactly if the observer moves along it or not at all. -/
theorem aberrate_same (light : ℝ) (hl : 0 < light) (u v a : V3) (hu : dot u u = 1) (h : aberrate light u v = some a) :
    SameWay u a ↔ cross u v = V3.zero := by
  unfold aberrate at h
  simp only at h
  set beta := (1 / light) * v with hb
  split at h
  · rename_i hlt
    have hg0 : 0 < 1 - dot beta beta := by linarith
    set gamma := 1 / Real.sqrt (1 - dot beta beta) with hgam
    have hgpos : 0 < gamma := by rw [hgam]; positivity
    set g := gamma / (1 + gamma) with hgdef
    have hg1 : 0 < g := by positivity
    have hg2 : g < 1 := by rw [hgdef, div_lt_one (by positivity)]; linarith
    have hub : |dot u beta| < 1 := by
      refine lt_of_le_of_lt (abs_dot_le_len u beta) ?_
      rw [len, hu, Real.sqrt_one, one_mul, len]
      rw [Real.sqrt_lt' one_pos]
      linarith
    obtain ⟨hu1, hu2⟩ := abs_lt.mp hub
    set ub := dot u beta with hubdef
    have hden : 0 < gamma * (1 + ub) := mul_pos hgpos (by linarith)
    have hkap : 0 < 1 + g * ub := by nlinarith
    have ha : a = (1 / (gamma * (1 + ub))) * (u + (1 + g * ub) * beta) := by
      simp only [Option.some.injEq] at h
      rw [← h]
      congr 1
      ext <;> simp <;> ring
    have hbv : beta.x = v.x / light ∧ beta.y = v.y / light ∧ beta.z = v.z / light := by
      rw [hb]; simp; refine ⟨by ring, by ring, by ring⟩
    have hcross : cross u v = V3.zero ↔ cross u beta = V3.zero := by
      have e : cross u beta = (1 / light) * cross u v := by
        rw [hb]; ext <;> simp [cross] <;> ring
      rw [e]
      constructor
      · intro h; rw [h]; ext <;> simp [V3.zero]
      · intro h
        have h' := fun (f : V3 → ℝ) => congrArg f h
        ext
        · have := h' V3.x; simp [V3.zero] at this ⊢; rcases this with h | h
          · exact absurd h hl.ne'
          · exact h
        · have := h' V3.y; simp [V3.zero] at this ⊢; rcases this with h | h
          · exact absurd h hl.ne'
          · exact h
        · have := h' V3.z; simp [V3.zero] at this ⊢; rcases this with h | h
          · exact absurd h hl.ne'
          · exact h
    rw [hcross]
    constructor
    · rintro ⟨k, hk, e⟩
      rw [ha] at e
      set D := 1 / (gamma * (1 + ub)) with hD
      have hDp : 0 < D := by rw [hD]; positivity
      have ex := congrArg V3.x e
      have ey := congrArg V3.y e
      have ez := congrArg V3.z e
      simp at ex ey ez
      have hm : k * D * (1 + g * ub) ≠ 0 := by positivity
      have hc : ∀ (p q bp bq : ℝ), p = k * (D * (p + (1 + g * ub) * bp)) → q = k * (D * (q + (1 + g * ub) * bq)) →
          p * bq - q * bp = 0 := by
        intro p q bp bq e1 e2
        have : (k * D * (1 + g * ub)) * (p * bq - q * bp) = 0 := by linear_combination q * e1 - p * e2
        rcases mul_eq_zero.mp this with h | h
        · exact absurd h hm
        · exact h
      ext <;> simp only [cross, V3.zero]
      · exact hc _ _ _ _ ey ez
      · exact hc _ _ _ _ ez ex
      · exact hc _ _ _ _ ex ey
    · intro hc
      have hpar : beta = ub * u := by
        have c1 := congrArg V3.x hc
        have c2 := congrArg V3.y hc
        have c3 := congrArg V3.z hc
        simp only [cross, V3.zero] at c1 c2 c3
        simp only [dot] at hu hubdef
        ext <;> simp <;> rw [hubdef]
        · linear_combination (-beta.x) * hu + u.z * c2 - u.y * c3
        · linear_combination (-beta.y) * hu + u.x * c3 - u.z * c1
        · linear_combination (-beta.z) * hu + u.y * c1 - u.x * c2
      have hpos : 0 < 1 + (1 + g * ub) * ub := by nlinarith [mul_pos hg1 hg1, sq_nonneg ub]
      have hnz : (1 + (1 + g * ub) * ub) ≠ 0 := hpos.ne'
      refine ⟨gamma * (1 + ub) / (1 + (1 + g * ub) * ub), by positivity, ?_⟩
      have h1 : gamma ≠ 0 := hgpos.ne'
      have h2 : (1 + ub) ≠ 0 := by linarith
      have comp : ∀ p bp : ℝ, bp = ub * p →
          p = gamma * (1 + ub) / (1 + (1 + g * ub) * ub) * (1 / (gamma * (1 + ub)) * (p + (1 + g * ub) * bp)) := by
        intro p bp hbp
        rw [hbp, show p + (1 + g * ub) * (ub * p) = (1 + (1 + g * ub) * ub) * p by ring]
        generalize 1 + (1 + g * ub) * ub = X at hnz
        field_simp
      rw [ha]
      ext
      · exact comp _ _ (congrArg V3.x hpar)
      · exact comp _ _ (congrArg V3.y hpar)
      · exact comp _ _ (congrArg V3.z hpar)
  · exact absurd h (by simp)

/-- **C145 (partial).**  Without aberration of the nodes (`TRUE_STATE` and `GEOMETRIC_STATE`) the stars are displaced all the same: a node
in front of a star stays in front of it exactly if the camera rests or moves along that direction. -/
theorem C145_other_modes_partial (mode : ObsMode) (hm : mode ≠ .aberratedState) (light tol dist : ℝ) (hl : 0 < light) (node : Transform)
    (c : Cam) (state : ℝ → Transform) (d : V3) (hn : IsRotation node.rotation) (hs : node.scale = ⟨1, 1, 1⟩)
    (ho : ∀ t, IsRotation (state t).rotation) (hd : dot d d = 1) (hdist : 0 < dist)
    (hv : dot ((1 / light) * node.velocity) ((1 / light) * node.velocity) < 0.999999)
    (ht : taken mode light tol state node.position = node.position + dist * d) :
    Together mode light tol node c state d ↔ cross d node.velocity = V3.zero := by
  have hra := mul_rot hn (rotZ_ortho c.rotation).isRotation
  have hx : pointInView mode light tol node c ⟨state, []⟩ ⟨0, 0, 0⟩ =
      some ((node.rotation.mul (rotZ c.rotation)).transpose.mulVec (dist * d)) := by
    rw [origin_eq _ _ _ _ _ _ hn hs ho]
    have hrel : node.position + dist * d - node.position = dist * d := by ext <;> simp
    cases mode with
    | trueState => simp only [apparentTransform, Option.map_some]; simp only [taken] at ht; rw [ht, hrel]
    | geometricState => simp only [apparentTransform, Option.map_some]; simp only [taken] at ht; rw [ht, hrel]
    | aberratedState => exact absurd rfl hm
  obtain ⟨a, ha⟩ : ∃ a, aberrate light d node.velocity = some a := by
    unfold aberrate
    simp only [if_pos hv]
    exact ⟨_, rfl⟩
  have hy := star_eq light node c d hn
  rw [ha] at hy
  simp only [Option.map_some] at hy
  have hsw : Together mode light tol node c state d ↔ SameWay (dist * d) a := by
    unfold Together
    rw [hx, hy]
    constructor
    · intro h
      exact (smul_cancel _ hra.ortho _ _).mp (h _ _ rfl rfl)
    · intro h x y e1 e2
      simp only [Option.some.injEq] at e1 e2
      rw [← e1, ← e2]
      exact (smul_cancel _ hra.ortho _ _).mpr h
  rw [hsw, ← aberrate_same light hl d node.velocity a hd ha]
  constructor
  · rintro ⟨k, hk, e⟩
    refine ⟨k / dist, by positivity, ?_⟩
    have hne := hdist.ne'
    have ex := congrArg V3.x e
    have ey := congrArg V3.y e
    have ez := congrArg V3.z e
    simp at ex ey ez
    ext <;> simp <;> field_simp <;> linarith
  · rintro ⟨k, hk, e⟩
    refine ⟨dist * k, by positivity, ?_⟩
    rw [e]
    ext <;> simp <;> ring

/-- A camera moving along `x` at a tenth of the speed of light (taken as one). -/
def exMoving : Transform := { Transform.default with velocity := ⟨1 / 10, 0, 0⟩ }

/-- C145 does not hold: seen by a moving camera in `TRUE_STATE`, a node in front of a star is shown beside it. -/
theorem C145_violated : ¬ C145_full := by
  intro H
  have hr : IsRotation exMoving.rotation := ortho_one.isRotation
  have hs : exMoving.scale = ⟨1, 1, 1⟩ := rfl
  obtain ⟨state, hstate⟩ : ∃ s : ℝ → Transform, s = fun _ => { Transform.default with position := ⟨0, 0, 10⟩ } := ⟨_, rfl⟩
  have ho : ∀ t, IsRotation (state t).rotation := by intro t; rw [hstate]; exact ortho_one.isRotation
  have hv : dot ((1 / (1 : ℝ)) * exMoving.velocity) ((1 / (1 : ℝ)) * exMoving.velocity) < 0.999999 := by
    simp [dot, exMoving]; norm_num
  have ht : taken .trueState 1 0 state exMoving.position = exMoving.position + (10 : ℝ) * (⟨0, 0, 1⟩ : V3) := by
    rw [hstate]
    ext <;> simp [taken, exMoving, Transform.default]
  have hd : dot (⟨0, 0, 1⟩ : V3) ⟨0, 0, 1⟩ = 1 := by simp [dot]
  have h := H .trueState 1 0 10 exMoving exCam state ⟨0, 0, 1⟩ one_pos hr hs ho hd (by norm_num) hv ht
  have h2 := (C145_other_modes_partial .trueState (by simp) 1 0 10 one_pos exMoving exCam state ⟨0, 0, 1⟩ hr hs ho hd (by norm_num)
    hv ht).mp h
  have h3 := congrArg V3.y h2
  simp [cross, V3.zero, exMoving] at h3

/-- The hypotheses of `C145_aberrated_partial` are met by the same camera and a node at rest in front of the star. -/
example : Together .aberratedState 1 0 exMoving exCam (fun _ => { Transform.default with position := ⟨0, 0, 10⟩ }) ⟨0, 0, 1⟩ :=
  C145_aberrated_partial 1 0 10 exMoving exCam _ ⟨0, 0, 1⟩ ortho_one.isRotation rfl (fun _ => ortho_one.isRotation) (by simp [dot])
    (by norm_num) (by ext <;> simp [taken, exMoving, Transform.default])

end
end Huira.Observer
