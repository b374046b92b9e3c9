import Mathlib.Tactic.LinearCombination
import Verif.Core.RotationModel

set_option linter.unusedSimpArgs false

/-!
# C63: rotations are rotations
-/

namespace Huira.Rot

open V3

/-! ## Specification -/

/-- A proper rotation: keeps lengths and angles (all scalar products) and handedness (all vector products). -/
def IsRotation (m : M3) : Prop :=
  (∀ u v, dot (m.mulVec u) (m.mulVec v) = dot u v) ∧ (∀ u v, m.mulVec (cross u v) = cross (m.mulVec u) (m.mulVec v))

/-- Turning `v` about the unit axis `a` by the angle `t`, right-handed (Rodrigues). -/
noncomputable def turn (a : V3) (t : ℝ) (v : V3) : V3 :=
  Real.cos t * v + Real.sin t * cross a v + ((1 - Real.cos t) * dot a v) * a

/-! ## Lemmas -/

@[simp] theorem mulVec_x (m : M3) (v : V3) : (m.mulVec v).x = v.x * m.c0.x + v.y * m.c1.x + v.z * m.c2.x := rfl
@[simp] theorem mulVec_y (m : M3) (v : V3) : (m.mulVec v).y = v.x * m.c0.y + v.y * m.c1.y + v.z * m.c2.y := rfl
@[simp] theorem mulVec_z (m : M3) (v : V3) : (m.mulVec v).z = v.x * m.c0.z + v.y * m.c1.z + v.z * m.c2.z := rfl

theorem mul_mulVec (a b : M3) (v : V3) : (a.mul b).mulVec v = a.mulVec (b.mulVec v) := by
  ext <;> simp [M3.mul] <;> ring

theorem one_mulVec (v : V3) : M3.one.mulVec v = v := by ext <;> simp [M3.one]

theorem mulVec_add (m : M3) (u v : V3) : m.mulVec (u + v) = m.mulVec u + m.mulVec v := by
  ext <;> simp <;> ring

theorem mulVec_smul (m : M3) (s : ℝ) (v : V3) : m.mulVec (s * v) = s * m.mulVec v := by
  ext <;> simp <;> ring

theorem ext_mulVec (a b : M3) (h : ∀ v, a.mulVec v = b.mulVec v) : a = b := by
  have h0 := h ⟨1, 0, 0⟩
  have h1 := h ⟨0, 1, 0⟩
  have h2 := h ⟨0, 0, 1⟩
  simp only [V3.ext_iff, mulVec_x, mulVec_y, mulVec_z] at h0 h1 h2
  ext <;> linarith [h0.1, h0.2.1, h0.2.2, h1.1, h1.2.1, h1.2.2, h2.1, h2.2.1, h2.2.2]

/-- Columns `c0`, `c1` orthonormal and `c2 = c0 × c1`. -/
structure Ortho (m : M3) : Prop where
  xx : dot m.c0 m.c0 = 1
  yy : dot m.c1 m.c1 = 1
  xy : dot m.c0 m.c1 = 0
  z : m.c2 = cross m.c0 m.c1

theorem Ortho.cross12 {m : M3} (h : Ortho m) : cross m.c1 m.c2 = m.c0 := by
  obtain ⟨h1, h2, h3, h4⟩ := h
  rw [h4]
  unfold dot at h1 h2 h3
  ext <;> simp only [cross]
  · linear_combination m.c0.x * h2 - m.c1.x * h3
  · linear_combination m.c0.y * h2 - m.c1.y * h3
  · linear_combination m.c0.z * h2 - m.c1.z * h3

theorem Ortho.cross20 {m : M3} (h : Ortho m) : cross m.c2 m.c0 = m.c1 := by
  obtain ⟨h1, h2, h3, h4⟩ := h
  rw [h4]
  unfold dot at h1 h2 h3
  ext <;> simp only [cross]
  · linear_combination m.c1.x * h1 - m.c0.x * h3
  · linear_combination m.c1.y * h1 - m.c0.y * h3
  · linear_combination m.c1.z * h1 - m.c0.z * h3

theorem Ortho.zz {m : M3} (h : Ortho m) : dot m.c2 m.c2 = 1 := by
  obtain ⟨h1, h2, h3, h4⟩ := h
  rw [h4]
  unfold dot at *
  simp only [cross]
  linear_combination (m.c1.x * m.c1.x + m.c1.y * m.c1.y + m.c1.z * m.c1.z) * h1 + h2 -
    (m.c0.x * m.c1.x + m.c0.y * m.c1.y + m.c0.z * m.c1.z) * h3

theorem dot_cross_left (a b : V3) : dot a (cross a b) = 0 := by simp only [dot, cross]; ring
theorem dot_cross_right (a b : V3) : dot b (cross a b) = 0 := by simp only [dot, cross]; ring

theorem Ortho.isRotation {m : M3} (h : Ortho m) : IsRotation m := by
  have h02 : dot m.c0 m.c2 = 0 := by rw [h.z, dot_cross_left]
  have h12 : dot m.c1 m.c2 = 0 := by rw [h.z, dot_cross_right]
  have c12 := h.cross12
  have c20 := h.cross20
  have zz := h.zz
  obtain ⟨xx, yy, xy, z⟩ := h
  constructor
  · intro u v
    unfold dot at *
    simp only [mulVec_x, mulVec_y, mulVec_z]
    linear_combination (u.x * v.x) * xx + (u.y * v.y) * yy + (u.z * v.z) * zz + (u.x * v.y + u.y * v.x) * xy +
      (u.x * v.z + u.z * v.x) * h02 + (u.y * v.z + u.z * v.y) * h12
  · intro u v
    rw [V3.ext_iff] at c12 c20 z
    simp only [cross] at c12 c20 z
    ext <;> simp only [cross, mulVec_x, mulVec_y, mulVec_z]
    · linear_combination (u.z * v.y - u.y * v.z) * c12.1 + (u.x * v.z - u.z * v.x) * c20.1 + (u.x * v.y - u.y * v.x) * z.1
    · linear_combination (u.z * v.y - u.y * v.z) * c12.2.1 + (u.x * v.z - u.z * v.x) * c20.2.1 + (u.x * v.y - u.y * v.x) * z.2.1
    · linear_combination (u.z * v.y - u.y * v.z) * c12.2.2 + (u.x * v.z - u.z * v.x) * c20.2.2 + (u.x * v.y - u.y * v.x) * z.2.2

theorem IsRotation.ortho {m : M3} (h : IsRotation m) : Ortho m := by
  have e0 : m.mulVec ⟨1, 0, 0⟩ = m.c0 := by ext <;> simp
  have e1 : m.mulVec ⟨0, 1, 0⟩ = m.c1 := by ext <;> simp
  have e2 : m.mulVec ⟨0, 0, 1⟩ = m.c2 := by ext <;> simp
  refine ⟨?_, ?_, ?_, ?_⟩
  · rw [← e0, h.1]; simp [dot]
  · rw [← e1, h.1]; simp [dot]
  · rw [← e0, ← e1, h.1]; simp [dot]
  · rw [← e0, ← e1, ← e2, ← h.2]; congr 1; ext <;> simp [cross]

theorem isRotation_iff (m : M3) : IsRotation m ↔ Ortho m := ⟨IsRotation.ortho, Ortho.isRotation⟩

theorem det_eq (m : M3) : m.det = dot m.c0 (cross m.c1 m.c2) := by
  simp only [M3.det, dot, cross]; ring

theorem Ortho.det {m : M3} (h : Ortho m) : m.det = 1 := by rw [det_eq, h.cross12, h.xx]

theorem normalize_unit {a : V3} (h : dot a a = 1) : normalize a = a := by
  rw [normalize_eq, len, h]
  ext <;> simp

theorem orthonormalize_ortho {m : M3} (h : Ortho m) : orthonormalize m = m := by
  have hx := normalize_unit h.xx
  unfold orthonormalize
  simp only [hx]
  have hy : m.c1 - dot m.c1 m.c0 * m.c0 = m.c1 := by
    rw [dot_comm, h.xy]; ext <;> simp
  rw [hy, normalize_unit h.yy]
  ext <;> simp [h.z]

theorem setMatrix_ortho {m : M3} (h : Ortho m) : setMatrix m = some m := by
  unfold setMatrix
  rw [h.det, if_neg (by norm_num), orthonormalize_ortho h]

theorem orthonormalize_isOrtho {m : M3} (h : m.det ≠ 0) : Ortho (orthonormalize m) := by
  rw [det_eq] at h
  have h0 : m.c0 ≠ zero := by
    intro e; rw [e] at h; apply h; simp [dot, zero]
  have xx := dot_normalize h0
  set x := normalize m.c0 with hx
  have hm0 : m.c0 = len m.c0 * x := by
    rw [hx, normalize_eq]
    have := (len_pos h0).ne'
    ext <;> simp <;> field_simp
  have h1 : m.c1 - dot m.c1 x * x ≠ zero := by
    intro e
    apply h
    have e1 : m.c1 = dot m.c1 x * x := by
      rw [V3.ext_iff] at e ⊢
      simp only [sub_x, sub_y, sub_z, zero] at e
      exact ⟨by linarith [e.1], by linarith [e.2.1], by linarith [e.2.2]⟩
    rw [hm0, e1]
    simp only [dot, cross, hmul_x, hmul_y, hmul_z]
    ring
  have yy := dot_normalize h1
  refine ⟨xx, yy, ?_, rfl⟩
  show dot x (normalize (m.c1 - dot m.c1 x * x)) = 0
  rw [normalize_eq, dot_smul_right, dot_sub_right, dot_smul_right, xx, dot_comm x m.c1]
  ring

theorem setMatrix_some {m r : M3} (h : setMatrix m = some r) : Ortho r := by
  unfold setMatrix at h
  split_ifs at h with hd
  obtain rfl := Option.some.inj h
  apply orthonormalize_isOrtho
  intro e
  rw [e] at hd
  norm_num at hd

theorem Ortho.mul {a b : M3} (ha : Ortho a) (hb : Ortho b) : Ortho (a.mul b) := by
  rw [← isRotation_iff] at *
  constructor
  · intro u v; rw [mul_mulVec, mul_mulVec, ha.1, hb.1]
  · intro u v; rw [mul_mulVec, mul_mulVec, mul_mulVec, hb.2, ha.2]

theorem transpose_mulVec (m : M3) (v : V3) : m.transpose.mulVec v = ⟨dot m.c0 v, dot m.c1 v, dot m.c2 v⟩ := by
  ext <;> simp [M3.transpose, dot] <;> ring

theorem Ortho.transpose_left {m : M3} (h : Ortho m) (v : V3) : m.transpose.mulVec (m.mulVec v) = v := by
  have e0 : m.mulVec ⟨1, 0, 0⟩ = m.c0 := by ext <;> simp
  have e1 : m.mulVec ⟨0, 1, 0⟩ = m.c1 := by ext <;> simp
  have e2 : m.mulVec ⟨0, 0, 1⟩ = m.c2 := by ext <;> simp
  rw [transpose_mulVec, ← e0, ← e1, ← e2, h.isRotation.1, h.isRotation.1, h.isRotation.1]
  ext <;> simp [dot]

/-- completeness of an orthonormal triple -/
theorem Ortho.expand {m : M3} (h : Ortho m) (v : V3) : m.mulVec (m.transpose.mulVec v) = v := by
  -- `v - M Mᵀ v` is orthogonal to all columns, hence `Mᵀ` of it vanishes; use `M⁻¹ = adj`
  have c12 := h.cross12
  have c20 := h.cross20
  have z := h.z
  have hd := h.det
  rw [V3.ext_iff] at c12 c20 z
  simp only [cross] at c12 c20 z
  obtain ⟨a1, a2, a3⟩ := c12
  obtain ⟨b1, b2, b3⟩ := c20
  obtain ⟨d1, d2, d3⟩ := z
  rw [transpose_mulVec]
  simp only [M3.det] at hd
  ext <;> simp only [mulVec_x, mulVec_y, mulVec_z, dot] <;> grind

theorem Ortho.transpose {m : M3} (h : Ortho m) : Ortho m.transpose := by
  rw [← isRotation_iff]
  have hr := h.isRotation
  constructor
  · intro u v
    rw [← hr.1 (m.transpose.mulVec u), h.expand, h.expand]
  · intro u v
    rw [← h.transpose_left (cross (m.transpose.mulVec u) (m.transpose.mulVec v)), hr.2, h.expand, h.expand]

theorem inverse_eq {m : M3} (h : Ortho m) : inverse m = some m.transpose := setMatrix_ortho h.transpose
theorem compose_eq {a b : M3} (ha : Ortho a) (hb : Ortho b) : compose a b = some (a.mul b) := setMatrix_ortho (ha.mul hb)

theorem ortho_one : Ortho M3.one := by
  constructor <;> simp [M3.one, dot, cross]

/-! ## Histories -/

theorem axisMatrix_ortho (n : V3) (hn : dot n n = 1) (c s : ℝ) (hcs : c * c + s * s = 1) :
    Ortho ⟨⟨c + n.x * n.x * (1 - c), n.y * n.x * (1 - c) + n.z * s, n.z * n.x * (1 - c) - n.y * s⟩,
      ⟨n.x * n.y * (1 - c) - n.z * s, c + n.y * n.y * (1 - c), n.z * n.y * (1 - c) + n.x * s⟩,
      ⟨n.x * n.z * (1 - c) + n.y * s, n.y * n.z * (1 - c) - n.x * s, c + n.z * n.z * (1 - c)⟩⟩ := by
  obtain ⟨x, y, z⟩ := n
  simp only [dot] at hn
  constructor <;> simp only [dot, cross]
  · linear_combination (x * x * (1 - c) ^ 2 + s * s) * hn + (1 - x * x) * hcs
  · linear_combination (y * y * (1 - c) ^ 2 + s * s) * hn + (1 - y * y) * hcs
  · linear_combination (x * y * (1 - c) ^ 2) * hn - x * y * hcs
  · rw [V3.ext_iff]
    refine ⟨?_, ?_, ?_⟩ <;> simp only [] <;> grind

theorem unit_axis {axis : V3} (h : axis ≠ zero) : dot ((1 / len axis) * axis) ((1 / len axis) * axis) = 1 :=
  dot_normalize h

theorem ne_zero_of_len {axis : V3} {eps : ℝ} (he : 0 < eps) (h : eps ≤ len axis) : axis ≠ zero := by
  rintro rfl
  have : len zero = 0 := by simp [len, dot, zero]
  linarith

theorem cs (t : ℝ) : Real.cos t * Real.cos t + Real.sin t * Real.sin t = 1 := by
  have := Real.sin_sq_add_cos_sq t
  nlinarith

/-- **C63, axis and angle.** For every axis that is not shorter than the machine epsilon and every angle, construction
succeeds and the rotation turns every vector about the axis by the angle, right-handed; a shorter axis gives the
identity. -/
theorem C63_axis_angle (eps : ℝ) (he : 0 < eps) (axis : V3) (t : ℝ) :
    (eps ≤ len axis → ∃ m, axisAngle eps axis t = some m ∧ ∀ v, m.mulVec v = turn (normalize axis) t v) ∧
    (len axis < eps → axisAngle eps axis t = some M3.one) := by
  constructor
  · intro h
    have hz := ne_zero_of_len he h
    unfold axisAngle
    rw [if_neg (not_lt.mpr h)]
    simp only []
    rw [setMatrix_ortho (axisMatrix_ortho _ (unit_axis hz) _ _ (cs t))]
    refine ⟨_, rfl, fun v => ?_⟩
    rw [normalize_eq]
    generalize (1 / len axis) * axis = n
    ext <;> simp [turn, dot, cross] <;> ring
  · intro h
    unfold axisAngle
    rw [if_pos h, setMatrix_ortho ortho_one]

example : ∃ m, axisAngle (2 ^ (-52 : ℤ)) ⟨0, 0, 3⟩ (Real.pi / 2) = some m ∧ m.mulVec ⟨1, 0, 0⟩ = ⟨0, 1, 0⟩ := by
  have hl : len ⟨0, 0, 3⟩ = 3 := by
    have : (3 : ℝ) * 3 = 3 ^ 2 := by norm_num
    simp only [len, dot, mul_zero, zero_add, this]
    exact Real.sqrt_sq (by norm_num)
  obtain ⟨m, h1, h2⟩ := (C63_axis_angle (2 ^ (-52 : ℤ)) (by positivity) ⟨0, 0, 3⟩ (Real.pi / 2)).1
    (by rw [hl]; norm_num)
  refine ⟨m, h1, ?_⟩
  rw [h2, normalize_eq, hl]
  ext <;> simp [turn, dot, cross]

/-- What `turn` means: the axis stays, and a unit vector perpendicular to the axis is turned, within the plane
perpendicular to the axis, by the signed angle `t`. -/
theorem C63_turn (a : V3) (ha : dot a a = 1) (t : ℝ) : turn a t a = a ∧
    ∀ v, dot v v = 1 → dot a v = 0 → dot a (turn a t v) = 0 ∧ dot v (turn a t v) = Real.cos t ∧
      cross v (turn a t v) = Real.sin t * a := by
  constructor
  · unfold turn
    rw [ha]
    ext <;> simp [cross] <;> ring
  · intro v hv hav
    unfold turn
    rw [hav]
    simp only [dot] at ha hv hav ⊢
    refine ⟨?_, ?_, ?_⟩
    · simp [cross]; linear_combination Real.cos t * hav
    · simp [cross]; linear_combination Real.cos t * hv
    · ext <;> simp [cross]
      · linear_combination (Real.sin t * a.x) * hv - (Real.sin t * v.x) * hav
      · linear_combination (Real.sin t * a.y) * hv - (Real.sin t * v.y) * hav
      · linear_combination (Real.sin t * a.z) * hv - (Real.sin t * v.z) * hav

example : dot (⟨0, 0, 1⟩ : V3) ⟨0, 0, 1⟩ = 1 ∧ dot (⟨0, 0, 1⟩ : V3) ⟨1, 0, 0⟩ = 0 := by simp [dot]

/-- **C63, all histories.** Whatever sequence of constructors (matrices, quaternions, axis and angle, Euler angles, basis
vectors, local-to-parent or parent-to-local), products and inverses produced a `Rotation`, it is a proper rotation with
determinant one. -/
theorem C63_rotation (eps : ℝ) (he : 0 < eps) (e : Expr) (m : M3) (h : e.eval eps = some m) :
    IsRotation m ∧ m.det = 1 := by
  have key : Ortho m := by
    cases e with
    | default => simp only [Expr.eval, Option.some.injEq] at h; rw [← h]; exact ortho_one
    | matrix m' => exact setMatrix_some h
    | quat q => exact setMatrix_some h
    | shuster q => exact setMatrix_some h
    | axisAngle a t =>
      simp only [Expr.eval, Rot.axisAngle] at h
      split_ifs at h <;> exact setMatrix_some h
    | p2lMatrix m' => exact setMatrix_some h
    | p2lQuat q => exact setMatrix_some h
    | p2lShuster q => exact setMatrix_some h
    | p2lAxisAngle a t =>
      simp only [Expr.eval, Rot.p2lAxisAngle, Rot.axisAngle] at h
      split_ifs at h <;> exact setMatrix_some h
    | extrinsic a b c s =>
      simp only [Expr.eval, Rot.extrinsic] at h
      split at h
      · simp only [Option.bind_eq_bind, Option.bind_eq_some_iff] at h
        obtain ⟨b0, _, b1, _, b2, _, h⟩ := h
        exact setMatrix_some h
      · cases h
    | intrinsic a b c s =>
      simp only [Expr.eval, Rot.intrinsic] at h
      split at h
      · simp only [Option.bind_eq_bind, Option.bind_eq_some_iff] at h
        obtain ⟨b0, _, b1, _, b2, _, h⟩ := h
        exact setMatrix_some h
      · cases h
    | basis x y z => exact setMatrix_some h
    | inverse e =>
      simp only [Expr.eval, Option.bind_eq_bind, Option.bind_eq_some_iff] at h
      obtain ⟨m', _, h⟩ := h
      exact setMatrix_some h
    | compose a b =>
      simp only [Expr.eval, Option.bind_eq_bind, Option.bind_eq_some_iff] at h
      obtain ⟨ma, _, mb, _, h⟩ := h
      exact setMatrix_some h
  exact ⟨key.isRotation, key.det⟩

/-- **C63, products and inverses never throw** and act as composition and inverse: for all rotations obtained through the
API, however deep. -/
theorem C63_group (eps : ℝ) (he : 0 < eps) (a b : Expr) (ma mb : M3) (ha : a.eval eps = some ma)
    (hb : b.eval eps = some mb) :
    (∃ m, (Expr.compose a b).eval eps = some m ∧ ∀ v, m.mulVec v = ma.mulVec (mb.mulVec v)) ∧
    (∃ m, (Expr.inverse a).eval eps = some m ∧ (∀ v, m.mulVec (ma.mulVec v) = v) ∧
      (∀ v, ma.mulVec (m.mulVec v) = v)) := by
  have oa := (C63_rotation eps he a ma ha).1.ortho
  have ob := (C63_rotation eps he b mb hb).1.ortho
  constructor
  · refine ⟨ma.mul mb, ?_, mul_mulVec ma mb⟩
    simp only [Expr.eval, ha, hb, Option.bind_eq_bind, Option.bind_some]
    exact compose_eq oa ob
  · refine ⟨ma.transpose, ?_, oa.transpose_left, oa.expand⟩
    simp only [Expr.eval, ha, Option.bind_eq_bind, Option.bind_some]
    exact inverse_eq oa

example : (Expr.compose (.extrinsic 1 2 3 ['X', 'y', '3']) (.inverse .default)).eval 1 =
    (do let a ← Rot.extrinsic 1 2 3 ['X', 'y', '3']; let b ← Rot.inverse M3.one; Rot.compose a b) := rfl

/-- C63, acceptance of matrices: a matrix is refused exactly when its determinant is off by more than a thousandth; a
proper rotation matrix is stored unchanged. -/
theorem C63_matrix (m : M3) : (setMatrix m = none ↔ 1e-3 < |m.det - 1|) ∧ (IsRotation m → setMatrix m = some m) := by
  refine ⟨?_, fun h => setMatrix_ortho h.ortho⟩
  unfold setMatrix
  by_cases h : |m.det - 1| > 1e-3
  · rw [if_pos h]; exact ⟨fun _ => h, fun _ => rfl⟩
  · rw [if_neg h]; exact ⟨fun h' => by simp at h', fun h' => absurd h' h⟩

theorem turn_neg (n : V3) (hn : dot n n = 1) (t : ℝ) (v : V3) : turn n t (turn n (-t) v) = v := by
  have hcs := cs t
  obtain ⟨x, y, z⟩ := n
  obtain ⟨a, b, d⟩ := v
  simp only [turn, Real.cos_neg, Real.sin_neg, dot] at hn ⊢
  generalize Real.cos t = c at *
  generalize Real.sin t = s at *
  ext <;> simp [cross] <;> grind

/-- C63, parent-to-local constructors give the inverse of the local-to-parent ones. -/
theorem C63_parent_to_local (eps : ℝ) (he : 0 < eps) (m : M3) (hm : IsRotation m) (axis : V3) (t : ℝ) :
    p2lMatrix m = inverse m ∧
    p2lAxisAngle eps axis t = (axisAngle eps axis t >>= inverse) := by
  refine ⟨rfl, ?_⟩
  unfold p2lAxisAngle
  by_cases h : eps ≤ len axis
  · obtain ⟨m1, h1, h1'⟩ := (C63_axis_angle eps he axis t).1 h
    obtain ⟨m2, h2, h2'⟩ := (C63_axis_angle eps he axis (-t)).1 h
    rw [h1, h2]
    have o1 := (C63_rotation eps he (.axisAngle axis t) m1 h1).1.ortho
    show some m2 = inverse m1
    rw [inverse_eq o1]
    congr 1
    apply ext_mulVec
    intro v
    have hn := dot_normalize (ne_zero_of_len he h)
    rw [← o1.transpose_left (m2.mulVec v), h2', h1']
    rw [turn_neg _ hn]
  · push Not at h
    rw [(C63_axis_angle eps he axis t).2 h, (C63_axis_angle eps he axis (-t)).2 h]
    exact (setMatrix_ortho ortho_one).symm

end Huira.Rot
