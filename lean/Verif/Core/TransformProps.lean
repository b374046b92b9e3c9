import Mathlib.Tactic.LinearCombination
import Verif.Core.RotationConv
import Verif.Core.TransformModel

set_option linter.unusedSimpArgs false

/-!
# C64: the algebra of transforms
-/

namespace Huira.Xform

open V3 Rot Transform

@[simp] theorem had_x (a b : V3) : (had a b).x = a.x * b.x := rfl
@[simp] theorem had_y (a b : V3) : (had a b).y = a.y * b.y := rfl
@[simp] theorem had_z (a b : V3) : (had a b).z = a.z * b.z := rfl

/-! ## Specification -/

/-- The rotation is a rotation (always the case, C63) and the scale has no zero component. -/
structure Valid (t : Transform) : Prop where
  rot : IsRotation t.rotation
  sx : t.scale.x ≠ 0
  sy : t.scale.y ≠ 0
  sz : t.scale.z ≠ 0

/-- Same scale factor in all directions. -/
def Uniform (t : Transform) : Prop := t.scale.x = t.scale.y ∧ t.scale.y = t.scale.z

/-- **C64 in full**: composing then applying is applying in turn, the inverse undoes a transform in both orders, and the
matrix form agrees. -/
def C64_full : Prop :=
  (∀ a b c, Valid a → Valid b → a.compose b = some c → ∀ p, c.applyPoint p = a.applyPoint (b.applyPoint p)) ∧
  (∀ a i, Valid a → a.inverse = some i → ∀ p, i.applyPoint (a.applyPoint p) = p) ∧
  (∀ a i c, Valid a → a.inverse = some i → i.compose a = some c →
    c.velocity = zero ∧ c.angularVelocity = zero ∧ c.position = zero ∧ c.rotation = M3.one) ∧
  (∀ a, Valid a → ∀ p : V3, mulVec4 a.toMatrix ⟨p.x, p.y, p.z, 1⟩ =
    ⟨(a.applyPoint p).x, (a.applyPoint p).y, (a.applyPoint p).z, 1⟩)

/-! ## Lemmas -/

theorem had_uniform {t : Transform} (h : Uniform t) (v : V3) : had v t.scale = t.scale.x * v := by
  obtain ⟨h1, h2⟩ := h
  ext <;> simp
  · ring
  · rw [← h1]; ring
  · rw [← h2, ← h1]; ring

theorem had_comm (a b : V3) : had a b = had b a := by ext <;> simp <;> ring

theorem compose_some {a b : Transform} (ha : IsRotation a.rotation) (hb : IsRotation b.rotation) :
    ∃ c, a.compose b = some c ∧ c.rotation = a.rotation.mul b.rotation ∧
      c.position = a.position + a.rotation.mulVec (had a.scale b.position) ∧ c.scale = had a.scale b.scale ∧
      c.velocity = a.velocity + a.rotation.mulVec (had a.scale b.velocity) +
        cross a.angularVelocity (a.rotation.mulVec (had a.scale b.position)) ∧
      c.angularVelocity = a.angularVelocity + a.rotation.mulVec b.angularVelocity := by
  unfold Transform.compose
  rw [compose_eq ha.ortho hb.ortho]
  exact ⟨_, rfl, rfl, rfl, rfl, rfl, rfl⟩

theorem inverse_some {a : Transform} (ha : IsRotation a.rotation) :
    ∃ i, a.inverse = some i ∧ i.rotation = a.rotation.transpose ∧
      i.scale = ⟨1 / a.scale.x, 1 / a.scale.y, 1 / a.scale.z⟩ ∧
      i.position = a.rotation.transpose.mulVec (had (-a.position) ⟨1 / a.scale.x, 1 / a.scale.y, 1 / a.scale.z⟩) ∧
      i.velocity = a.rotation.transpose.mulVec (had (-a.velocity) ⟨1 / a.scale.x, 1 / a.scale.y, 1 / a.scale.z⟩) ∧
      i.angularVelocity = a.rotation.transpose.mulVec (-a.angularVelocity) := by
  unfold Transform.inverse
  rw [inverse_eq ha.ortho]
  exact ⟨_, rfl, rfl, rfl, rfl, rfl, rfl⟩

theorem injective {m : M3} (h : IsRotation m) {u v : V3} (he : m.mulVec u = m.mulVec v) : u = v := by
  rw [← h.ortho.transpose_left u, he, h.ortho.transpose_left]

theorem mulVec_neg (m : M3) (v : V3) : m.mulVec (-v) = -m.mulVec v := by ext <;> simp <;> ring
theorem mulVec_sub (m : M3) (u v : V3) : m.mulVec (u - v) = m.mulVec u - m.mulVec v := by ext <;> simp <;> ring
theorem add_left_cancel' {a b c : V3} (h : a + b = a + c) : b = c := by
  rw [V3.ext_iff] at h ⊢
  simp at h
  exact h

theorem transpose_ortho {m : M3} (h : IsRotation m) : IsRotation m.transpose := h.ortho.transpose.isRotation

/-! ## Composition -/

/-- **C64, composition never throws, and when it is right.** Mapping a point with the composed transform equals mapping it
with both in turn exactly when the outer scale commutes with the inner rotation on the point's image. -/
theorem C64_compose_iff (a b : Transform) (ha : Valid a) (hb : Valid b) :
    ∃ c, a.compose b = some c ∧ ∀ p, (c.applyPoint p = a.applyPoint (b.applyPoint p) ↔
      b.rotation.mulVec (had a.scale (had p b.scale)) = had a.scale (b.rotation.mulVec (had p b.scale))) := by
  obtain ⟨c, hc, hr, hp, hs, _, _⟩ := compose_some ha.rot hb.rot
  refine ⟨c, hc, fun p => ?_⟩
  have e1 : c.applyPoint p = (a.position + a.rotation.mulVec (had a.scale b.position)) +
      a.rotation.mulVec (b.rotation.mulVec (had a.scale (had p b.scale))) := by
    unfold applyPoint
    rw [hr, hp, hs, mul_mulVec]
    have : had p (had a.scale b.scale) = had a.scale (had p b.scale) := by ext <;> simp <;> ring
    rw [this]
    ext <;> simp <;> ring
  have e2 : a.applyPoint (b.applyPoint p) = (a.position + a.rotation.mulVec (had a.scale b.position)) +
      a.rotation.mulVec (had a.scale (b.rotation.mulVec (had p b.scale))) := by
    unfold applyPoint
    ext <;> simp <;> ring
  rw [e1, e2]
  constructor
  · intro h
    exact injective ha.rot (add_left_cancel' h)
  · intro h; rw [h]

/-- **C64, partial (composition).** With an outer scale that is the same in all directions, composing then applying equals
applying in turn, for points, directions, angular velocities and rigidly attached points. Missing: direction-dependent
outer scales, where the composed transform is wrong (`C64_violated`). -/
theorem C64_compose_partial (a b : Transform) (ha : Valid a) (hb : Valid b) (hu : Uniform a) :
    ∃ c, a.compose b = some c ∧ Valid c ∧
      (∀ p, c.applyPoint p = a.applyPoint (b.applyPoint p)) ∧
      (∀ d, c.applyDirection d = a.applyDirection (b.applyDirection d)) ∧
      (∀ w, c.applyAngularVelocity w = a.applyAngularVelocity (b.applyAngularVelocity w)) ∧
      (∀ p, c.velocityOfLocalPoint p =
        a.velocityOfLocalPoint (b.applyPoint p) + a.applyDirection (b.velocityOfLocalPoint p)) := by
  obtain ⟨c, hc, hr, hp, hs, hv, hw⟩ := compose_some ha.rot hb.rot
  have key : ∀ p, c.applyPoint p = a.applyPoint (b.applyPoint p) := by
    obtain ⟨c', hc', h⟩ := C64_compose_iff a b ha hb
    rw [hc] at hc'
    obtain rfl := Option.some.inj hc'
    intro p
    rw [h, had_comm, had_uniform hu, had_comm a.scale, had_uniform hu, mulVec_smul]
  have hcv : Valid c := by
    refine ⟨?_, ?_, ?_, ?_⟩
    · rw [hr]; exact (ha.rot.ortho.mul hb.rot.ortho).isRotation
    · rw [hs]; exact mul_ne_zero ha.sx hb.sx
    · rw [hs]; exact mul_ne_zero ha.sy hb.sy
    · rw [hs]; exact mul_ne_zero ha.sz hb.sz
  refine ⟨c, hc, hcv, key, ?_, ?_, ?_⟩
  · intro d
    have := key d
    unfold applyPoint at this
    rw [hp] at this
    have e2 : a.rotation.mulVec (had (b.rotation.mulVec (had d b.scale) + b.position) a.scale) + a.position =
        (a.position + a.rotation.mulVec (had a.scale b.position)) + a.rotation.mulVec (had (b.rotation.mulVec (had d b.scale)) a.scale) := by
      ext <;> simp <;> ring
    rw [e2] at this
    unfold applyDirection
    apply add_left_cancel' (a := a.position + a.rotation.mulVec (had a.scale b.position))
    rw [← this]
    ext <;> simp <;> ring
  · intro w
    unfold applyAngularVelocity
    rw [hr, hw, mul_mulVec, mulVec_add]
    ext <;> simp <;> ring
  · intro p
    unfold velocityOfLocalPoint velocityOfPoint
    rw [key, hv, hw, hp]
    unfold applyPoint applyDirection
    have hA := had_uniform hu
    simp only [had_comm a.scale, hA, mulVec_smul, mulVec_add, ha.rot.2]
    have hsub : b.rotation.mulVec (had p b.scale) + b.position - b.position = b.rotation.mulVec (had p b.scale) := by
      ext <;> simp
    rw [hsub]
    generalize a.rotation.mulVec b.position = P
    generalize a.rotation.mulVec (b.rotation.mulVec (had p b.scale)) = R
    generalize a.rotation.mulVec b.velocity = Vb
    generalize a.rotation.mulVec b.angularVelocity = Wb
    ext <;> simp [cross] <;> ring

/-! ## Inverse -/

/-- **C64, when the inverse is right.** `inverse()` undoes the transform on a point exactly when rotation and scale commute
on it. -/
theorem C64_inverse_iff (a : Transform) (ha : Valid a) :
    ∃ i, a.inverse = some i ∧ ∀ p, (i.applyPoint (a.applyPoint p) = p ↔
      a.rotation.mulVec (had p a.scale) = had (a.rotation.mulVec p) a.scale) := by
  obtain ⟨i, hi, hr, hs, hp, _, _⟩ := inverse_some ha.rot
  refine ⟨i, hi, fun p => ?_⟩
  have e : i.applyPoint (a.applyPoint p) = a.rotation.transpose.mulVec
      (had (a.rotation.mulVec (had p a.scale)) ⟨1 / a.scale.x, 1 / a.scale.y, 1 / a.scale.z⟩) := by
    unfold applyPoint
    rw [hr, hp, hs, ← mulVec_add]
    congr 1
    ext <;> simp <;> ring
  rw [e]
  have hx := ha.sx
  have hy := ha.sy
  have hz := ha.sz
  constructor
  · intro h
    have h2 := congrArg a.rotation.mulVec h
    rw [ha.rot.ortho.expand] at h2
    rw [← h2]
    ext <;> simp <;> field_simp
  · intro h
    rw [h]
    have : had (had (a.rotation.mulVec p) a.scale) ⟨1 / a.scale.x, 1 / a.scale.y, 1 / a.scale.z⟩ = a.rotation.mulVec p := by
      ext <;> simp <;> field_simp
    rw [this, ha.rot.ortho.transpose_left]

/-- **C64, partial (inverse).** With a uniform scale the inverse undoes the transform, in both orders, for points and
directions, and inverse and transform compose to the identity pose. Missing: direction-dependent scales, and velocities
of frames that rotate away from the parent's origin (`C64_inverse_velocity`). -/
theorem C64_inverse_partial (a : Transform) (ha : Valid a) (hu : Uniform a) :
    ∃ i, a.inverse = some i ∧ Valid i ∧ Uniform i ∧
      (∀ p, i.applyPoint (a.applyPoint p) = p) ∧ (∀ p, a.applyPoint (i.applyPoint p) = p) ∧
      (∀ d, i.applyDirection (a.applyDirection d) = d) ∧
      (∀ w, i.applyAngularVelocity (a.applyAngularVelocity w) = w) ∧
      (∃ c, i.compose a = some c ∧ c.position = zero ∧ c.rotation = M3.one ∧ c.scale = ⟨1, 1, 1⟩ ∧
        c.angularVelocity = zero) := by
  obtain ⟨i, hi, hr, hs, hp, hv, hw⟩ := inverse_some ha.rot
  have hrot : IsRotation i.rotation := by rw [hr]; exact transpose_ortho ha.rot
  have hui : Uniform i := by
    rw [Uniform, hs]; obtain ⟨h1, h2⟩ := hu; exact ⟨by simp only []; rw [h1], by simp only []; rw [h2]⟩
  have hsx : i.scale.x = 1 / a.scale.x := by rw [hs]
  have hvi : Valid i := by
    refine ⟨hrot, ?_, ?_, ?_⟩ <;> rw [hs]
    · exact one_div_ne_zero ha.sx
    · exact one_div_ne_zero ha.sy
    · exact one_div_ne_zero ha.sz
  have hx := ha.sx
  have left : ∀ p, i.applyPoint (a.applyPoint p) = p := by
    obtain ⟨i', hi', h⟩ := C64_inverse_iff a ha
    rw [hi] at hi'
    obtain rfl := Option.some.inj hi'
    intro p
    rw [h, had_uniform hu, had_uniform hu, mulVec_smul]
  have hd : ∀ d, i.applyDirection (a.applyDirection d) = d := by
    intro d
    unfold applyDirection
    rw [had_uniform hu, had_uniform hui, hr, hsx, mulVec_smul, mulVec_smul, mulVec_smul, ha.rot.ortho.transpose_left]
    ext <;> simp <;> field_simp
  refine ⟨i, hi, hvi, hui, left, ?_, hd, ?_, ?_⟩
  · intro p
    unfold applyPoint
    rw [had_uniform hu, had_uniform hui, hr, hp, hsx, mulVec_smul, mulVec_smul, mulVec_add, mulVec_smul,
      ha.rot.ortho.expand, ha.rot.ortho.expand]
    have : had (-a.position) ⟨1 / a.scale.x, 1 / a.scale.y, 1 / a.scale.z⟩ = (1 / a.scale.x) * (-a.position) := by
      have := had_uniform hui (-a.position)
      rw [hs] at this
      exact this
    rw [this]
    ext <;> simp <;> field_simp <;> ring
  · intro w
    unfold applyAngularVelocity
    rw [hr, hw, mulVec_add, ha.rot.ortho.transpose_left, mulVec_neg]
    ext <;> simp only [add_x, add_y, add_z, neg_x, neg_y, neg_z] <;> ring
  · obtain ⟨c, hc, cr, cp, cs', _, cw⟩ := compose_some hrot ha.rot
    refine ⟨c, hc, ?_, ?_, ?_, ?_⟩
    · have := left zero
      unfold applyPoint at this
      have hz : had zero a.scale = zero := by ext <;> simp [zero]
      have hz' : a.rotation.mulVec zero = zero := by ext <;> simp [zero]
      rw [hz, hz'] at this
      rw [cp, had_comm]
      have h0 : zero + a.position = a.position := by ext <;> simp [zero]
      rw [h0] at this
      rw [← this]
      ext <;> simp <;> ring
    · rw [cr, hr]
      apply ext_mulVec
      intro v
      rw [mul_mulVec, ha.rot.ortho.transpose_left, one_mulVec]
    · rw [cs', hs]
      have hy := ha.sy
      have hz := ha.sz
      ext <;> simp <;> field_simp
    · rw [cw, hw, hr, mulVec_neg]
      ext <;> simp only [add_x, add_y, add_z, neg_x, neg_y, neg_z, zero] <;> ring

example : Valid ⟨⟨1, 2, 3⟩, rotZ 1, ⟨2, 2, 2⟩, ⟨1, 0, 0⟩, ⟨0, 0, 1⟩⟩ ∧ Uniform ⟨⟨1, 2, 3⟩, rotZ 1, ⟨2, 2, 2⟩, ⟨1, 0, 0⟩, ⟨0, 0, 1⟩⟩ := by
  obtain ⟨m, h1, o, _⟩ := (eulerBasis_eq 'z' 1).1 ⟨0, 0, 1⟩ (by simp [axisOf])
  have : m = rotZ 1 := by
    have h2 : eulerBasis 'z' 1 = some (rotZ 1) := by simp [eulerBasis, Char.toLower]
    rw [h2] at h1; exact (Option.some.inj h1).symm
  subst this
  exact ⟨⟨o.isRotation, by norm_num, by norm_num, by norm_num⟩, rfl, rfl⟩

/-- **C64, velocity of the inverse.** For a transform without scaling, inverse and transform compose to a frame moving with
`-R⁻¹(ω × position)` instead of at rest: the inverse is wrong for every rotating frame whose position is not along its
spin axis. -/
theorem C64_inverse_velocity (a : Transform) (ha : IsRotation a.rotation) (hs : a.scale = ⟨1, 1, 1⟩) :
    ∃ i c, a.inverse = some i ∧ i.compose a = some c ∧
      c.velocity = -a.rotation.transpose.mulVec (cross a.angularVelocity a.position) ∧
      (c.velocity = zero ↔ cross a.angularVelocity a.position = zero) := by
  obtain ⟨i, hi, hr, his, _, hv, hw⟩ := inverse_some ha
  have hrot : IsRotation i.rotation := by rw [hr]; exact transpose_ortho ha
  obtain ⟨c, hc, _, _, _, cv, _⟩ := compose_some hrot ha
  have key : c.velocity = -a.rotation.transpose.mulVec (cross a.angularVelocity a.position) := by
    rw [cv, hv, hw, hr, his, hs]
    have h1 : ∀ v : V3, had ⟨1 / 1, 1 / 1, 1 / 1⟩ v = v := by intro v; ext <;> simp
    have h2 : ∀ v : V3, had v ⟨1 / 1, 1 / 1, 1 / 1⟩ = v := by intro v; ext <;> simp
    rw [h1, h1, h2, ← (transpose_ortho ha).2]
    have h3 : cross (-a.angularVelocity) a.position = -cross a.angularVelocity a.position := by
      ext <;> simp [cross] <;> ring
    rw [h3, mulVec_neg, mulVec_neg]
    ext <;> simp only [add_x, add_y, add_z, neg_x, neg_y, neg_z] <;> ring
  refine ⟨i, c, hi, hc, key, ?_⟩
  rw [key]
  constructor
  · intro h
    apply injective (transpose_ortho ha)
    rw [V3.ext_iff] at h ⊢
    simp only [neg_x, neg_y, neg_z, zero, mulVec_x, mulVec_y, mulVec_z] at h ⊢
    exact ⟨by linarith [h.1], by linarith [h.2.1], by linarith [h.2.2]⟩
  · intro h
    rw [h]
    ext <;> simp [zero]

/-- **C64, `to_matrix`.** The matrix form applies rotation before scale and puts the position in the bottom row: applied to
a homogeneous point it yields no translation at all, and a fourth coordinate other than one. -/
theorem C64_to_matrix (a : Transform) (p : V3) :
    mulVec4 a.toMatrix ⟨p.x, p.y, p.z, 1⟩ =
      ⟨(had (a.rotation.mulVec p) a.scale).x, (had (a.rotation.mulVec p) a.scale).y, (had (a.rotation.mulVec p) a.scale).z,
        dot a.position p + 1⟩ := by
  unfold mulVec4 toMatrix
  simp only []
  ext <;> simp [dot] <;> ring

/-- **C64, violated.** -/
theorem C64_violated : ¬ C64_full := by
  rintro ⟨_, _, _, h⟩
  have := h ⟨⟨1, 0, 0⟩, M3.one, ⟨1, 1, 1⟩, zero, zero⟩ ⟨ortho_one.isRotation, one_ne_zero, one_ne_zero, one_ne_zero⟩ ⟨0, 0, 0⟩
  rw [C64_to_matrix] at this
  simp [applyPoint, M3.one] at this

/-- C64, violated by a concrete composition (quarter turn inside a frame stretched along x) and inverse, too. -/
theorem C64_violated_compose :
    ∃ a b c, Valid a ∧ Valid b ∧ a.compose b = some c ∧ c.applyPoint ⟨1, 0, 0⟩ ≠ a.applyPoint (b.applyPoint ⟨1, 0, 0⟩) ∧
    ∃ t i, Valid t ∧ t.inverse = some i ∧ i.applyPoint (t.applyPoint ⟨1, 0, 0⟩) ≠ ⟨1, 0, 0⟩ := by
  have ho : Ortho ⟨⟨0, 1, 0⟩, ⟨-1, 0, 0⟩, ⟨0, 0, 1⟩⟩ := by constructor <;> simp [dot, cross]
  have va : Valid ⟨zero, M3.one, ⟨2, 1, 1⟩, zero, zero⟩ := ⟨ortho_one.isRotation, by norm_num, by norm_num, by norm_num⟩
  have vb : Valid ⟨zero, ⟨⟨0, 1, 0⟩, ⟨-1, 0, 0⟩, ⟨0, 0, 1⟩⟩, ⟨1, 1, 1⟩, zero, zero⟩ :=
    ⟨ho.isRotation, by norm_num, by norm_num, by norm_num⟩
  have vt : Valid ⟨zero, ⟨⟨0, 1, 0⟩, ⟨-1, 0, 0⟩, ⟨0, 0, 1⟩⟩, ⟨2, 1, 1⟩, zero, zero⟩ :=
    ⟨ho.isRotation, by norm_num, by norm_num, by norm_num⟩
  obtain ⟨c, hc, h⟩ := C64_compose_iff _ _ va vb
  obtain ⟨i, hi, h'⟩ := C64_inverse_iff _ vt
  refine ⟨_, _, c, va, vb, hc, ?_, _, i, vt, hi, ?_⟩
  · rw [Ne, h]; simp [V3.ext_iff]
  · rw [Ne, h']; simp [V3.ext_iff]

/-- C64, `to_embree`: scaling, turning by the exported quaternion and translating, as Embree does, is `apply_to_point`. -/
theorem C64_to_embree (a : Transform) (ha : IsRotation a.rotation) (p : V3) :
    ∃ m, fromQuat a.toEmbree.2.2 = some m ∧ m.mulVec (had p a.toEmbree.1) + a.toEmbree.2.1 = a.applyPoint p :=
  ⟨_, (C63_quaternion_export a.rotation ha).2.1, rfl⟩

/-- A default-constructed transform is the identity at rest: it moves no point, turns no direction, scales nothing and
gives no point a velocity. -/
theorem C64_default (p : V3) : Transform.default.applyPoint p = p ∧ Transform.default.applyDirection p = p ∧
    Transform.default.applyVelocity p = p ∧ Transform.default.applyAngularVelocity p = p ∧
    Transform.default.velocityOfPoint p = ⟨0, 0, 0⟩ := by
  refine ⟨?_, ?_, ?_, ?_, ?_⟩ <;>
    simp [Transform.default, Transform.applyPoint, Transform.applyDirection, Transform.applyVelocity,
      Transform.applyAngularVelocity, Transform.velocityOfPoint, had, M3.mulVec, M3.one, cross] <;> ext <;> simp

/-- What the direction and velocity forms mean: directions transform as differences of points, and a point moving with
velocity `v` in a frame that is carried along at the transform's velocity (without turning) moves with the transformed
velocity. -/
theorem C64_directions_velocities (a : Transform) (p q v : V3) (s : ℝ) :
    a.applyPoint q - a.applyPoint p = a.applyDirection (q - p) ∧
    ({ a with position := a.position + s * a.velocity } : Transform).applyPoint (p + s * v) =
      a.applyPoint p + s * a.applyVelocity v := by
  constructor <;> ext <;>
    simp [Transform.applyPoint, Transform.applyDirection, Transform.applyVelocity, had, M3.mulVec] <;> ring

/-- Angular velocities compose as the product transform says. -/
theorem C64_angular_velocity (a b c : Transform) (h : a.compose b = some c) :
    c.angularVelocity = a.applyAngularVelocity b.angularVelocity := by
  simp only [Transform.compose, Option.bind_eq_bind, Option.bind_eq_some_iff, Option.pure_def, Option.some.injEq] at h
  obtain ⟨r, _, rfl⟩ := h
  ext <;> simp [Transform.applyAngularVelocity] <;> ring

end Huira.Xform
