import Verif.View.HitModel
import Verif.Core.TransformProps
import Mathlib.Tactic

/-!
# Resolved hits (C95)
-/

set_option linter.unusedSimpArgs false
set_option linter.unusedVariables false

namespace Huira.Hit

open V3 Rot Xform

noncomputable section
open Classical

/-! ## Specification -/

/-- A unit vector. -/
def Unit (v : V3) : Prop := dot v v = 1

/-- `n` is normal to the image, under the transform, of the plane with normal `m`. -/
def NormalOfImage (xf : Transform) (m n : V3) : Prop := ∀ t, dot t m = 0 → dot (xf.applyDirection t) n = 0

/-! ## Lemmas -/

theorem applyDirection_ne {xf : Transform} (h : Valid xf) {v : V3} (hv : v ≠ V3.zero) : xf.applyDirection v ≠ V3.zero := by
  intro h0
  apply hv
  unfold Transform.applyDirection at h0
  have h1 : had v xf.scale = V3.zero := injective h.rot (by
    rw [h0]; ext <;> simp [M3.mulVec, V3.zero])
  have hx := congrArg V3.x h1
  have hy := congrArg V3.y h1
  have hz := congrArg V3.z h1
  simp [V3.zero, h.sx, h.sy, h.sz] at hx hy hz
  ext <;> simp [V3.zero, hx, hy, hz]

theorem normalize?_some {v : V3} (h : v ≠ V3.zero) : normalize? v = some (V3.normalize v) := by
  unfold normalize?
  rw [if_neg (fun e => h (dot_self_eq_zero.1 e))]

theorem dotNeg_some (u v : V3) : dotNeg (some u) (some v) ↔ dot u v < 0 := by
  unfold dotNeg
  constructor
  · rintro ⟨a, b, h1, h2, h3⟩
    cases h1; cases h2; exact h3
  · intro h; exact ⟨u, v, rfl, rfl, h⟩

theorem dot_neg_right (u v : V3) : dot u (-v) = -dot u v := by simp [dot]; ring
theorem dot_neg_left (u v : V3) : dot (-u) v = -dot u v := by simp [dot]; ring

theorem unit_neg {v : V3} (h : Unit v) : Unit (-v) := by
  unfold Unit at *; rw [dot_neg_left, dot_neg_right, neg_neg]; exact h

/-- **C95.**  The resolved hit: the position is the image of the local point, the direction to the viewer is the reverse of the ray,
the geometric normal is a unit vector facing the viewer, the shading normal a unit vector on the same side, tangent and bitangent
are unit vectors, and with the shading normal they are not left-handed. -/
theorem C95_resolved (xf : Transform) (more : List Transform) (loc : Local) (ng d : V3) (hx : Valid xf)
    (h1 : ng ≠ V3.zero) (h2 : loc.normalS ≠ V3.zero) (h3 : loc.tangent ≠ V3.zero) (h4 : loc.bitangent ≠ V3.zero) :
    ∃ i g s t b, resolve (xf :: more) loc ng d = some i ∧ i.position = xf.applyPoint loc.position ∧ i.wo = -d ∧
      i.normalG = some g ∧ i.normalS = some s ∧ i.tangent = some t ∧ i.bitangent = some b ∧
      Unit g ∧ Unit s ∧ Unit t ∧ Unit b ∧ 0 ≤ dot i.wo g ∧ 0 ≤ dot s g ∧ 0 ≤ dot (cross t b) s := by
  have hg0 := normalize?_some (applyDirection_ne hx h1)
  have hs0 := normalize?_some (applyDirection_ne hx h2)
  have ht0 := normalize?_some (applyDirection_ne hx h3)
  have hb0 := normalize?_some (applyDirection_ne hx h4)
  have ug := dot_normalize (applyDirection_ne hx h1)
  have us := dot_normalize (applyDirection_ne hx h2)
  have ut := dot_normalize (applyDirection_ne hx h3)
  have ub := dot_normalize (applyDirection_ne hx h4)
  generalize V3.normalize (xf.applyDirection ng) = g0 at *
  generalize V3.normalize (xf.applyDirection loc.normalS) = s0 at *
  generalize V3.normalize (xf.applyDirection loc.tangent) = t0 at *
  generalize V3.normalize (xf.applyDirection loc.bitangent) = b0 at *
  obtain ⟨g, hg, hgu, hgd⟩ : ∃ g, (if dotNeg (some d) (some g0) then some g0 else neg? (some g0)) = some g ∧ Unit g ∧
      0 ≤ dot (-d) g := by
    split_ifs with h
    · exact ⟨g0, rfl, ug, by rw [dotNeg_some] at h; rw [dot_neg_left]; linarith⟩
    · exact ⟨-g0, rfl, unit_neg ug, by rw [dotNeg_some] at h; rw [dot_neg_left, dot_neg_right]; linarith⟩
  obtain ⟨s, hs, hsu, hsd⟩ : ∃ s, (if dotNeg (some s0) (some g) then neg? (some s0) else some s0) = some s ∧ Unit s ∧
      0 ≤ dot s g := by
    split_ifs with h
    · exact ⟨-s0, rfl, unit_neg us, by rw [dotNeg_some] at h; rw [dot_neg_left]; linarith⟩
    · exact ⟨s0, rfl, us, by rw [dotNeg_some] at h; linarith⟩
  obtain ⟨b, hb, hbu, hbd⟩ : ∃ b, (if dotNeg (cross? (some t0) (some b0)) (some s) then neg? (some b0) else some b0) = some b ∧
      Unit b ∧ 0 ≤ dot (cross t0 b) s := by
    have e : cross? (some t0) (some b0) = some (cross t0 b0) := rfl
    rw [e]
    split_ifs with h
    · refine ⟨-b0, rfl, unit_neg ub, ?_⟩
      rw [dotNeg_some] at h
      have : dot (cross t0 (-b0)) s = -dot (cross t0 b0) s := by simp [dot, cross]; ring
      rw [this]; linarith
    · exact ⟨b0, rfl, ub, by rw [dotNeg_some] at h; linarith⟩
  refine ⟨⟨xf.applyPoint loc.position, some g, some s, some t0, some b, -d⟩, g, s, t0, b, ?_, rfl, rfl, rfl, rfl, rfl, rfl,
    hgu, hsu, ut, hbu, hgd, hsd, hbd⟩
  unfold resolve
  simp only [List.getElem?_cons_zero, hg0, hs0, ht0, hb0, hg, hs, hb]

theorem apply_dot {xf : Transform} (h : Valid xf) (u v : V3) :
    dot (xf.applyDirection u) (xf.applyDirection v) = dot (had u xf.scale) (had v xf.scale) := by
  unfold Transform.applyDirection
  have ho := h.rot.ortho
  have h1 := ho.xx; have h2 := ho.yy; have h3 := ho.xy
  have h4 := ho.zz
  have h5 : dot xf.rotation.c0 xf.rotation.c2 = 0 := by rw [ho.z]; exact dot_cross_left _ _
  have h6 : dot xf.rotation.c1 xf.rotation.c2 = 0 := by rw [ho.z]; exact dot_cross_right _ _
  generalize had u xf.scale = p
  generalize had v xf.scale = q
  simp only [M3.mulVec, dot, add_x, add_y, add_z, hmul_x, hmul_y, hmul_z] at *
  linear_combination (p.x * q.x) * h1 + (p.y * q.y) * h2 + (p.z * q.z) * h4 + (p.x * q.y + p.y * q.x) * h3 +
    (p.x * q.z + p.z * q.x) * h5 + (p.y * q.z + p.z * q.y) * h6

theorem resolve_normal (xf : Transform) (more : List Transform) (loc : Local) (ng d : V3) (hx : Valid xf) (h1 : ng ≠ V3.zero)
    (i : Isect) (hi : resolve (xf :: more) loc ng d = some i) :
    ∃ c : ℝ, c ≠ 0 ∧ i.normalG = some (c * xf.applyDirection ng) := by
  have hne := applyDirection_ne hx h1
  have hl : 0 < 1 / len (xf.applyDirection ng) := by have := len_pos hne; positivity
  unfold resolve at hi
  simp only [List.getElem?_cons_zero, normalize?_some hne, Option.some.injEq] at hi
  subst hi
  simp only
  split_ifs
  · exact ⟨_, hl.ne', rfl⟩
  · refine ⟨-(1 / len (xf.applyDirection ng)), neg_ne_zero.2 hl.ne', ?_⟩
    simp only [neg?, Option.map_some, Option.some.injEq]
    rw [V3.normalize_eq]
    ext <;> simp

/-- **C95.**  When is the resolved geometric normal normal to the surface?  For every transform, exactly when the squared scale
factors map the local normal to a multiple of itself. -/
theorem C95_normal_iff (xf : Transform) (more : List Transform) (loc : Local) (ng d : V3) (hx : Valid xf) (h1 : ng ≠ V3.zero)
    (i : Isect) (g : V3) (hi : resolve (xf :: more) loc ng d = some i) (hg : i.normalG = some g) :
    NormalOfImage xf ng g ↔ ∃ k : ℝ, had (had ng xf.scale) xf.scale = k * ng := by
  obtain ⟨c, hc, hc2⟩ := resolve_normal xf more loc ng d hx h1 i hi
  rw [hg, Option.some.injEq] at hc2
  have hdot : ∀ t, dot (xf.applyDirection t) g = c * dot t (had (had ng xf.scale) xf.scale) := by
    intro t
    rw [hc2, dot_smul_right, apply_dot hx]
    congr 1
    simp only [dot, had_x, had_y, had_z]; ring
  unfold NormalOfImage
  constructor
  · intro h
    have hp : 0 < dot ng ng := dot_self_pos h1
    generalize hw : had (had ng xf.scale) xf.scale = w at *
    have hz : ∀ t, dot t ng = 0 → dot t w = 0 := fun t ht => by
      have := h t ht
      rw [hdot] at this
      exact (mul_eq_zero.1 this).resolve_left hc
    refine ⟨dot w ng / dot ng ng, ?_⟩
    -- the component of w perpendicular to ng is zero
    have hr := hz (w - (dot w ng / dot ng ng) * ng) (by
      rw [dot_comm, dot_sub_right, dot_smul_right, dot_comm ng w]; field_simp; ring)
    have hr2 : dot (w - (dot w ng / dot ng ng) * ng) (w - (dot w ng / dot ng ng) * ng) = 0 := by
      rw [dot_sub_right, hr, dot_smul_right, zero_sub]
      have : dot (w - (dot w ng / dot ng ng) * ng) ng = 0 := by
        rw [dot_comm, dot_sub_right, dot_smul_right, dot_comm ng w]; field_simp; ring
      rw [this]; ring
    have h0 := dot_self_eq_zero.1 hr2
    have hx' := congrArg V3.x h0
    have hy' := congrArg V3.y h0
    have hz' := congrArg V3.z h0
    simp only [sub_x, sub_y, sub_z, hmul_x, hmul_y, hmul_z, V3.zero] at hx' hy' hz'
    ext <;> simp only [hmul_x, hmul_y, hmul_z] <;> linarith
  · rintro ⟨k, hk⟩ t ht
    rw [hdot, hk, dot_smul_right, ht]; ring

/-- **C95.**  With the same scale factor in all directions the resolved normal is normal to the transformed surface. -/
theorem C95_normal_partial (xf : Transform) (more : List Transform) (loc : Local) (ng d : V3) (hx : Valid xf) (hu : Uniform xf)
    (h1 : ng ≠ V3.zero) (i : Isect) (g : V3) (hi : resolve (xf :: more) loc ng d = some i) (hg : i.normalG = some g) :
    NormalOfImage xf ng g := by
  rw [C95_normal_iff xf more loc ng d hx h1 i g hi hg]
  refine ⟨xf.scale.x * xf.scale.x, ?_⟩
  rw [had_uniform hu, had_uniform hu]
  ext <;> simp <;> ring

/-- **C95.**  With the same scale factor in all directions an orthonormal frame of the geometry becomes an orthonormal right-handed
frame: tangent and bitangent perpendicular to each other and to the shading normal, which is their cross product. -/
theorem C95_frame_partial (xf : Transform) (more : List Transform) (loc : Local) (ng d : V3) (hx : Valid xf) (hu : Uniform xf)
    (hng : ng ≠ V3.zero) (un : Unit loc.normalS) (ut : Unit loc.tangent) (ub : Unit loc.bitangent)
    (ptb : dot loc.tangent loc.bitangent = 0) (ptn : dot loc.tangent loc.normalS = 0) (pbn : dot loc.bitangent loc.normalS = 0) :
    ∃ i s t b, resolve (xf :: more) loc ng d = some i ∧ i.normalS = some s ∧ i.tangent = some t ∧ i.bitangent = some b ∧
      dot t b = 0 ∧ dot t s = 0 ∧ dot b s = 0 ∧ s = cross t b := by
  have ne : ∀ v, Unit v → v ≠ V3.zero := by
    rintro v hv rfl; simp [Unit, dot, V3.zero] at hv
  have hS : xf.scale.x ≠ 0 := hx.sx
  have aD : ∀ u v, dot (xf.applyDirection u) (xf.applyDirection v) = xf.scale.x ^ 2 * dot u v := by
    intro u v
    rw [apply_dot hx, had_uniform hu, had_uniform hu, dot_smul_left, dot_smul_right]; ring
  have nD : ∀ u v, dot u v = 0 → dot (V3.normalize (xf.applyDirection u)) (V3.normalize (xf.applyDirection v)) = 0 := by
    intro u v h
    rw [V3.normalize_eq, V3.normalize_eq, dot_smul_left, dot_smul_right, aD, h]; ring
  obtain ⟨i, g, s, t, b, hi, -, -, eg, es, et, eb, -, us', ut', ub', -, -, hh⟩ :=
    C95_resolved xf more loc ng d hx hng (ne _ un) (ne _ ut) (ne _ ub)
  have ns := normalize?_some (applyDirection_ne hx (ne _ un))
  have nt := normalize?_some (applyDirection_ne hx (ne _ ut))
  have nb := normalize?_some (applyDirection_ne hx (ne _ ub))
  have p1 := nD _ _ ptb
  have p2 := nD _ _ ptn
  have p3 := nD _ _ pbn
  -- identify the vectors up to sign
  have key : t = V3.normalize (xf.applyDirection loc.tangent) ∧
      (s = V3.normalize (xf.applyDirection loc.normalS) ∨ s = -V3.normalize (xf.applyDirection loc.normalS)) ∧
      (b = V3.normalize (xf.applyDirection loc.bitangent) ∨ b = -V3.normalize (xf.applyDirection loc.bitangent)) := by
    have hi' := hi
    unfold resolve at hi'
    simp only [List.getElem?_cons_zero, ns, nt, nb, Option.some.injEq] at hi'
    subst hi'
    simp only at es et eb
    refine ⟨(Option.some.inj et).symm, ?_, ?_⟩
    · split_ifs at es
      · exact Or.inr (Option.some.inj es).symm
      · exact Or.inl (Option.some.inj es).symm
      · exact Or.inr (Option.some.inj es).symm
      · exact Or.inl (Option.some.inj es).symm
    · by_cases hc : b = V3.normalize (xf.applyDirection loc.bitangent)
      · exact Or.inl hc
      · right
        split_ifs at eb <;> first
          | exact (Option.some.inj eb).symm
          | exact absurd (Option.some.inj eb).symm hc
  obtain ⟨k1, k2, k3⟩ := key
  have q1 : dot t b = 0 := by rcases k3 with h | h <;> rw [k1, h] <;> simp only [dot_neg_right, p1, neg_zero]
  have q2 : dot t s = 0 := by rcases k2 with h | h <;> rw [k1, h] <;> simp only [dot_neg_right, p2, neg_zero]
  have q3 : dot b s = 0 := by
    rcases k3 with h | h <;> rcases k2 with h' | h' <;> rw [h, h'] <;>
      simp only [dot_neg_right, dot_neg_left, p3, neg_zero]
  refine ⟨i, s, t, b, hi, es, et, eb, q1, q2, q3, ?_⟩
  -- s is a multiple of cross t b, of length one, on its side
  have hc1 : dot (cross t b) (cross t b) = 1 := by
    have : dot (cross t b) (cross t b) = dot t t * dot b b - dot t b * dot t b := by simp only [dot, cross]; ring
    rw [this, ut', ub', q1]; ring
  have hsq : dot (cross t b) s * dot (cross t b) s = 1 := by
    have e : dot (cross t b) s * dot (cross t b) s = dot t t * dot b b * dot s s - dot t t * dot b s ^ 2 -
        dot b b * dot t s ^ 2 - dot s s * dot t b ^ 2 + 2 * dot t b * dot b s * dot t s := by
      simp only [dot, cross]; ring
    rw [e, ut', ub', us', q1, q2, q3]; ring
  have h1 : dot (cross t b) s = 1 := by nlinarith
  have h0 : dot (s - cross t b) (s - cross t b) = 0 := by
    have e : dot (s - cross t b) (s - cross t b) = dot s s - 2 * dot (cross t b) s + dot (cross t b) (cross t b) := by
      simp [dot]; ring
    rw [e, us', h1, hc1]; ring
  have := dot_self_eq_zero.1 h0
  have hx' := congrArg V3.x this
  have hy' := congrArg V3.y this
  have hz' := congrArg V3.z this
  simp only [sub_x, sub_y, sub_z, V3.zero] at hx' hy' hz'
  ext <;> linarith

/-- **C95 in full**: the resolved normal is normal to the transformed surface whatever the scale, and the resolved position lies where
the surface was when the ray was traced (`now` among the instance's transforms). -/
def C95_full : Prop :=
  (∀ xf loc ng d i g, Valid xf → ng ≠ V3.zero → resolve [xf] loc ng d = some i → i.normalG = some g → NormalOfImage xf ng g) ∧
  (∀ ts loc ng d i now, now ∈ ts → (∀ xf ∈ ts, Valid xf) → resolve ts loc ng d = some i → i.position = now.applyPoint loc.position)

theorem valid_of (p s : V3) (hx : s.x ≠ 0) (hy : s.y ≠ 0) (hz : s.z ≠ 0) :
    Valid ⟨p, M3.one, s, V3.zero, V3.zero⟩ := ⟨ortho_one.isRotation, hx, hy, hz⟩

/-- **C95 does not hold for unequal scale factors**: directions are scaled instead of divided by the scale. -/
theorem C95_violated_scale : ∃ xf loc ng d i g, Valid xf ∧ ng ≠ V3.zero ∧ resolve [xf] loc ng d = some i ∧
    i.normalG = some g ∧ ¬ NormalOfImage xf ng g := by
  let xf : Transform := ⟨V3.zero, M3.one, ⟨1, 2, 1⟩, V3.zero, V3.zero⟩
  let loc : Local := ⟨V3.zero, ⟨1, 0, 0⟩, ⟨0, 1, 0⟩, ⟨0, 0, 1⟩⟩
  let ng : V3 := ⟨1, 1, 0⟩
  have hv : Valid xf := valid_of _ _ (by norm_num) (by norm_num) (by norm_num)
  have ne : ∀ x y z : ℝ, (x ≠ 0 ∨ y ≠ 0 ∨ z ≠ 0) → (⟨x, y, z⟩ : V3) ≠ V3.zero := by
    intro x y z h e
    have hx := congrArg V3.x e
    have hy := congrArg V3.y e
    have hz := congrArg V3.z e
    simp [V3.zero] at hx hy hz
    tauto
  have hng : ng ≠ V3.zero := ne _ _ _ (by norm_num)
  obtain ⟨i, g, s, t, b, hi, -, -, hg, -⟩ := C95_resolved xf [] loc ng ⟨-1, 0, 0⟩ hv hng (ne _ _ _ (by norm_num))
    (ne _ _ _ (by norm_num)) (ne _ _ _ (by norm_num))
  refine ⟨xf, loc, ng, _, i, g, hv, hng, hi, hg, ?_⟩
  rw [C95_normal_iff xf [] loc ng _ hv hng i g hi hg]
  rintro ⟨k, hk⟩
  have hx := congrArg V3.x hk
  have hy := congrArg V3.y hk
  simp [ng, xf] at hx hy
  linarith

/-- **C95 does not hold for moving instances**: the first temporal sample's transform is used whenever the ray was traced. -/
theorem C95_violated_motion : ∃ a b loc ng d i, Valid a ∧ Valid b ∧ resolve [a, b] loc ng d = some i ∧
    i.position ≠ b.applyPoint loc.position := by
  refine ⟨⟨V3.zero, M3.one, ⟨1, 1, 1⟩, V3.zero, V3.zero⟩, ⟨⟨1, 0, 0⟩, M3.one, ⟨1, 1, 1⟩, V3.zero, V3.zero⟩,
    ⟨V3.zero, V3.zero, V3.zero, V3.zero⟩, V3.zero, V3.zero, _, valid_of _ _ (by norm_num) (by norm_num) (by norm_num),
    valid_of _ _ (by norm_num) (by norm_num) (by norm_num), rfl, ?_⟩
  intro h
  have := congrArg V3.x h
  simp [Transform.applyPoint, M3.mulVec, M3.one, V3.zero] at this

theorem C95_violated : ¬ C95_full := by
  rintro ⟨h, -⟩
  obtain ⟨xf, loc, ng, d, i, g, h1, h2, h3, h4, h5⟩ := C95_violated_scale
  exact h5 (h xf loc ng d i g h1 h2 h3 h4)

/-- A mesh without tangents has zero tangents (C68); the resolved ones are not numbers. -/
theorem C95_no_tangent (xf : Transform) (more : List Transform) (loc : Local) (ng d : V3) (h : loc.tangent = V3.zero) (i : Isect)
    (hi : resolve (xf :: more) loc ng d = some i) : i.tangent = none := by
  unfold resolve at hi
  simp only [List.getElem?_cons_zero, Option.some.injEq] at hi
  subst hi
  simp [h, normalize?, Transform.applyDirection, M3.mulVec, had, dot, V3.zero]

/-- A rotated, uniformly scaled instance and a local frame meet the hypotheses. -/
example : Valid ⟨⟨1, 2, 3⟩, ⟨⟨0, 1, 0⟩, ⟨-1, 0, 0⟩, ⟨0, 0, 1⟩⟩, ⟨2, 2, 2⟩, V3.zero, V3.zero⟩ ∧
    Uniform ⟨⟨1, 2, 3⟩, ⟨⟨0, 1, 0⟩, ⟨-1, 0, 0⟩, ⟨0, 0, 1⟩⟩, ⟨2, 2, 2⟩, V3.zero, V3.zero⟩ ∧ Unit ⟨0, 0, 1⟩ ∧ Unit ⟨1, 0, 0⟩ ∧
    dot ⟨0, 0, 1⟩ ⟨1, 0, 0⟩ = 0 := by
  refine ⟨⟨Ortho.isRotation ⟨?_, ?_, ?_, ?_⟩, ?_, ?_, ?_⟩, ⟨rfl, rfl⟩, ?_, ?_, ?_⟩ <;> norm_num [dot, cross, Unit]

end
end Huira.Hit
