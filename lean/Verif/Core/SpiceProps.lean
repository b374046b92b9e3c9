import Verif.Core.SpiceModel
/-!
# C122: what SPICE says reaches the scene
-/
namespace Huira.SpiceIf

open V3 Rot World

set_option linter.unusedSimpArgs false

variable {S : Type}

/-! ## Specification -/

/-- The frames of a kernel: `pxform_c` answers rotations, `sxform_c` answers the same rotation with the derivative of each of
its entries. -/
def Frames (k : CSpice S) (frm dst : S) : Prop :=
  (∀ t, IsRotation (toMat3 (k.pxform frm dst t))) ∧ (∀ t, (k.sxform frm dst t).1 = k.pxform frm dst t) ∧
  ∀ t i j, HasDerivAt (fun s => k.pxform frm dst s i j) ((k.sxform frm dst t).2 i j) t

/-- The components, relative to the parent frame, of the vector with local components `d`: the vector `p` with `R p = d`,
where `R` is the matrix SPICE gives for the change from parent to local components. -/
def SameVector (k : CSpice S) (frm dst : S) (t : ℝ) (p d : V3) : Prop :=
  d.x = k.pxform frm dst t 0 0 * p.x + k.pxform frm dst t 0 1 * p.y + k.pxform frm dst t 0 2 * p.z ∧
  d.y = k.pxform frm dst t 1 0 * p.x + k.pxform frm dst t 1 1 * p.y + k.pxform frm dst t 1 2 * p.z ∧
  d.z = k.pxform frm dst t 2 0 * p.x + k.pxform frm dst t 2 1 * p.y + k.pxform frm dst t 2 2 * p.z

/-- The frame turns with angular velocity `w` (parent components): every vector `p` that keeps its local components changes
at the rate `w × p`. -/
def TurnsWith (k : CSpice S) (frm dst : S) (t : ℝ) (w : V3) : Prop :=
  ∀ (d : V3) (p : ℝ → V3), (∀ s, SameVector k frm dst s (p s) d) → Rate p (cross w (p t)) t

/-! ## Lemmas -/

theorem sameVector_iff {k : CSpice S} {frm dst : S} {t : ℝ} (h : IsRotation (toMat3 (k.pxform frm dst t))) (p d : V3) :
    SameVector k frm dst t p d ↔ p = (toMat3 (k.pxform frm dst t)).transpose.mulVec d := by
  have ho := IsRotation.ortho h
  have hd : SameVector k frm dst t p d ↔ d = (toMat3 (k.pxform frm dst t)).mulVec p := by
    unfold SameVector
    constructor
    · rintro ⟨h1, h2, h3⟩
      ext
      · rw [h1]; simp [toMat3]; ring
      · rw [h2]; simp [toMat3]; ring
      · rw [h3]; simp [toMat3]; ring
    · rintro rfl
      simp only [mulVec_x, mulVec_y, mulVec_z, toMat3]
      exact ⟨by ring, by ring, by ring⟩
  rw [hd]
  constructor
  · rintro rfl; rw [ho.transpose_left]
  · rintro rfl; rw [ho.expand]

theorem p2l_ok {m : M3} (h : IsRotation m) : p2lMatrix m = some m.transpose := by
  unfold p2lMatrix
  exact setMatrix_ortho (IsRotation.ortho h).transpose

/-- `R'ᵀ R` is skew. -/
theorem skew {k : CSpice S} {frm dst : S} (hf : Frames k frm dst) (t : ℝ) (i j : Fin 3) :
    ((k.sxform frm dst t).2 0 i * k.pxform frm dst t 0 j + (k.sxform frm dst t).2 1 i * k.pxform frm dst t 1 j +
      (k.sxform frm dst t).2 2 i * k.pxform frm dst t 2 j) +
    ((k.sxform frm dst t).2 0 j * k.pxform frm dst t 0 i + (k.sxform frm dst t).2 1 j * k.pxform frm dst t 1 i +
      (k.sxform frm dst t).2 2 j * k.pxform frm dst t 2 i) = 0 := by
  obtain ⟨hr, _, hd⟩ := hf
  have hc : ∀ s, k.pxform frm dst s 0 i * k.pxform frm dst s 0 j + k.pxform frm dst s 1 i * k.pxform frm dst s 1 j +
      k.pxform frm dst s 2 i * k.pxform frm dst s 2 j = if i = j then 1 else 0 := by
    intro s
    have ho := IsRotation.ortho (hr s)
    have hz := ho.zz
    have hx := ho.xx
    have hy := ho.yy
    have hxy := ho.xy
    have hxz : dot (toMat3 (k.pxform frm dst s)).c0 (toMat3 (k.pxform frm dst s)).c2 = 0 := by
      rw [ho.z]; exact dot_cross_left _ _
    have hyz : dot (toMat3 (k.pxform frm dst s)).c1 (toMat3 (k.pxform frm dst s)).c2 = 0 := by
      rw [ho.z]; exact dot_cross_right _ _
    simp only [toMat3, dot] at hx hy hz hxy hxz hyz
    fin_cases i <;> fin_cases j <;> simp <;> linarith
  have hdd := (((hd t 0 i).mul (hd t 0 j)).add ((hd t 1 i).mul (hd t 1 j))).add ((hd t 2 i).mul (hd t 2 j))
  have hconst : HasDerivAt (fun s => k.pxform frm dst s 0 i * k.pxform frm dst s 0 j +
      k.pxform frm dst s 1 i * k.pxform frm dst s 1 j + k.pxform frm dst s 2 i * k.pxform frm dst s 2 j) 0 t := by
    simp only [hc]
    exact hasDerivAt_const _ _
  have := hdd.unique hconst
  linarith

/-- CSPICE's `xf2rav_c` answers the angular velocity of the frame, in parent components (its documented contract). -/
theorem xf2rav_turns {k : CSpice S} {frm dst : S} (hf : Frames k frm dst) (t : ℝ) :
    TurnsWith k frm dst t (xf2rav (k.sxform frm dst t)).2 := by
  intro d p hp
  have hr := hf.1
  have hd := hf.2.2
  have hp' : ∀ s, p s = (toMat3 (k.pxform frm dst s)).transpose.mulVec d := fun s => (sameVector_iff (hr s) _ _).1 (hp s)
  obtain ⟨e0, e1, e2⟩ := hp t
  have sk := skew hf t
  have s00 := sk 0 0
  have s11 := sk 1 1
  have s22 := sk 2 2
  have s01 := sk 0 1
  have s02 := sk 0 2
  have s12 := sk 1 2
  have hmat := hf.2.1 t
  set A := (k.sxform frm dst t).2 with hA
  set R := k.pxform frm dst t with hR
  have hx : (fun s => (p s).x) = fun s => d.x * k.pxform frm dst s 0 0 + d.y * k.pxform frm dst s 1 0 + d.z * k.pxform frm dst s 2 0 := by
    funext s; rw [hp' s]; simp [toMat3, M3.transpose]
  have hy : (fun s => (p s).y) = fun s => d.x * k.pxform frm dst s 0 1 + d.y * k.pxform frm dst s 1 1 + d.z * k.pxform frm dst s 2 1 := by
    funext s; rw [hp' s]; simp [toMat3, M3.transpose]
  have hz : (fun s => (p s).z) = fun s => d.x * k.pxform frm dst s 0 2 + d.y * k.pxform frm dst s 1 2 + d.z * k.pxform frm dst s 2 2 := by
    funext s; rw [hp' s]; simp [toMat3, M3.transpose]
  have D : ∀ j : Fin 3, HasDerivAt
      (fun s => d.x * k.pxform frm dst s 0 j + d.y * k.pxform frm dst s 1 j + d.z * k.pxform frm dst s 2 j)
      (d.x * A 0 j + d.y * A 1 j + d.z * A 2 j) t := fun j =>
    (((hd t 0 j).const_mul d.x).add ((hd t 1 j).const_mul d.y)).add ((hd t 2 j).const_mul d.z)
  unfold Rate
  rw [hx, hy, hz]
  have hw : (xf2rav (k.sxform frm dst t)).2 =
      ⟨A 0 2 * R 0 1 + A 1 2 * R 1 1 + A 2 2 * R 2 1, A 0 0 * R 0 2 + A 1 0 * R 1 2 + A 2 0 * R 2 2,
        A 0 1 * R 0 0 + A 1 1 * R 1 0 + A 2 1 * R 2 0⟩ := by
    simp only [xf2rav, hmat, ← hA]
  rw [hw]
  refine ⟨(D 0).congr_deriv ?_, (D 1).congr_deriv ?_, (D 2).congr_deriv ?_⟩
  · simp only [cross]
    rw [e0, e1, e2]
    linear_combination (p t).x / 2 * s00 + (p t).y * s01 + (0 : ℝ) * s02
  · simp only [cross]
    rw [e0, e1, e2]
    linear_combination (p t).y / 2 * s11 + (p t).z * s12
  · simp only [cross]
    rw [e0, e1, e2]
    linear_combination (p t).z / 2 * s22 + (p t).x * s02

/-- At most one angular velocity. -/
theorem turns_unique {k : CSpice S} {frm dst : S} (hf : Frames k frm dst) (t : ℝ) {w w' : V3}
    (h : TurnsWith k frm dst t w) (h' : TurnsWith k frm dst t w') : w = w' := by
  have key : ∀ v : V3, cross w v = cross w' v := by
    intro v
    have hsame : ∀ s, SameVector k frm dst s
        ((toMat3 (k.pxform frm dst s)).transpose.mulVec ((toMat3 (k.pxform frm dst t)).mulVec v))
        ((toMat3 (k.pxform frm dst t)).mulVec v) := fun s => (sameVector_iff (hf.1 s) _ _).2 rfl
    have h1 := h _ _ hsame
    have h2 := h' _ _ hsame
    have := h1.unique h2
    rwa [(IsRotation.ortho (hf.1 t)).transpose_left] at this
  have k1 := key ⟨1, 0, 0⟩
  have k2 := key ⟨0, 1, 0⟩
  simp only [cross, V3.mk.injEq] at k1 k2
  ext
  · linarith [k2.2.2]
  · linarith [k1.2.2]
  · linarith [k1.2.1]

/-! ## Theorems -/

/-- C122: positions and velocities come in metres and metres per second, and the velocity is the rate of change of the
position whenever the kernel's is; the light time is passed on. -/
theorem C122_state (k : CSpice S) (target frame abcorr observer : S) (t : ℝ) :
    let r := spkezr k target t frame abcorr observer
    let c := k.spkezr target t frame abcorr observer
    (r.1.x = c.1.1.x * 1000 ∧ r.1.y = c.1.1.y * 1000 ∧ r.1.z = c.1.1.z * 1000) ∧
    (r.2.1.x = c.1.2.x * 1000 ∧ r.2.1.y = c.1.2.y * 1000 ∧ r.2.1.z = c.1.2.z * 1000) ∧ r.2.2 = c.2 ∧
    (Rate (fun s => (k.spkezr target s frame abcorr observer).1.1) c.1.2 t →
      Rate (fun s => (spkezr k target s frame abcorr observer).1) r.2.1 t) := by
  refine ⟨⟨?_, ?_, ?_⟩, ⟨?_, ?_, ?_⟩, rfl, ?_⟩
  all_goals try (simp only [spkezr, hmul_x, hmul_y, hmul_z]; ring)
  rintro ⟨h1, h2, h3⟩
  exact ⟨h1.const_mul 1000, h2.const_mul 1000, h3.const_mul 1000⟩

/-- C122: the orientation from `pxform` and from `sxform` is the same, and it takes the local components of a vector to its
parent components. -/
theorem C122_orientation (k : CSpice S) (frm dst : S) (hf : Frames k frm dst) (t : ℝ) :
    ∃ m w, pxform k frm dst t = some m ∧ sxform k frm dst t = some (m, w) ∧ IsRotation m ∧
      ∀ p d, m.mulVec d = p ↔ SameVector k frm dst t p d := by
  have hp := p2l_ok (hf.1 t)
  refine ⟨_, (toMat3 (k.pxform frm dst t)).transpose.mulVec (xf2rav (k.sxform frm dst t)).2, hp, ?_,
    ((IsRotation.ortho (hf.1 t)).transpose).isRotation, fun p d => ?_⟩
  · unfold sxform
    have : (xf2rav (k.sxform frm dst t)).1 = k.pxform frm dst t := hf.2.1 t
    simp only [this, hp, Option.bind_eq_bind, Option.bind_some, Option.pure_def]
  · rw [sameVector_iff (hf.1 t)]
    exact eq_comm

/-- C122 (partial): the angular velocity handed on is that of the frame exactly when the rotation leaves the angular velocity
where it is. Missing: it is rotated once more from "local" to parent components although CSPICE already gives parent
components. -/
theorem C122_rate_partial (k : CSpice S) (frm dst : S) (hf : Frames k frm dst) (t : ℝ) (m : M3) (w : V3)
    (h : sxform k frm dst t = some (m, w)) :
    ∃ w', TurnsWith k frm dst t w' ∧ w = m.mulVec w' ∧ (TurnsWith k frm dst t w ↔ m.mulVec w' = w') := by
  have ht := xf2rav_turns hf t
  have hp := p2l_ok (hf.1 t)
  unfold sxform at h
  have h1 : (xf2rav (k.sxform frm dst t)).1 = k.pxform frm dst t := hf.2.1 t
  simp only [h1, hp, Option.bind_eq_bind, Option.bind_some, Option.pure_def, Option.some.injEq, Prod.mk.injEq] at h
  obtain ⟨rfl, rfl⟩ := h
  refine ⟨_, ht, rfl, ?_⟩
  constructor
  · intro h2; exact turns_unique hf t h2 ht
  · intro h2; rw [h2]; exact ht

/-- C122 (partial): in particular its length, the speed of rotation, is right, and a frame that does not turn is reported as
not turning. -/
theorem C122_speed_partial (k : CSpice S) (frm dst : S) (hf : Frames k frm dst) (t : ℝ) (m : M3) (w w' : V3)
    (h : sxform k frm dst t = some (m, w)) (h' : TurnsWith k frm dst t w') : len w = len w' := by
  obtain ⟨w'', h1, h2, _⟩ := C122_rate_partial k frm dst hf t m w h
  have := turns_unique hf t h' h1
  subst this
  obtain ⟨m', w3, hp, hs, hm, _⟩ := C122_orientation k frm dst hf t
  rw [h] at hs
  cases hs
  unfold len
  rw [h2, hm.1]

/-! ## Violation -/

/-- Full statement: the angular velocity handed on is that of the frame. -/
def C122_full : Prop :=
  ∀ (S : Type) (k : CSpice S) (frm dst : S), Frames k frm dst → ∀ t m w, sxform k frm dst t = some (m, w) →
    TurnsWith k frm dst t w

/-- A body that spins about the `x` axis of the parent frame, its own `z` axis: the matrix from parent to local components has the rows
`(0, cos t, sin t)`, `(0, -sin t, cos t)`, `(1, 0, 0)`. -/
noncomputable def spinner : CSpice PUnit where
  spkezr := fun _ _ _ _ _ => ((zero, zero), 0)
  pxform := fun _ _ t => ![![0, Real.cos t, Real.sin t], ![0, -Real.sin t, Real.cos t], ![1, 0, 0]]
  sxform := fun _ _ t => (![![0, Real.cos t, Real.sin t], ![0, -Real.sin t, Real.cos t], ![1, 0, 0]],
    ![![0, -Real.sin t, Real.cos t], ![0, -Real.cos t, -Real.sin t], ![0, 0, 0]])

theorem spinner_frames : Frames spinner ⟨⟩ ⟨⟩ := by
  refine ⟨fun t => ?_, fun _ => rfl, fun t i j => ?_⟩
  · apply Ortho.isRotation
    have h := Real.sin_sq_add_cos_sq t
    constructor
    all_goals simp only [spinner, toMat3, dot, cross, Matrix.cons_val_zero, Matrix.cons_val_one, Matrix.cons_val]
    all_goals try ext
    all_goals simp
    all_goals nlinarith
  · have hs := Real.hasDerivAt_sin t
    have hc := Real.hasDerivAt_cos t
    have h0 := hasDerivAt_const t (0 : ℝ)
    have h1 := hasDerivAt_const t (1 : ℝ)
    fin_cases i <;> fin_cases j
    · exact h0
    · exact hc
    · exact hs
    · exact h0
    · exact hs.neg
    · exact hc
    · exact h1
    · exact h0
    · exact h0

/-- **C122 is violated**: the spinner turns about the `x` axis of the parent frame, and is reported to turn about an axis that
itself moves: at time 0, about `y`. -/
theorem C122_violated :
    TurnsWith spinner ⟨⟩ ⟨⟩ 0 ⟨1, 0, 0⟩ ∧ (∃ m, sxform spinner ⟨⟩ ⟨⟩ 0 = some (m, ⟨0, 1, 0⟩)) ∧ ¬ C122_full := by
  have hw : (xf2rav (spinner.sxform ⟨⟩ ⟨⟩ 0)).2 = ⟨1, 0, 0⟩ := by
    simp [xf2rav, spinner]
  have ht := xf2rav_turns spinner_frames 0
  rw [hw] at ht
  have hs : ∃ m, sxform spinner ⟨⟩ ⟨⟩ 0 = some (m, ⟨0, 1, 0⟩) := by
    have hp := p2l_ok (spinner_frames.1 0)
    refine ⟨(toMat3 (spinner.pxform ⟨⟩ ⟨⟩ 0)).transpose, ?_⟩
    unfold sxform
    have h1 : (xf2rav (spinner.sxform ⟨⟩ ⟨⟩ 0)).1 = spinner.pxform ⟨⟩ ⟨⟩ 0 := rfl
    simp only [h1, hw, hp, Option.bind_eq_bind, Option.bind_some, Option.pure_def, Option.some.injEq, Prod.mk.injEq, true_and]
    ext <;> simp [toMat3, spinner, M3.transpose]
  refine ⟨ht, hs, fun h => ?_⟩
  obtain ⟨m, hm⟩ := hs
  have := turns_unique spinner_frames 0 (h _ spinner ⟨⟩ ⟨⟩ spinner_frames 0 m _ hm) ht
  simp at this

end Huira.SpiceIf
