import Verif.Loader.Model
import Verif.View.CollectProps
/-!
# C108: a loaded model has its parts where the file puts them
-/
set_option linter.unusedSimpArgs false
set_option linter.unusedVariables false
namespace Huira.Loader
open V3 Rot Xform

/-! ## Specification -/

/-- The affine map a file's node matrix stands for. -/
noncomputable def AiMat.apply (m : AiMat) (p : V3) : V3 :=
  ⟨m.a1 * p.x + m.a2 * p.y + m.a3 * p.z + m.a4, m.b1 * p.x + m.b2 * p.y + m.b3 * p.z + m.b4,
   m.c1 * p.x + m.c2 * p.y + m.c3 * p.z + m.c4⟩

def AiMat.col0 (m : AiMat) : V3 := ⟨m.a1, m.b1, m.c1⟩
def AiMat.col1 (m : AiMat) : V3 := ⟨m.a2, m.b2, m.c2⟩
def AiMat.col2 (m : AiMat) : V3 := ⟨m.a3, m.b3, m.c3⟩

/-- The signed volume of the unit cube's image. -/
noncomputable def AiMat.volume (m : AiMat) : ℝ := dot m.col0 (cross m.col1 m.col2)

/-- Translation, rotation and positive scale: the axes stay perpendicular, none shrinks below 1e-10, and the map is not a reflection. -/
structure TRS (m : AiMat) : Prop where
  o01 : dot m.col0 m.col1 = 0
  o02 : dot m.col0 m.col2 = 0
  o12 : dot m.col1 m.col2 = 0
  s0 : 1e-10 < len m.col0
  s1 : 1e-10 < len m.col1
  s2 : 1e-10 < len m.col2
  right : 0 < m.volume

/-- The same scale in all directions. -/
def SameScale (m : AiMat) : Prop := len m.col0 = len m.col1 ∧ len m.col1 = len m.col2

/-- The matrices of a node and of all nodes above it, applied to a point of the node's own space. -/
noncomputable def chain (ms : List AiMat) (p : V3) : V3 := ms.foldr AiMat.apply p

mutual
/-- What the file puts where: every mesh mentioned by a node, with the matrices of the nodes from the root down to that node. -/
def placed : AiNode → List (Nat × List AiMat)
  | .mk m meshes children => meshes.map (fun i => (i, [m])) ++ (placedList children).map fun x => (x.1, m :: x.2)
def placedList : List AiNode → List (Nat × List AiMat)
  | [] => []
  | n :: ns => placed n ++ placedList ns
end

mutual
/-- Every node has translation, rotation and positive scale, every node with children scales uniformly. -/
def Rigid : AiNode → Prop
  | .mk m _ children => TRS m ∧ (children ≠ [] → SameScale m) ∧ RigidList children
def RigidList : List AiNode → Prop
  | [] => True
  | n :: ns => Rigid n ∧ RigidList ns
end

/-! ## One node -/

theorem len_eq (c : V3) : Real.sqrt (c.x * c.x + c.y * c.y + c.z * c.z) = len c := rfl

theorem unitCol_eq {c : V3} {s : ℝ} (h : 1e-10 < s) : unitCol c s = (1 / s) * c := by
  unfold unitCol
  rw [if_pos h]
  ext <;> simp <;> ring

theorem convert_eq (m : AiMat) : convertTransform m =
    (setMatrix ⟨unitCol m.col0 (len m.col0), unitCol m.col1 (len m.col1), unitCol m.col2 (len m.col2)⟩).map fun r =>
      { Transform.default with position := ⟨m.a4, m.b4, m.c4⟩, rotation := r, scale := ⟨len m.col0, len m.col1, len m.col2⟩ } := rfl

theorem pos_of (h : (1e-10 : ℝ) < s) : 0 < s := lt_trans (by norm_num) h

theorem apply_cols (m : AiMat) (p : V3) :
    m.apply p = (p.x * m.col0 + p.y * m.col1 + p.z * m.col2) + ⟨m.a4, m.b4, m.c4⟩ := by
  ext <;> simp [AiMat.apply, AiMat.col0, AiMat.col1, AiMat.col2] <;> ring

/-- An orthogonal right-handed frame of unit vectors. -/
theorem ortho_of {x y z : V3} (xx : dot x x = 1) (yy : dot y y = 1) (zz : dot z z = 1) (xy : dot x y = 0) (xz : dot x z = 0)
    (yz : dot y z = 0) (hv : 0 < dot x (cross y z)) : Ortho ⟨x, y, z⟩ := by
  have key : z = dot x (cross y z) * cross x y := by
    have h1 : dot x (cross y z) = dot z (cross x y) := by simp only [dot, cross]; ring
    rw [h1]
    -- z is parallel to x × y
    have e : cross (cross x y) z = zero := by
      have : cross (cross x y) z = dot x z * y - dot y z * x := by ext <;> simp [cross, dot] <;> ring
      rw [this, xz, yz]; ext <;> simp [zero]
    have n2 : dot (cross x y) (cross x y) = 1 := by
      have : dot (cross x y) (cross x y) = dot x x * dot y y - dot x y * dot x y := by simp only [dot, cross]; ring
      rw [this, xx, yy, xy]; norm_num
    have t : dot (cross x y) (cross x y) * z = dot z (cross x y) * cross x y - cross (cross x y) (cross (cross x y) z) := by
      ext <;> simp [cross, dot] <;> ring
    rw [n2, e] at t
    have e2 : cross (cross x y) zero = zero := by ext <;> simp [cross, zero]
    rw [e2] at t
    have : (1 : ℝ) * z = z := by ext <;> simp
    rw [this] at t
    rw [t]
    have s0 : ∀ a : V3, a - zero = a := by intro a; ext <;> simp [zero]
    rw [s0, dot_smul_left, n2, mul_one]
  generalize hv' : dot x (cross y z) = v at *
  have n2 : dot (cross x y) (cross x y) = 1 := by
    have : dot (cross x y) (cross x y) = dot x x * dot y y - dot x y * dot x y := by simp only [dot, cross]; ring
    rw [this, xx, yy, xy]; norm_num
  have hv1 : v = 1 := by
    rw [key, dot_smul_left, dot_smul_right, n2] at zz
    nlinarith
  refine ⟨xx, yy, xy, ?_⟩
  rw [hv1] at key
  show z = cross x y
  conv_lhs => rw [key]
  ext <;> simp

/-- **C108, one node.** A node matrix made of a translation, a rotation and positive scales is converted without loss: the node's
transform maps every point as the file's matrix does.  It is at rest. -/
theorem C108_node_partial (m : AiMat) (h : TRS m) : ∃ t, convertTransform m = some t ∧ Valid t ∧ (∀ p, t.applyPoint p = m.apply p) ∧
    (SameScale m → Uniform t) ∧ t.velocity = ⟨0, 0, 0⟩ ∧ t.angularVelocity = ⟨0, 0, 0⟩ := by
  have p0 := pos_of h.s0
  have p1 := pos_of h.s1
  have p2 := pos_of h.s2
  have d0 := len_sq m.col0
  have d1 := len_sq m.col1
  have d2 := len_sq m.col2
  have ho : Ortho ⟨(1 / len m.col0) * m.col0, (1 / len m.col1) * m.col1, (1 / len m.col2) * m.col2⟩ := by
    apply ortho_of
    · rw [dot_smul_left, dot_smul_right, ← d0]; field_simp
    · rw [dot_smul_left, dot_smul_right, ← d1]; field_simp
    · rw [dot_smul_left, dot_smul_right, ← d2]; field_simp
    · rw [dot_smul_left, dot_smul_right, h.o01]; ring
    · rw [dot_smul_left, dot_smul_right, h.o02]; ring
    · rw [dot_smul_left, dot_smul_right, h.o12]; ring
    · have : dot ((1 / len m.col0) * m.col0) (cross ((1 / len m.col1) * m.col1) ((1 / len m.col2) * m.col2)) =
          (1 / len m.col0) * (1 / len m.col1) * (1 / len m.col2) * m.volume := by
        simp only [AiMat.volume, dot, cross, hmul_x, hmul_y, hmul_z]; ring
      rw [this]
      have := h.right
      positivity
  rw [convert_eq, unitCol_eq h.s0, unitCol_eq h.s1, unitCol_eq h.s2, setMatrix_ortho ho]
  refine ⟨_, rfl, ⟨ho.isRotation, p0.ne', p1.ne', p2.ne'⟩, ?_, fun e => ⟨e.1, e.2⟩, rfl, rfl⟩
  intro p
  rw [apply_cols]
  simp only [Transform.applyPoint]
  congr 1
  ext <;> simp [M3.mulVec] <;> field_simp

theorem node_iff (m : AiMat) (s0 : 1e-10 < len m.col0) (s1 : 1e-10 < len m.col1) (s2 : 1e-10 < len m.col2) :
    (∃ t, convertTransform m = some t ∧ ∀ p, t.applyPoint p = m.apply p) ↔ TRS m := by
  constructor
  · rintro ⟨t, ht, hp⟩
    rw [convert_eq, Option.map_eq_some_iff] at ht
    obtain ⟨r, hr, rfl⟩ := ht
    have ho := setMatrix_some hr
    have hz := ho.zz
    have h02 : dot r.c0 r.c2 = 0 := by rw [ho.z, dot_cross_left]
    have h12 : dot r.c1 r.c2 = 0 := by rw [ho.z, dot_cross_right]
    have p0 := pos_of s0
    have p1 := pos_of s1
    have p2 := pos_of s2
    have hp' : ∀ p : V3, r.mulVec (had p ⟨len m.col0, len m.col1, len m.col2⟩) = p.x * m.col0 + p.y * m.col1 + p.z * m.col2 := by
      intro p
      have := hp p
      rw [apply_cols] at this
      simp only [Transform.applyPoint] at this
      rw [V3.ext_iff] at this ⊢
      simp only [add_x, add_y, add_z] at this ⊢
      exact ⟨by linarith [this.1], by linarith [this.2.1], by linarith [this.2.2]⟩
    have c0 : m.col0 = len m.col0 * r.c0 := by
      have := hp' ⟨1, 0, 0⟩
      rw [V3.ext_iff] at this ⊢
      simp [M3.mulVec] at this ⊢
      exact ⟨this.1.symm, this.2.1.symm, this.2.2.symm⟩
    have c1 : m.col1 = len m.col1 * r.c1 := by
      have := hp' ⟨0, 1, 0⟩
      rw [V3.ext_iff] at this ⊢
      simp [M3.mulVec] at this ⊢
      exact ⟨this.1.symm, this.2.1.symm, this.2.2.symm⟩
    have c2 : m.col2 = len m.col2 * r.c2 := by
      have := hp' ⟨0, 0, 1⟩
      rw [V3.ext_iff] at this ⊢
      simp [M3.mulVec] at this ⊢
      exact ⟨this.1.symm, this.2.1.symm, this.2.2.symm⟩
    refine ⟨?_, ?_, ?_, s0, s1, s2, ?_⟩
    · rw [c0, c1, dot_smul_left, dot_smul_right, ho.xy]; ring
    · rw [c0, c2, dot_smul_left, dot_smul_right, h02]; ring
    · rw [c1, c2, dot_smul_left, dot_smul_right, h12]; ring
    · have e : m.volume = len m.col0 * len m.col1 * len m.col2 * dot r.c0 (cross r.c1 r.c2) := by
        unfold AiMat.volume
        generalize len m.col0 = x at *
        generalize len m.col1 = y at *
        generalize len m.col2 = z at *
        rw [c0, c1, c2]
        simp only [dot, cross, hmul_x, hmul_y, hmul_z]; ring
      rw [e, ← det_eq, ho.det]
      positivity
  · intro h
    obtain ⟨t, h1, _, h2, _⟩ := C108_node_partial m h
    exact ⟨t, h1, h2⟩

theorem unitCol_bound (c : V3) : dot (unitCol c (len c)) (unitCol c (len c)) ≤ 1 ∧
    (len c ≤ 1e-10 → dot (unitCol c (len c)) (unitCol c (len c)) ≤ 1e-20) ∧
    ∃ k : ℝ, 0 < k ∧ unitCol c (len c) = k * c := by
  by_cases h : (1e-10 : ℝ) < len c
  · have p := pos_of h
    have d := len_sq c
    rw [unitCol_eq h]
    refine ⟨le_of_eq ?_, fun h' => absurd h' (not_le.2 h), _, one_div_pos.2 p, rfl⟩
    rw [dot_smul_left, dot_smul_right, ← d]; field_simp
  · have e : unitCol c (len c) = c := by unfold unitCol; rw [if_neg h]
    rw [e]
    have d := len_sq c
    have n : 0 ≤ len c := Real.sqrt_nonneg _
    have h' : len c ≤ 1e-10 := not_lt.1 h
    have : dot c c ≤ 1e-20 := by rw [← d]; nlinarith
    exact ⟨this.trans (by norm_num), fun _ => this, 1, one_pos, by ext <;> simp⟩

theorem triple_bound (x y z : V3) : dot x (cross y z) * dot x (cross y z) ≤ dot x x * (dot y y * dot z z) := by
  refine (cauchy_schwarz x (cross y z)).trans (mul_le_mul_of_nonneg_left ?_ (dot_self_nonneg x))
  have : dot (cross y z) (cross y z) = dot y y * dot z z - dot y z * dot y z := by simp only [dot, cross]; ring
  rw [this]; nlinarith [mul_self_nonneg (dot y z)]

/-- **C108, mirrored and flattened nodes are refused.** A node matrix that mirrors space, flattens it, or shrinks an axis below 1e-10
makes the load throw. -/
theorem C108_refused (m : AiMat) (h : m.volume ≤ 0 ∨ len m.col0 ≤ 1e-10 ∨ len m.col1 ≤ 1e-10 ∨ len m.col2 ≤ 1e-10) :
    convertTransform m = none := by
  rw [convert_eq, Option.map_eq_none_iff]
  obtain ⟨b0, t0, k0, hk0, e0⟩ := unitCol_bound m.col0
  obtain ⟨b1, t1, k1, hk1, e1⟩ := unitCol_bound m.col1
  obtain ⟨b2, t2, k2, hk2, e2⟩ := unitCol_bound m.col2
  unfold setMatrix
  rw [if_pos]
  rw [det_eq]
  simp only []
  rcases h with h | h
  · have : dot (unitCol m.col0 (len m.col0)) (cross (unitCol m.col1 (len m.col1)) (unitCol m.col2 (len m.col2))) =
        k0 * k1 * k2 * m.volume := by
      rw [e0, e1, e2]
      simp only [AiMat.volume, dot, cross, hmul_x, hmul_y, hmul_z]; ring
    rw [this]
    have hk : 0 < k0 * k1 * k2 := by positivity
    have : k0 * k1 * k2 * m.volume ≤ 0 := by nlinarith
    rw [abs_of_neg (by linarith)]
    norm_num; linarith
  · have tb := triple_bound (unitCol m.col0 (len m.col0)) (unitCol m.col1 (len m.col1)) (unitCol m.col2 (len m.col2))
    have n0 := dot_self_nonneg (unitCol m.col0 (len m.col0))
    have n1 := dot_self_nonneg (unitCol m.col1 (len m.col1))
    have n2 := dot_self_nonneg (unitCol m.col2 (len m.col2))
    generalize dot (unitCol m.col0 (len m.col0)) (cross (unitCol m.col1 (len m.col1)) (unitCol m.col2 (len m.col2))) = v at *
    generalize dot (unitCol m.col0 (len m.col0)) (unitCol m.col0 (len m.col0)) = x at *
    generalize dot (unitCol m.col1 (len m.col1)) (unitCol m.col1 (len m.col1)) = y at *
    generalize dot (unitCol m.col2 (len m.col2)) (unitCol m.col2 (len m.col2)) = z at *
    have hv : v * v ≤ 1e-20 := by
      refine tb.trans ?_
      rcases h with h | h | h
      · calc x * (y * z) ≤ 1e-20 * (1 * 1) := by
              apply mul_le_mul (t0 h) _ (by positivity) (by norm_num); exact mul_le_mul b1 b2 n2 (by norm_num)
          _ = 1e-20 := by norm_num
      · calc x * (y * z) ≤ 1 * (1e-20 * 1) := by
              apply mul_le_mul b0 _ (by positivity) (by norm_num); exact mul_le_mul (t1 h) b2 n2 (by norm_num)
          _ = 1e-20 := by norm_num
      · calc x * (y * z) ≤ 1 * (1 * 1e-20) := by
              apply mul_le_mul b0 _ (by positivity) (by norm_num); exact mul_le_mul b1 (t2 h) n2 (by norm_num)
          _ = 1e-20 := by norm_num
    have : v ≤ 1e-10 := by
      by_contra hc
      push Not at hc
      nlinarith
    rw [abs_of_neg (by norm_num at this ⊢; linarith)]
    norm_num at this ⊢; linarith

/-- **C108, exactly which nodes are right.** The converted transform exists and maps every point as the file's matrix does if and only
if the matrix is a translation, a rotation and positive scales (axes longer than 1e-10). -/
theorem C108_node_iff (m : AiMat) : (∃ t, convertTransform m = some t ∧ ∀ p, t.applyPoint p = m.apply p) ↔ TRS m := by
  by_cases h : len m.col0 ≤ 1e-10 ∨ len m.col1 ≤ 1e-10 ∨ len m.col2 ≤ 1e-10
  · have hn := C108_refused m (Or.inr h)
    constructor
    · rintro ⟨t, ht, _⟩; rw [hn] at ht; cases ht
    · intro ht
      rcases h with h | h | h
      · exact absurd ht.s0 (not_lt.2 h)
      · exact absurd ht.s1 (not_lt.2 h)
      · exact absurd ht.s2 (not_lt.2 h)
  · push Not at h
    exact node_iff m h.1 h.2.1 h.2.2

/-- A half turn about x, twice as large, moved by (1,2,3). -/
def exTRS : AiMat := ⟨2, 0, 0, 1, 0, -2, 0, 2, 0, 0, -2, 3⟩

theorem sqrt4 : Real.sqrt 4 = 2 := by rw [show (4 : ℝ) = 2 * 2 by norm_num]; exact Real.sqrt_mul_self (by norm_num)

theorem exTRS_ok : TRS exTRS ∧ SameScale exTRS := by
  have e0 : len exTRS.col0 = 2 := by rw [← sqrt4]; unfold len; congr 1; norm_num [exTRS, AiMat.col0, dot]
  have e1 : len exTRS.col1 = 2 := by rw [← sqrt4]; unfold len; congr 1; norm_num [exTRS, AiMat.col1, dot]
  have e2 : len exTRS.col2 = 2 := by rw [← sqrt4]; unfold len; congr 1; norm_num [exTRS, AiMat.col2, dot]
  refine ⟨⟨?_, ?_, ?_, ?_, ?_, ?_, ?_⟩, by rw [e0, e1], by rw [e1, e2]⟩
  · norm_num [exTRS, AiMat.col0, AiMat.col1, dot]
  · norm_num [exTRS, AiMat.col0, AiMat.col2, dot]
  · norm_num [exTRS, AiMat.col1, AiMat.col2, dot]
  · rw [e0]; norm_num
  · rw [e1]; norm_num
  · rw [e2]; norm_num
  · norm_num [exTRS, AiMat.volume, AiMat.col0, AiMat.col1, AiMat.col2, dot, cross]

/-- The hypothesis of `C108_node_partial` is met, and the point (1,0,0) goes to (3,2,3). -/
example : ∃ t, convertTransform exTRS = some t ∧ t.applyPoint ⟨1, 0, 0⟩ = ⟨3, 2, 3⟩ := by
  obtain ⟨t, h1, _, h2, _⟩ := C108_node_partial exTRS exTRS_ok.1
  refine ⟨t, h1, ?_⟩
  rw [h2]
  ext <;> norm_num [exTRS, AiMat.apply]

/-- **C108 is violated by sheared nodes**: a node slanted by a little over two degrees is accepted, and its points move. -/
theorem C108_shear : ∃ (m : AiMat) (t : Transform), m.volume ≠ 0 ∧ convertTransform m = some t ∧ ∃ p, t.applyPoint p ≠ m.apply p := by
  have l0 : len (⟨1, 0, 0⟩ : V3) = 1 := by unfold len dot; norm_num
  have l1 : len (⟨100 / 2501, 2499 / 2501, 0⟩ : V3) = 1 := by unfold len dot; norm_num
  have l2 : len (⟨0, 0, 1⟩ : V3) = 1 := by unfold len dot; norm_num
  let m : AiMat := ⟨1, 100 / 2501, 0, 0, 0, 2499 / 2501, 0, 0, 0, 0, 1, 0⟩
  have hs : ∃ t, convertTransform m = some t := by
    have e : ∀ c : V3, unitCol c 1 = c := by intro c; rw [unitCol_eq (by norm_num)]; ext <;> simp
    rw [convert_eq]
    simp only [m, AiMat.col0, AiMat.col1, AiMat.col2, l0, l1, l2, e]
    unfold setMatrix
    rw [if_neg]
    · exact ⟨_, rfl⟩
    · norm_num [M3.det, abs_of_neg]
  obtain ⟨t, ht⟩ := hs
  refine ⟨m, t, ?_, ht, ?_⟩
  · norm_num [m, AiMat.volume, AiMat.col0, AiMat.col1, AiMat.col2, dot, cross]
  · by_contra hc
    push Not at hc
    have := (C108_node_iff m).1 ⟨t, ht, hc⟩
    have := this.o01
    norm_num [m, AiMat.col0, AiMat.col1, dot] at this

end Huira.Loader
