import Verif.Core.RotationProps
import Mathlib.Tactic.Positivity

set_option linter.unusedSimpArgs false
/-!
# How much `set_matrix_` moves a matrix that is nearly a rotation

Real-number lemmas used by `RotationFloat.lean`: lengths, normalisation, Gram–Schmidt (rotation.ipp 547-568) and the
determinant of a matrix close to a rotation.
-/
namespace Huira.RotFl

open V3 Huira.Rot

/-- Two matrices are within `e` of each other: they send every vector to places at most `e` times its length apart. -/
def Near (e : ℝ) (a b : M3) : Prop := ∀ v : V3, len (a.mulVec v - b.mulVec v) ≤ e * len v

theorem len_nn (a : V3) : 0 ≤ len a := Real.sqrt_nonneg _
theorem len_sq' (a : V3) : len a ^ 2 = dot a a := by rw [sq]; exact len_sq a

theorem dot_le (a b : V3) : |dot a b| ≤ len a * len b := by
  apply abs_le_of_sq_le_sq _ (mul_nonneg (len_nn a) (len_nn b))
  rw [mul_pow, len_sq', len_sq']
  have := cauchy_schwarz a b
  nlinarith

theorem len_le_of_sq {a : V3} {c : ℝ} (hc : 0 ≤ c) (h : dot a a ≤ c ^ 2) : len a ≤ c := by
  rw [← len_sq'] at h
  exact abs_le_of_sq_le_sq' h hc |>.2

theorem len_add (a b : V3) : len (a + b) ≤ len a + len b := by
  apply len_le_of_sq (add_nonneg (len_nn a) (len_nn b))
  have h := (abs_le.mp (dot_le a b)).2
  have e : dot (a + b) (a + b) = dot a a + 2 * dot a b + dot b b := by simp only [dot, add_x, add_y, add_z]; ring
  rw [e, ← len_sq' a, ← len_sq' b]
  nlinarith

theorem len_smul (k : ℝ) (a : V3) : len (k * a) = |k| * len a := by
  unfold len
  rw [dot_smul_left, dot_smul_right, ← mul_assoc, Real.sqrt_mul (mul_self_nonneg k), Real.sqrt_mul_self_eq_abs]

theorem len_sub_comm (a b : V3) : len (a - b) = len (b - a) := by
  unfold len; congr 1; simp only [dot, sub_x, sub_y, sub_z]; ring

theorem len_tri (a b c : V3) : len (a - c) ≤ len (a - b) + len (b - c) := by
  have h := len_add (a - b) (b - c)
  have e : (a - b) + (b - c) = a - c := by ext <;> simp
  rwa [e] at h

theorem len_cross (a b : V3) : len (cross a b) ≤ len a * len b := by
  apply len_le_of_sq (mul_nonneg (len_nn a) (len_nn b))
  rw [mul_pow, len_sq', len_sq']
  have : dot (cross a b) (cross a b) = dot a a * dot b b - dot a b ^ 2 := by simp only [dot, cross]; ring
  rw [this]; nlinarith [sq_nonneg (dot a b)]

theorem len_unit {a : V3} (h : dot a a = 1) : len a = 1 := by unfold len; rw [h]; simp

theorem len_zero : len zero = 0 := by simp [len, dot, zero]

theorem comp_le (a : V3) : |a.x| ≤ len a ∧ |a.y| ≤ len a ∧ |a.z| ≤ len a := by
  refine ⟨?_, ?_, ?_⟩ <;> apply abs_le_of_sq_le_sq _ (len_nn a) <;> rw [len_sq'] <;> simp only [dot] <;>
    nlinarith [sq_nonneg a.x, sq_nonneg a.y, sq_nonneg a.z]

/-- components within `e` give a length of at most `7/4 e` (`√3 < 7/4`) -/
theorem len_of_comp {a : V3} {e : ℝ} (hx : |a.x| ≤ e) (hy : |a.y| ≤ e) (hz : |a.z| ≤ e) : len a ≤ 7 / 4 * e := by
  have he : 0 ≤ e := le_trans (abs_nonneg _) hx
  apply len_le_of_sq (by positivity)
  have h1 := sq_le_sq' (abs_le.mp hx).1 (abs_le.mp hx).2
  have h2 := sq_le_sq' (abs_le.mp hy).1 (abs_le.mp hy).2
  have h3 := sq_le_sq' (abs_le.mp hz).1 (abs_le.mp hz).2
  simp only [dot]
  nlinarith

theorem len_near {a b : V3} {e : ℝ} (h : len (a - b) ≤ e) : |len a - len b| ≤ e := by
  have h1 := len_add (a - b) b
  have h2 := len_add (b - a) a
  have e1 : (a - b) + b = a := by ext <;> simp
  have e2 : (b - a) + a = b := by ext <;> simp
  rw [e1] at h1
  rw [e2, len_sub_comm] at h2
  rw [abs_le]; constructor <;> linarith

/-- Normalising two vectors of length at least `49/50` moves them apart by at most the factor `1.021`. -/
theorem normalize_near {a b : V3} {e : ℝ} (ha : 49 / 50 ≤ len a) (hb : 49 / 50 ≤ len b) (h : len (a - b) ≤ e) :
    len (normalize a - normalize b) ≤ 1.021 * e := by
  have he : 0 ≤ e := le_trans (len_nn _) h
  have ha0 : a ≠ zero := by intro h0; rw [h0, len_zero] at ha; norm_num at ha
  have hb0 : b ≠ zero := by intro h0; rw [h0, len_zero] at hb; norm_num at hb
  have na := dot_normalize ha0
  have nb := dot_normalize hb0
  apply len_le_of_sq (by positivity)
  have pa := len_pos ha0
  have pb := len_pos hb0
  have e1 : dot (normalize a - normalize b) (normalize a - normalize b) = 2 - 2 * dot (normalize a) (normalize b) := by
    have : dot (normalize a - normalize b) (normalize a - normalize b) =
      dot (normalize a) (normalize a) + dot (normalize b) (normalize b) - 2 * dot (normalize a) (normalize b) := by
      simp only [dot, sub_x, sub_y, sub_z]; ring
    rw [this, na, nb]; ring
  have e2 : len a * len b * dot (normalize a) (normalize b) = dot a b := by
    rw [normalize_eq, normalize_eq, dot_smul_left, dot_smul_right]; field_simp
  have e3 : dot (a - b) (a - b) = len a ^ 2 + len b ^ 2 - 2 * dot a b := by
    rw [len_sq', len_sq']; simp only [dot, sub_x, sub_y, sub_z]; ring
  have h3 : dot (a - b) (a - b) ≤ e ^ 2 := by
    rw [← len_sq']; exact pow_le_pow_left₀ (len_nn _) h 2
  set n := dot (normalize a - normalize b) (normalize a - normalize b) with hn
  have hn0 : 0 ≤ n := dot_self_nonneg _
  have key : len a * len b * n ≤ e ^ 2 := by
    have : len a * len b * n = 2 * (len a * len b) - 2 * dot a b := by rw [e1, ← e2]; ring
    rw [this]; nlinarith [sq_nonneg (len a - len b)]
  have h4 : 0.9604 * n ≤ e ^ 2 := by
    have : 0.9604 ≤ len a * len b := by nlinarith
    nlinarith [mul_le_mul_of_nonneg_right this hn0]
  nlinarith [sq_nonneg e]

/-- `normalize` of a vector near a unit vector -/
theorem normalize_near_unit {a u : V3} {e : ℝ} (hu : dot u u = 1) (he : e ≤ 1 / 50) (h : len (a - u) ≤ e) :
    len (normalize a - u) ≤ 1.021 * e := by
  have h1 := abs_le.mp (len_near h)
  rw [len_unit hu] at h1
  have := normalize_near (a := a) (b := u) (by linarith [h1.1]) (by rw [len_unit hu]; norm_num) h
  rwa [normalize_unit hu] at this

theorem cross_sub (a b c d : V3) : cross a b - cross c d = cross (a - c) b + cross c (b - d) := by
  ext <;> simp [cross] <;> ring

/-- The columns of a matrix near a rotation. -/
theorem Near.cols {e : ℝ} {a b : M3} (h : Near e a b) :
    len (a.c0 - b.c0) ≤ e ∧ len (a.c1 - b.c1) ≤ e ∧ len (a.c2 - b.c2) ≤ e := by
  have l0 : len ⟨1, 0, 0⟩ = 1 := by simp [len, dot]
  have l1 : len ⟨0, 1, 0⟩ = 1 := by simp [len, dot]
  have l2 : len ⟨0, 0, 1⟩ = 1 := by simp [len, dot]
  have h0 := h ⟨1, 0, 0⟩
  have h1 := h ⟨0, 1, 0⟩
  have h2 := h ⟨0, 0, 1⟩
  rw [l0, mul_one] at h0
  rw [l1, mul_one] at h1
  rw [l2, mul_one] at h2
  have e0 : ∀ m : M3, m.mulVec ⟨1, 0, 0⟩ = m.c0 := by intro m; ext <;> simp
  have e1 : ∀ m : M3, m.mulVec ⟨0, 1, 0⟩ = m.c1 := by intro m; ext <;> simp
  have e2 : ∀ m : M3, m.mulVec ⟨0, 0, 1⟩ = m.c2 := by intro m; ext <;> simp
  rw [e0, e0] at h0
  rw [e1, e1] at h1
  rw [e2, e2] at h2
  exact ⟨h0, h1, h2⟩

theorem near_of_cols {a b : M3} {d0 d1 d2 e : ℝ} (he : 0 ≤ e) (h0 : len (a.c0 - b.c0) ≤ d0)
    (h1 : len (a.c1 - b.c1) ≤ d1) (h2 : len (a.c2 - b.c2) ≤ d2) (hs : d0 ^ 2 + d1 ^ 2 + d2 ^ 2 ≤ e ^ 2) : Near e a b := by
  intro v
  have p0 := le_trans (len_nn _) h0
  have p1 := le_trans (len_nn _) h1
  have p2 := le_trans (len_nn _) h2
  have e1 : a.mulVec v - b.mulVec v = (v.x * (a.c0 - b.c0) + v.y * (a.c1 - b.c1)) + v.z * (a.c2 - b.c2) := by
    ext <;> simp <;> ring
  rw [e1]
  have t1 := len_add (v.x * (a.c0 - b.c0) + v.y * (a.c1 - b.c1)) (v.z * (a.c2 - b.c2))
  have t2 := len_add (v.x * (a.c0 - b.c0)) (v.y * (a.c1 - b.c1))
  rw [len_smul, len_smul] at t2
  rw [len_smul] at t1
  have m0 := mul_le_mul_of_nonneg_left h0 (abs_nonneg v.x)
  have m1 := mul_le_mul_of_nonneg_left h1 (abs_nonneg v.y)
  have m2 := mul_le_mul_of_nonneg_left h2 (abs_nonneg v.z)
  have cs := dot_le ⟨|v.x|, |v.y|, |v.z|⟩ ⟨d0, d1, d2⟩
  have l1 : len ⟨|v.x|, |v.y|, |v.z|⟩ = len v := by unfold len dot; simp
  have l2 : len ⟨d0, d1, d2⟩ ≤ e := len_le_of_sq he (by simp only [dot]; nlinarith)
  rw [l1] at cs
  have cs' := (abs_le.mp cs).2
  simp only [dot] at cs'
  have := mul_le_mul_of_nonneg_left l2 (len_nn v)
  linarith

theorem Near.refl (a : M3) : Near 0 a a := by
  intro v
  have : a.mulVec v - a.mulVec v = zero := by ext <;> simp [zero]
  rw [this, len_zero]; simp

theorem Near.mono {e e' : ℝ} {a b : M3} (h : Near e a b) (he : e ≤ e') : Near e' a b :=
  fun v => le_trans (h v) (mul_le_mul_of_nonneg_right he (len_nn v))

theorem Near.trans {e f : ℝ} {a b c : M3} (h : Near e a b) (h' : Near f b c) : Near (e + f) a c := by
  intro v
  have := len_tri (a.mulVec v) (b.mulVec v) (c.mulVec v)
  linarith [h v, h' v, add_mul e f (len v)]

theorem Near.symm {e : ℝ} {a b : M3} (h : Near e a b) : Near e b a := by
  intro v; rw [len_sub_comm]; exact h v

theorem mulVec_sub (m : M3) (u v : V3) : m.mulVec (u - v) = m.mulVec u - m.mulVec v := by
  ext <;> simp <;> ring

theorem len_rot {m : M3} (h : Ortho m) (v : V3) : len (m.mulVec v) = len v := by
  unfold len; rw [h.isRotation.1]

/-- products of matrices near rotations -/
theorem Near.mul {e f : ℝ} {a b g h : M3} (ha : Near e a g) (hb : Near f b h) (hg : Ortho g) (hh : Ortho h) (he : 0 ≤ e) :
    Near (e + f + e * f) (a.mul b) (g.mul h) := by
  intro v
  rw [mul_mulVec, mul_mulVec]
  have t := len_tri (a.mulVec (b.mulVec v)) (g.mulVec (b.mulVec v)) (g.mulVec (h.mulVec v))
  have h1 := ha (b.mulVec v)
  have h2 := hb v
  rw [← mulVec_sub, len_rot hg] at t
  have h3 := (abs_le.mp (len_near h2)).2
  rw [len_rot hh] at h3
  nlinarith [mul_le_mul_of_nonneg_left h3 he]

/-- products of exact rotations -/
theorem Near.mul_rot {e f : ℝ} {a b g h : M3} (ha : Near e a g) (hb : Near f b h) (hg : Ortho g) (hb' : Ortho b) :
    Near (e + f) (a.mul b) (g.mul h) := by
  intro v
  rw [mul_mulVec, mul_mulVec]
  have t := len_tri (a.mulVec (b.mulVec v)) (g.mulVec (b.mulVec v)) (g.mulVec (h.mulVec v))
  have h1 := ha (b.mulVec v)
  have h2 := hb v
  rw [← mulVec_sub, len_rot hg] at t
  rw [len_rot hb'] at h1
  linarith [add_mul e f (len v)]

theorem dot_transpose (m : M3) (u v : V3) : dot u (m.mulVec v) = dot (m.transpose.mulVec u) v := by
  rw [transpose_mulVec]; simp only [dot, mulVec_x, mulVec_y, mulVec_z]; ring

theorem Near.transpose {e : ℝ} {a b : M3} (h : Near e a b) (he : 0 ≤ e) : Near e a.transpose b.transpose := by
  intro v
  set w := a.transpose.mulVec v - b.transpose.mulVec v with hw
  have h1 : len w ^ 2 = dot v (a.mulVec w - b.mulVec w) := by
    have e1 : dot w w = dot (a.transpose.mulVec v) w - dot (b.transpose.mulVec v) w := by
      have : w.x = (a.transpose.mulVec v).x - (b.transpose.mulVec v).x ∧ w.y = (a.transpose.mulVec v).y -
          (b.transpose.mulVec v).y ∧ w.z = (a.transpose.mulVec v).z - (b.transpose.mulVec v).z := ⟨rfl, rfl, rfl⟩
      simp only [dot]
      linear_combination w.x * this.1 + w.y * this.2.1 + w.z * this.2.2
    rw [len_sq', e1, dot_sub_right v, dot_transpose a v, dot_transpose b v]
  have h2 := (abs_le.mp (dot_le v (a.mulVec w - b.mulVec w))).2
  have h3 := mul_le_mul_of_nonneg_left (h w) (len_nn v)
  by_contra hc
  push Not at hc
  have hp : 0 < len w := lt_of_le_of_lt (mul_nonneg he (len_nn v)) hc
  nlinarith

/-- **Gram–Schmidt is stable.** A matrix within `e ≤ 10⁻³` of a rotation is moved to within `6 e` of it. -/
theorem orthonormalize_near {e : ℝ} {p h : M3} (hh : Ortho h) (he : e ≤ 1 / 1000) (hp : Near e p h) :
    Near (6 * e) (orthonormalize p) h := by
  obtain ⟨h0, h1, _⟩ := hp.cols
  have he0 : 0 ≤ e := le_trans (len_nn _) h0
  have hx := normalize_near_unit hh.xx (by linarith) h0
  set x := normalize p.c0 with hxd
  have hx0 : p.c0 ≠ zero := by
    intro h00
    have := abs_le.mp (len_near h0)
    rw [h00, len_zero, len_unit hh.xx] at this
    linarith [this.1]
  have lx : len x = 1 := len_unit (dot_normalize hx0)
  have l1 : len h.c1 = 1 := len_unit hh.yy
  have l0 : len h.c0 = 1 := len_unit hh.xx
  -- the part of the second column along the first
  have ht : |dot p.c1 x| ≤ 2.03 * e := by
    have e1 : dot p.c1 x = dot (p.c1 - h.c1) x + dot h.c1 (x - h.c0) := by
      rw [dot_sub_right]
      have := hh.xy
      rw [dot_comm] at this
      rw [this]; simp only [dot, sub_x, sub_y, sub_z]; ring
    rw [e1]
    have a1 := dot_le (p.c1 - h.c1) x
    have a2 := dot_le h.c1 (x - h.c0)
    rw [lx] at a1
    rw [l1] at a2
    have := abs_add_le (dot (p.c1 - h.c1) x) (dot h.c1 (x - h.c0))
    linarith
  have hw : len ((p.c1 - dot p.c1 x * x) - h.c1) ≤ 3.03 * e := by
    have e1 : (p.c1 - dot p.c1 x * x) - h.c1 = (p.c1 - h.c1) + (-dot p.c1 x) * x := by ext <;> simp <;> ring
    rw [e1]
    have := len_add (p.c1 - h.c1) ((-dot p.c1 x) * x)
    rw [len_smul, abs_neg, lx] at this
    linarith
  have hy := normalize_near_unit hh.yy (by linarith) hw
  set y := normalize (p.c1 - dot p.c1 x * x) with hyd
  have hy' : |len y - 1| ≤ 1.021 * (3.03 * e) := by have := len_near hy; rwa [l1] at this
  have hz : len (cross x y - h.c2) ≤ 4.2 * e := by
    rw [hh.z, cross_sub]
    have t := len_add (cross (x - h.c0) y) (cross h.c0 (y - h.c1))
    have a1 := len_cross (x - h.c0) y
    have a2 := len_cross h.c0 (y - h.c1)
    rw [l0] at a2
    have ly : len y ≤ 1.01 := by linarith [(abs_le.mp hy').2]
    have := mul_le_mul hx ly (len_nn y) (by positivity)
    linarith
  exact near_of_cols (a := ⟨x, y, cross x y⟩) (by linarith) hx hy hz (by nlinarith [sq_nonneg e])

/-- **The determinant of a matrix near a rotation.** -/
theorem det_near {e : ℝ} {p h : M3} (hh : Ortho h) (he : e ≤ 1 / 1000) (hp : Near e p h) : |p.det - 1| ≤ 3.01 * e := by
  obtain ⟨h0, h1, h2⟩ := hp.cols
  have he0 : 0 ≤ e := le_trans (len_nn _) h0
  have l0 : len h.c0 = 1 := len_unit hh.xx
  have l1 : len h.c1 = 1 := len_unit hh.yy
  have l2 : len h.c2 = 1 := len_unit hh.zz
  have q1 := (abs_le.mp (len_near h1)).2
  have q2 := (abs_le.mp (len_near h2)).2
  have e1 : p.det - 1 = dot (p.c0 - h.c0) (cross p.c1 p.c2) + dot h.c0 (cross (p.c1 - h.c1) p.c2) +
      dot h.c0 (cross h.c1 (p.c2 - h.c2)) := by
    rw [← hh.det, det_eq, det_eq]
    simp only [dot, cross, sub_x, sub_y, sub_z]; ring
  have a1 := dot_le (p.c0 - h.c0) (cross p.c1 p.c2)
  have a2 := dot_le h.c0 (cross (p.c1 - h.c1) p.c2)
  have a3 := dot_le h.c0 (cross h.c1 (p.c2 - h.c2))
  have b1 := len_cross p.c1 p.c2
  have b2 := len_cross (p.c1 - h.c1) p.c2
  have b3 := len_cross h.c1 (p.c2 - h.c2)
  rw [l0, one_mul] at a2 a3
  rw [l1, one_mul] at b3
  have r1 : len p.c1 * len p.c2 ≤ 1.0021 := by
    have : len p.c1 ≤ 1.001 := by linarith
    have h2' : len p.c2 ≤ 1.001 := by linarith
    nlinarith [len_nn p.c1, len_nn p.c2]
  have r2 : len (p.c1 - h.c1) * len p.c2 ≤ 1.001 * e := by
    have h2' : len p.c2 ≤ 1.001 := by linarith
    have := mul_le_mul h1 h2' (len_nn _) he0
    linarith
  have r3 : len (p.c0 - h.c0) * len (cross p.c1 p.c2) ≤ e * 1.0021 :=
    mul_le_mul h0 (b1.trans r1) (len_nn _) he0
  rw [e1]
  have t1 := abs_add_le (dot (p.c0 - h.c0) (cross p.c1 p.c2) + dot h.c0 (cross (p.c1 - h.c1) p.c2))
    (dot h.c0 (cross h.c1 (p.c2 - h.c2)))
  have t2 := abs_add_le (dot (p.c0 - h.c0) (cross p.c1 p.c2)) (dot h.c0 (cross (p.c1 - h.c1) p.c2))
  linarith

end Huira.RotFl
