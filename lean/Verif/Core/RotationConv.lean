import Mathlib.Tactic.LinearCombination
import Mathlib.Tactic.Positivity
import Verif.Core.RotationProps

set_option linter.unusedSimpArgs false

/-!
# C63: Euler angles and quaternions
-/

namespace Huira.Rot

open V3

/-- Hamilton product, conjugate and squared norm. -/
def Quat.mul (p q : Quat) : Quat :=
  ⟨p.w * q.w - p.x * q.x - p.y * q.y - p.z * q.z, p.w * q.x + p.x * q.w + p.y * q.z - p.z * q.y,
   p.w * q.y - p.x * q.z + p.y * q.w + p.z * q.x, p.w * q.z + p.x * q.y - p.y * q.x + p.z * q.w⟩
def Quat.conj (q : Quat) : Quat := ⟨q.w, -q.x, -q.y, -q.z⟩
def Quat.neg (q : Quat) : Quat := ⟨-q.w, -q.x, -q.y, -q.z⟩
def Quat.Unit (q : Quat) : Prop := q.w * q.w + q.x * q.x + q.y * q.y + q.z * q.z = 1
/-- A vector as a pure quaternion. -/
def Quat.pure (v : V3) : Quat := ⟨0, v.x, v.y, v.z⟩

theorem mat3Cast_ortho {q : Quat} (h : q.Unit) : Ortho (mat3Cast q) := by
  unfold Quat.Unit at h
  obtain ⟨w, x, y, z⟩ := q
  simp only at h
  constructor <;> simp only [mat3Cast, dot, cross]
  · grind
  · grind
  · grind
  · rw [V3.ext_iff]
    refine ⟨?_, ?_, ?_⟩ <;> simp only [] <;> grind

/-- **C63, quaternions.** Every unit quaternion is accepted and the rotation maps `v` to `q v q*`; `q` and `-q` give the
same rotation. -/
theorem C63_quaternion (q : Quat) (h : q.Unit) :
    ∃ m, fromQuat q = some m ∧ fromQuat q.neg = some m ∧ fromShuster ⟨q.x, q.y, q.z, q.w⟩ = some m ∧
      ∀ v, (q.mul (.pure v)).mul q.conj = .pure (m.mulVec v) := by
  have hn : mat3Cast q.neg = mat3Cast q := by simp [mat3Cast, Quat.neg]
  refine ⟨mat3Cast q, setMatrix_ortho (mat3Cast_ortho h), ?_, setMatrix_ortho (mat3Cast_ortho h), ?_⟩
  · unfold fromQuat; rw [hn]; exact setMatrix_ortho (mat3Cast_ortho h)
  · intro v
    unfold Quat.Unit at h
    obtain ⟨w, x, y, z⟩ := q
    obtain ⟨a, b, c⟩ := v
    simp only at h
    ext <;> simp only [Quat.mul, Quat.pure, Quat.conj, mat3Cast, mulVec_x, mulVec_y, mulVec_z] <;> grind

example : (⟨3 / 5, 0, 4 / 5, 0⟩ : Quat).Unit := by norm_num [Quat.Unit]

theorem inv_unit {q : Quat} (h : q.Unit) : q.inv = q.conj := by
  unfold Quat.Unit at h
  simp only [Quat.inv, h, Quat.conj, div_one]

/-- C63, parent-to-local quaternions give the inverse rotation. -/
theorem C63_quaternion_inverse (q : Quat) (h : q.Unit) :
    p2lQuat q = (fromQuat q >>= inverse) ∧ p2lShuster ⟨q.x, q.y, q.z, q.w⟩ = (fromQuat q >>= inverse) := by
  have o := mat3Cast_ortho h
  have e : mat3Cast q.conj = (mat3Cast q).transpose := by
    ext <;> simp [mat3Cast, Quat.conj, M3.transpose] <;> ring
  have key : p2lQuat q = (fromQuat q >>= inverse) := by
    unfold p2lQuat fromQuat
    rw [inv_unit h, e, setMatrix_ortho o]
    rfl
  exact ⟨key, key⟩

theorem biggest_spec (m : M3) : 0 ≤ (biggest m).2 ∧
    (((biggest m).1 = 0 ∧ (biggest m).2 = m.c0.x + m.c1.y + m.c2.z) ∨
     ((biggest m).1 = 1 ∧ (biggest m).2 = m.c0.x - m.c1.y - m.c2.z) ∨
     ((biggest m).1 = 2 ∧ (biggest m).2 = m.c1.y - m.c0.x - m.c2.z) ∨
     ((biggest m).1 = 3 ∧ (biggest m).2 = m.c2.z - m.c0.x - m.c1.y)) := by
  unfold biggest
  simp only []
  split_ifs with h1 h2 h3 h3 h2 h3 h3 <;> (try dsimp only at *) <;> constructor <;> first | (simp; done) | linarith

/-- **C63, quaternion export.** For every rotation the exported quaternion has unit norm, reproduces the rotation, and the
parent-to-local quaternion reproduces the inverse. -/
theorem C63_quaternion_export (m : M3) (h : IsRotation m) :
    (toQuat m).Unit ∧ fromQuat (toQuat m) = some m ∧ fromQuat (toQuatInv m) = inverse m ∧
      fromShuster (toShuster (toQuat m)) = some m ∧ p2lQuat (toQuatInv m) = some m := by
  have o := h.ortho
  have key : (quatCast m).Unit ∧ mat3Cast (quatCast m) = m := by
    obtain ⟨hb, hc⟩ := biggest_spec m
    have hv : 0 < Real.sqrt ((biggest m).2 + 1) := Real.sqrt_pos.mpr (by linarith)
    have hs := Real.mul_self_sqrt (show 0 ≤ (biggest m).2 + 1 by linarith)
    have c12 := o.cross12
    have c20 := o.cross20
    have z := o.z
    have t := o.transpose
    have txx := t.xx
    have tyy := t.yy
    have txy := t.xy
    have xx := o.xx
    have yy := o.yy
    have zz := o.zz
    rw [V3.ext_iff] at c12 c20 z
    simp only [cross] at c12 c20 z
    obtain ⟨a1, a2, a3⟩ := c12
    obtain ⟨b1, b2, b3⟩ := c20
    obtain ⟨d1, d2, d3⟩ := z
    simp only [M3.transpose, dot] at txx tyy txy xx yy zz
    unfold quatCast
    simp only []
    set r := Real.sqrt ((biggest m).2 + 1)
    have hk : (1 / 4) / (r * (1 / 2)) * (2 * r) = 1 := by field_simp; norm_num
    set k := (1 / 4) / (r * (1 / 2))
    have hks : k * k * (4 * ((biggest m).2 + 1)) = 1 := by rw [← hs]; linear_combination (k * (2 * r) + 1) * hk
    have hrk : r * (1 / 2) = k * ((biggest m).2 + 1) := by rw [← hs]; linear_combination (-r / 2) * hk
    rcases hc with ⟨e1, e2⟩ | ⟨e1, e2⟩ | ⟨e1, e2⟩ | ⟨e1, e2⟩ <;> rw [e1] <;> simp only [] <;> rw [hrk] <;>
      rw [e2] at hks ⊢
    all_goals
      refine ⟨?_, ?_⟩
      · unfold Quat.Unit; simp only []; grind
      · ext <;> simp only [mat3Cast] <;> grind
  obtain ⟨hu, hm⟩ := key
  have hconj : mat3Cast (quatCast m).conj = m.transpose := by
    rw [← congrArg M3.transpose hm]
    ext <;> simp [mat3Cast, Quat.conj, M3.transpose] <;> ring
  have hcu : (quatCast m).conj.Unit := by
    unfold Quat.Unit Quat.conj at *; simp only []; linarith
  have hcc : (quatCast m).conj.conj = quatCast m := by simp [Quat.conj]
  have f1 : fromQuat (toQuat m) = some m := by
    unfold fromQuat toQuat; rw [hm]; exact setMatrix_ortho o
  refine ⟨hu, f1, ?_, f1, ?_⟩
  · unfold toQuatInv fromQuat
    rw [inv_unit hu, hconj]
    rfl
  · unfold p2lQuat toQuatInv
    rw [inv_unit hu, inv_unit hcu, hcc]
    exact f1

/-- **C63, quaternion round trip.** A unit quaternion comes back from its rotation up to sign. -/
theorem C63_quaternion_round_trip (q : Quat) (h : q.Unit) :
    ∃ m, fromQuat q = some m ∧ (toQuat m = q ∨ toQuat m = q.neg) := by
  refine ⟨mat3Cast q, setMatrix_ortho (mat3Cast_ortho h), ?_⟩
  obtain ⟨hb, hc⟩ := biggest_spec (mat3Cast q)
  have key : ∀ a r : ℝ, 0 < a * a → r = Real.sqrt (4 * (a * a)) →
      (r * (1 / 2) = a ∧ 1 / 4 / (r * (1 / 2)) * (4 * a) = 1) ∨
      (r * (1 / 2) = -a ∧ 1 / 4 / (r * (1 / 2)) * (4 * a) = -1) := by
    intro a r ha hr
    have e : r = 2 * |a| := by
      rw [hr, show 4 * (a * a) = (2 * |a|) ^ 2 by rw [mul_pow, sq_abs]; ring]
      exact Real.sqrt_sq (by positivity)
    have hne : a ≠ 0 := by rintro rfl; simp at ha
    rcases lt_or_gt_of_ne hne with h1 | h1
    · right
      rw [e, abs_of_neg h1]
      refine ⟨by ring, ?_⟩
      field_simp
    · left
      rw [e, abs_of_pos h1]
      refine ⟨by ring, ?_⟩
      field_simp
  unfold Quat.Unit at h
  unfold toQuat quatCast
  simp only []
  obtain ⟨w, x, y, z⟩ := q
  simp only at h
  rcases hc with ⟨e1, e2⟩ | ⟨e1, e2⟩ | ⟨e1, e2⟩ | ⟨e1, e2⟩ <;> rw [e1] <;> simp only []
  · have hf : (biggest (mat3Cast ⟨w, x, y, z⟩)).2 + 1 = 4 * (w * w) := by
      rw [e2]; simp only [mat3Cast]; linear_combination (-4) * h
    rw [hf]
    rcases key w _ (by linarith) rfl with ⟨k1, k2⟩ | ⟨k1, k2⟩
    · left; ext <;> simp only [mat3Cast]
      · exact k1
      · linear_combination x * k2
      · linear_combination y * k2
      · linear_combination z * k2
    · right; ext <;> simp only [mat3Cast, Quat.neg]
      · exact k1
      · linear_combination x * k2
      · linear_combination y * k2
      · linear_combination z * k2
  · have hf : (biggest (mat3Cast ⟨w, x, y, z⟩)).2 + 1 = 4 * (x * x) := by
      rw [e2]; simp only [mat3Cast]; ring
    rw [hf]
    rcases key x _ (by linarith) rfl with ⟨k1, k2⟩ | ⟨k1, k2⟩
    · left; ext <;> simp only [mat3Cast]
      · linear_combination w * k2
      · exact k1
      · linear_combination y * k2
      · linear_combination z * k2
    · right; ext <;> simp only [mat3Cast, Quat.neg]
      · linear_combination w * k2
      · exact k1
      · linear_combination y * k2
      · linear_combination z * k2
  · have hf : (biggest (mat3Cast ⟨w, x, y, z⟩)).2 + 1 = 4 * (y * y) := by
      rw [e2]; simp only [mat3Cast]; ring
    rw [hf]
    rcases key y _ (by linarith) rfl with ⟨k1, k2⟩ | ⟨k1, k2⟩
    · left; ext <;> simp only [mat3Cast]
      · linear_combination w * k2
      · linear_combination x * k2
      · exact k1
      · linear_combination z * k2
    · right; ext <;> simp only [mat3Cast, Quat.neg]
      · linear_combination w * k2
      · linear_combination x * k2
      · exact k1
      · linear_combination z * k2
  · have hf : (biggest (mat3Cast ⟨w, x, y, z⟩)).2 + 1 = 4 * (z * z) := by
      rw [e2]; simp only [mat3Cast]; ring
    rw [hf]
    rcases key z _ (by linarith) rfl with ⟨k1, k2⟩ | ⟨k1, k2⟩
    · left; ext <;> simp only [mat3Cast]
      · linear_combination w * k2
      · linear_combination x * k2
      · linear_combination y * k2
      · exact k1
    · right; ext <;> simp only [mat3Cast, Quat.neg]
      · linear_combination w * k2
      · linear_combination x * k2
      · linear_combination y * k2
      · exact k1

/-! ## Euler angles -/

/-- Meaning of a letter of an Euler sequence. -/
def axisOf (ch : Char) : Option V3 :=
  if ch ∈ ['x', 'X', '1'] then some ⟨1, 0, 0⟩
  else if ch ∈ ['y', 'Y', '2'] then some ⟨0, 1, 0⟩
  else if ch ∈ ['z', 'Z', '3'] then some ⟨0, 0, 1⟩
  else none

theorem toLower_val (ch : Char) : ch.toLower.val.toNat =
    if 65 ≤ ch.val.toNat ∧ ch.val.toNat ≤ 90 then ch.val.toNat + 32 else ch.val.toNat := by
  unfold Char.toLower
  by_cases h : ch.val ≥ 'A'.val ∧ ch.val ≤ 'Z'.val
  · rw [dif_pos h]
    have h1 : 65 ≤ ch.val.toNat := UInt32.le_iff_toNat_le.mp h.1
    have h2 : ch.val.toNat ≤ 90 := UInt32.le_iff_toNat_le.mp h.2
    rw [if_pos ⟨h1, h2⟩]
    show (ch.val + ('a'.val - 'A'.val)).toNat = _
    rw [UInt32.toNat_add]
    show (ch.val.toNat + 32) % 2 ^ 32 = _
    omega
  · rw [dif_neg h, if_neg]
    rintro ⟨h1, h2⟩
    exact h ⟨UInt32.le_iff_toNat_le.mpr h1, UInt32.le_iff_toNat_le.mpr h2⟩
theorem char_eq (a b : Char) : a = b ↔ a.val.toNat = b.val.toNat := by
  rw [Char.ext_iff, ← UInt32.toNat_inj]

theorem toLower_letter (ch : Char) (l u : Char) (hl : l.val.toNat = u.val.toNat + 32) (hu1 : 65 ≤ u.val.toNat)
    (hu2 : u.val.toNat ≤ 90) : ch.toLower = l ↔ ch = l ∨ ch = u := by
  rw [char_eq, char_eq, char_eq, toLower_val]
  split <;> omega
theorem toLower_digit (ch : Char) (d : Char) (h : d.val.toNat < 65) : ch.toLower = d ↔ ch = d := by
  rw [char_eq, char_eq, toLower_val]
  split <;> omega

theorem eulerBasis_eq (ch : Char) (t : ℝ) :
    (∀ e, axisOf ch = some e → ∃ m, eulerBasis ch t = some m ∧ Ortho m ∧ ∀ v, m.mulVec v = turn e t v) ∧
    (axisOf ch = none → eulerBasis ch t = none) := by
  have hx := toLower_letter ch 'x' 'X' (by decide) (by decide) (by decide)
  have hy := toLower_letter ch 'y' 'Y' (by decide) (by decide) (by decide)
  have hz := toLower_letter ch 'z' 'Z' (by decide) (by decide) (by decide)
  have h1 := toLower_digit ch '1' (by decide)
  have h2 := toLower_digit ch '2' (by decide)
  have h3 := toLower_digit ch '3' (by decide)
  have ex : (ch.toLower = 'x' ∨ ch.toLower = '1') ↔ ch ∈ ['x', 'X', '1'] := by
    rw [hx, h1]; simp [or_assoc]
  have ey : (ch.toLower = 'y' ∨ ch.toLower = '2') ↔ ch ∈ ['y', 'Y', '2'] := by
    rw [hy, h2]; simp [or_assoc]
  have ez : (ch.toLower = 'z' ∨ ch.toLower = '3') ↔ ch ∈ ['z', 'Z', '3'] := by
    rw [hz, h3]; simp [or_assoc]
  unfold eulerBasis axisOf
  simp only [ex, ey, ez]
  have hcs := cs t
  split_ifs
  · refine ⟨?_, by simp⟩
    rintro e ⟨⟩
    refine ⟨_, rfl, ?_, ?_⟩
    · constructor <;> simp [rotX, dot, cross] <;> linarith
    · intro v; ext <;> simp [rotX, turn, dot, cross] <;> ring
  · refine ⟨?_, by simp⟩
    rintro e ⟨⟩
    refine ⟨_, rfl, ?_, ?_⟩
    · constructor <;> simp [rotY, dot, cross] <;> linarith
    · intro v; ext <;> simp [rotY, turn, dot, cross] <;> ring
  · refine ⟨?_, by simp⟩
    rintro e ⟨⟩
    refine ⟨_, rfl, ?_, ?_⟩
    · constructor <;> simp [rotZ, dot, cross] <;> linarith
    · intro v; ext <;> simp [rotZ, turn, dot, cross] <;> ring
  · exact ⟨by simp, fun _ => rfl⟩

/-- **C63, Euler angles.** For every three angles and three-letter sequence over x, y, z (either case, or 1, 2, 3): the
extrinsic rotation turns about the fixed axes in the order given; the intrinsic rotation is the one whose last turn is
applied first, i.e. turns about the moved axes in the order given (`C63_moved_axes`). -/
theorem C63_euler (a1 a2 a3 : ℝ) (k1 k2 k3 : Char) (e1 e2 e3 : V3) (h1 : axisOf k1 = some e1) (h2 : axisOf k2 = some e2)
    (h3 : axisOf k3 = some e3) :
    (∃ m, extrinsic a1 a2 a3 [k1, k2, k3] = some m ∧ ∀ v, m.mulVec v = turn e3 a3 (turn e2 a2 (turn e1 a1 v))) ∧
    (∃ m, intrinsic a1 a2 a3 [k1, k2, k3] = some m ∧ ∀ v, m.mulVec v = turn e1 a1 (turn e2 a2 (turn e3 a3 v))) := by
  obtain ⟨m1, i1, o1, t1⟩ := (eulerBasis_eq k1 a1).1 e1 h1
  obtain ⟨m2, i2, o2, t2⟩ := (eulerBasis_eq k2 a2).1 e2 h2
  obtain ⟨m3, i3, o3, t3⟩ := (eulerBasis_eq k3 a3).1 e3 h3
  constructor
  · refine ⟨(m3.mul m2).mul m1, ?_, fun v => by rw [mul_mulVec, mul_mulVec, t1, t2, t3]⟩
    simp only [extrinsic, i1, i2, i3, Option.bind_eq_bind, Option.bind_some]
    exact setMatrix_ortho ((o3.mul o2).mul o1)
  · refine ⟨(m1.mul m2).mul m3, ?_, fun v => by rw [mul_mulVec, mul_mulVec, t1, t2, t3]⟩
    simp only [intrinsic, i1, i2, i3, Option.bind_eq_bind, Option.bind_some]
    exact setMatrix_ortho ((o1.mul o2).mul o3)

example : axisOf 'X' = some ⟨1, 0, 0⟩ ∧ axisOf '3' = some ⟨0, 0, 1⟩ := by simp [axisOf]

/-- Turning about the moved axis `r e` after the rotation `r` is turning about `e` before `r`. -/
theorem C63_moved_axes (r : M3) (hr : IsRotation r) (e : V3) (t : ℝ) (v : V3) :
    turn (r.mulVec e) t (r.mulVec v) = r.mulVec (turn e t v) := by
  unfold turn
  rw [hr.1, ← hr.2, mulVec_add, mulVec_add, mulVec_smul, mulVec_smul, mulVec_smul]

/-- C63, Euler sequences: anything but three letters of the table is refused. -/
theorem C63_euler_refused (a1 a2 a3 : ℝ) (seq : List Char) :
    ((extrinsic a1 a2 a3 seq = none ↔ ¬ (seq.length = 3 ∧ ∀ k ∈ seq, (axisOf k).isSome)) ∧
     (intrinsic a1 a2 a3 seq = none ↔ ¬ (seq.length = 3 ∧ ∀ k ∈ seq, (axisOf k).isSome))) := by
  by_cases hlen : seq.length = 3
  · match seq, hlen with
    | [k1, k2, k3], _ =>
      by_cases hall : ∀ k ∈ [k1, k2, k3], (axisOf k).isSome
      · obtain ⟨e1, h1⟩ := Option.isSome_iff_exists.mp (hall k1 (by simp))
        obtain ⟨e2, h2⟩ := Option.isSome_iff_exists.mp (hall k2 (by simp))
        obtain ⟨e3, h3⟩ := Option.isSome_iff_exists.mp (hall k3 (by simp))
        obtain ⟨⟨m, hm, _⟩, m', hm', _⟩ := C63_euler a1 a2 a3 k1 k2 k3 e1 e2 e3 h1 h2 h3
        rw [hm, hm']
        refine ⟨⟨fun h => (by cases h), fun h => absurd ⟨rfl, hall⟩ h⟩, ⟨fun h => (by cases h), fun h => absurd ⟨rfl, hall⟩ h⟩⟩
      · have : eulerBasis k1 a1 = none ∨ eulerBasis k2 a2 = none ∨ eulerBasis k3 a3 = none := by
          push Not at hall
          obtain ⟨k, hk, hn⟩ := hall
          have hn' : axisOf k = none := by simpa using hn
          simp only [List.mem_cons, List.not_mem_nil, or_false] at hk
          rcases hk with rfl | rfl | rfl
          · exact Or.inl ((eulerBasis_eq k a1).2 hn')
          · exact Or.inr (Or.inl ((eulerBasis_eq k a2).2 hn'))
          · exact Or.inr (Or.inr ((eulerBasis_eq k a3).2 hn'))
        have e1 : extrinsic a1 a2 a3 [k1, k2, k3] = none := by
          simp only [extrinsic, Option.bind_eq_bind]
          rcases this with h | h | h <;> rw [h] <;> cases eulerBasis k1 a1 <;> cases eulerBasis k2 a2 <;> simp_all
        have e2 : intrinsic a1 a2 a3 [k1, k2, k3] = none := by
          simp only [intrinsic, Option.bind_eq_bind]
          rcases this with h | h | h <;> rw [h] <;> cases eulerBasis k1 a1 <;> cases eulerBasis k2 a2 <;> simp_all
        exact ⟨⟨fun _ h => hall h.2, fun _ => e1⟩, ⟨fun _ h => hall h.2, fun _ => e2⟩⟩
  · have e1 : extrinsic a1 a2 a3 seq = none ∧ intrinsic a1 a2 a3 seq = none := by
      unfold extrinsic intrinsic
      constructor <;> split <;> simp_all
    exact ⟨⟨fun _ h => hlen h.1, fun _ => e1.1⟩, ⟨fun _ h => hlen h.1, fun _ => e1.2⟩⟩

end Huira.Rot
