import Mathlib.Analysis.SpecialFunctions.Trigonometric.Basic
import Verif.Num.Vec3

/-!
# Model of `huira::Rotation`

Models `include/huira_impl/core/rotation.ipp` and the quaternion conversions of `include/huira/core/types.hpp`, in exact
real arithmetic. `none` stands for a thrown exception. The formulas of the glm functions used (`mat3_cast`, `quat_cast`,
`inverse`, `determinant`, `normalize`, `transpose`) are those of glm 0.9.9/1.0, which is not part of /repo. Not modelled:
rounding, NaN and infinite entries (a NaN determinant passes the check of `set_matrix_`), string output, float casts.
-/

namespace Huira.Rot

open V3

/-- `glm::mat3`: three columns, `matrix[i]` is column `i` (types.hpp 41). -/
@[ext] structure M3 where
  c0 : V3
  c1 : V3
  c2 : V3

namespace M3

/-- `matrix_ * b` (rotation.ipp 404-408) -/
noncomputable def mulVec (m : M3) (v : V3) : V3 := v.x * m.c0 + v.y * m.c1 + v.z * m.c2

/-- `glm` matrix product -/
noncomputable def mul (a b : M3) : M3 := ⟨a.mulVec b.c0, a.mulVec b.c1, a.mulVec b.c2⟩

/-- `glm::transpose` -/
def transpose (m : M3) : M3 := ⟨⟨m.c0.x, m.c1.x, m.c2.x⟩, ⟨m.c0.y, m.c1.y, m.c2.y⟩, ⟨m.c0.z, m.c1.z, m.c2.z⟩⟩

/-- `glm::determinant` (expanded along the first column) -/
noncomputable def det (m : M3) : ℝ :=
  m.c0.x * (m.c1.y * m.c2.z - m.c2.y * m.c1.z) - m.c1.x * (m.c0.y * m.c2.z - m.c2.y * m.c0.z) +
    m.c2.x * (m.c0.y * m.c1.z - m.c1.y * m.c0.z)

/-- `Mat3<T>{1}` -/
def one : M3 := ⟨⟨1, 0, 0⟩, ⟨0, 1, 0⟩, ⟨0, 0, 1⟩⟩

end M3

/-- `orthonormalize_` (rotation.ipp 547-568). -/
noncomputable def orthonormalize (m : M3) : M3 :=
  let x := normalize m.c0
  let y := normalize (m.c1 - (dot m.c1 x) * x)
  ⟨x, y, cross x y⟩

/-- `set_matrix_` (rotation.ipp 529-540). -/
noncomputable def setMatrix (m : M3) : Option M3 :=
  if |m.det - 1| > 1e-3 then none else some (orthonormalize m)

/-- `from_local_to_parent(Vec3 axis, Radian angle)` (rotation.ipp 61-100); `eps` is `numeric_limits<T>::epsilon()`. -/
noncomputable def axisAngle (eps : ℝ) (axis : V3) (angle : ℝ) : Option M3 :=
  if len axis < eps then setMatrix M3.one
  else
    let n := (1 / len axis) * axis
    let x := n.x
    let y := n.y
    let z := n.z
    let c := Real.cos angle
    let s := Real.sin angle
    setMatrix ⟨⟨c + x * x * (1 - c), y * x * (1 - c) + z * s, z * x * (1 - c) - y * s⟩,
      ⟨x * y * (1 - c) - z * s, c + y * y * (1 - c), z * y * (1 - c) + x * s⟩,
      ⟨x * z * (1 - c) + y * s, y * z * (1 - c) - x * s, c + z * z * (1 - c)⟩⟩

/-- `local_to_parent_x` (rotation.ipp 416-436); `result[i][j]` is column `i`, row `j`. -/
noncomputable def rotX (a : ℝ) : M3 :=
  ⟨⟨1, 0, 0⟩, ⟨0, Real.cos a, Real.sin a⟩, ⟨0, -Real.sin a, Real.cos a⟩⟩

/-- `local_to_parent_y` (rotation.ipp 443-463). -/
noncomputable def rotY (a : ℝ) : M3 :=
  ⟨⟨Real.cos a, 0, -Real.sin a⟩, ⟨0, 1, 0⟩, ⟨Real.sin a, 0, Real.cos a⟩⟩

/-- `local_to_parent_z` (rotation.ipp 470-490). -/
noncomputable def rotZ (a : ℝ) : M3 :=
  ⟨⟨Real.cos a, Real.sin a, 0⟩, ⟨-Real.sin a, Real.cos a, 0⟩, ⟨0, 0, 1⟩⟩

/-- `basis[i]` of the Euler constructors (rotation.ipp 167-180, 209-222); characters are ASCII. -/
noncomputable def eulerBasis (ch : Char) (a : ℝ) : Option M3 :=
  let c := ch.toLower
  if c = 'x' ∨ c = '1' then some (rotX a)
  else if c = 'y' ∨ c = '2' then some (rotY a)
  else if c = 'z' ∨ c = '3' then some (rotZ a)
  else none

/-- `extrinsic_euler_angles` (rotation.ipp 154-187). The conversions radian, degree, radian of the angles are exact here. -/
noncomputable def extrinsic (a1 a2 a3 : ℝ) : List Char → Option M3
  | [k1, k2, k3] => do
    let b0 ← eulerBasis k1 a1
    let b1 ← eulerBasis k2 a2
    let b2 ← eulerBasis k3 a3
    setMatrix ((b2.mul b1).mul b0)
  | _ => none

/-- `intrinsic_euler_angles` (rotation.ipp 196-229). -/
noncomputable def intrinsic (a1 a2 a3 : ℝ) : List Char → Option M3
  | [k1, k2, k3] => do
    let b0 ← eulerBasis k1 a1
    let b1 ← eulerBasis k2 a2
    let b2 ← eulerBasis k3 a3
    setMatrix ((b0.mul b1).mul b2)
  | _ => none

/-- `glm::qua`: `(w, x, y, z)` (types.hpp 54). -/
@[ext] structure Quat where
  w : ℝ
  x : ℝ
  y : ℝ
  z : ℝ

/-- `glm::mat3_cast` -/
noncomputable def mat3Cast (q : Quat) : M3 :=
  ⟨⟨1 - 2 * (q.y * q.y + q.z * q.z), 2 * (q.x * q.y + q.w * q.z), 2 * (q.x * q.z - q.w * q.y)⟩,
   ⟨2 * (q.x * q.y - q.w * q.z), 1 - 2 * (q.x * q.x + q.z * q.z), 2 * (q.y * q.z + q.w * q.x)⟩,
   ⟨2 * (q.x * q.z + q.w * q.y), 2 * (q.y * q.z - q.w * q.x), 1 - 2 * (q.x * q.x + q.y * q.y)⟩⟩

/-- Which component `glm::quat_cast` finds biggest: 0 = w, 1 = x, 2 = y, 3 = z. -/
noncomputable def biggest (m : M3) : Nat × ℝ :=
  let fx := m.c0.x - m.c1.y - m.c2.z
  let fy := m.c1.y - m.c0.x - m.c2.z
  let fz := m.c2.z - m.c0.x - m.c1.y
  let fw := m.c0.x + m.c1.y + m.c2.z
  let b : Nat × ℝ := (0, fw)
  let b := if fx > b.2 then (1, fx) else b
  let b := if fy > b.2 then (2, fy) else b
  if fz > b.2 then (3, fz) else b

/-- `glm::quat_cast` -/
noncomputable def quatCast (m : M3) : Quat :=
  let b := biggest m
  let v := Real.sqrt (b.2 + 1) * (1 / 2)
  let k := (1 / 4) / v
  match b.1 with
  | 0 => ⟨v, (m.c1.z - m.c2.y) * k, (m.c2.x - m.c0.z) * k, (m.c0.y - m.c1.x) * k⟩
  | 1 => ⟨(m.c1.z - m.c2.y) * k, v, (m.c0.y + m.c1.x) * k, (m.c2.x + m.c0.z) * k⟩
  | 2 => ⟨(m.c2.x - m.c0.z) * k, (m.c0.y + m.c1.x) * k, v, (m.c1.z + m.c2.y) * k⟩
  | _ => ⟨(m.c0.y - m.c1.x) * k, (m.c2.x + m.c0.z) * k, (m.c1.z + m.c2.y) * k, v⟩

/-- `glm::inverse` of a quaternion: conjugate divided by the squared norm -/
noncomputable def Quat.inv (q : Quat) : Quat :=
  let d := q.w * q.w + q.x * q.x + q.y * q.y + q.z * q.z
  ⟨q.w / d, -q.x / d, -q.y / d, -q.z / d⟩

/-- Shuster quaternion: `Vec4` `(x, y, z, w)`. -/
@[ext] structure Shuster where
  x : ℝ
  y : ℝ
  z : ℝ
  w : ℝ

/-- `to_shuster` (types.hpp 59-63) -/
def toShuster (q : Quat) : Shuster := ⟨q.x, q.y, q.z, q.w⟩

/-- `to_hamilton` (types.hpp 65-69) -/
def toHamilton (q : Shuster) : Quat := ⟨q.w, q.x, q.y, q.z⟩

/-- `from_local_to_parent(Quaternion)` (rotation.ipp 35-41) -/
noncomputable def fromQuat (q : Quat) : Option M3 := setMatrix (mat3Cast q)

/-- `from_local_to_parent(ShusterQuaternion)` (rotation.ipp 48-54) -/
noncomputable def fromShuster (q : Shuster) : Option M3 := setMatrix (mat3Cast (toHamilton q))

/-- `from_parent_to_local(Mat3)` (rotation.ipp 107-111) -/
noncomputable def p2lMatrix (m : M3) : Option M3 := setMatrix m.transpose

/-- `from_parent_to_local(Quaternion)` (rotation.ipp 118-122) -/
noncomputable def p2lQuat (q : Quat) : Option M3 := fromQuat q.inv

/-- `from_parent_to_local(ShusterQuaternion)` (rotation.ipp 129-133) -/
noncomputable def p2lShuster (q : Shuster) : Option M3 := p2lQuat (toHamilton q)

/-- `from_parent_to_local(axis, angle)` (rotation.ipp 141-145) -/
noncomputable def p2lAxisAngle (eps : ℝ) (axis : V3) (angle : ℝ) : Option M3 := axisAngle eps axis (-angle)

/-- `from_basis_vectors` (rotation.ipp 238-249) -/
noncomputable def fromBasis (x y z : V3) : Option M3 := setMatrix ⟨x, y, z⟩

/-- `inverse` (rotation.ipp 278-284) -/
noncomputable def inverse (m : M3) : Option M3 := setMatrix m.transpose

/-- `operator*(Rotation)` (rotation.ipp 379-384) and `operator*=` (391-396) -/
noncomputable def compose (a b : M3) : Option M3 := setMatrix (a.mul b)

/-- `local_to_parent_quaternion` (rotation.ipp 290-294) -/
noncomputable def toQuat (m : M3) : Quat := quatCast m

/-- `parent_to_local_quaternion` (rotation.ipp 310-314) -/
noncomputable def toQuatInv (m : M3) : Quat := (quatCast m).inv

/-- Ways to obtain a `Rotation` through the API. -/
inductive Expr where
  | default
  | matrix (m : M3)
  | quat (q : Quat)
  | shuster (q : Shuster)
  | axisAngle (axis : V3) (angle : ℝ)
  | p2lMatrix (m : M3)
  | p2lQuat (q : Quat)
  | p2lShuster (q : Shuster)
  | p2lAxisAngle (axis : V3) (angle : ℝ)
  | extrinsic (a1 a2 a3 : ℝ) (seq : List Char)
  | intrinsic (a1 a2 a3 : ℝ) (seq : List Char)
  | basis (x y z : V3)
  | inverse (e : Expr)
  | compose (a b : Expr)

/-- The rotation an API expression yields, `none` if any call throws. -/
noncomputable def Expr.eval (eps : ℝ) : Expr → Option M3
  | .default => some M3.one
  | .matrix m => setMatrix m
  | .quat q => fromQuat q
  | .shuster q => fromShuster q
  | .axisAngle a t => Rot.axisAngle eps a t
  | .p2lMatrix m => Rot.p2lMatrix m
  | .p2lQuat q => Rot.p2lQuat q
  | .p2lShuster q => Rot.p2lShuster q
  | .p2lAxisAngle a t => Rot.p2lAxisAngle eps a t
  | .extrinsic a b c s => Rot.extrinsic a b c s
  | .intrinsic a b c s => Rot.intrinsic a b c s
  | .basis x y z => fromBasis x y z
  | .inverse e => e.eval eps >>= Rot.inverse
  | .compose a b => do
    let ma ← a.eval eps
    let mb ← b.eval eps
    Rot.compose ma mb

end Huira.Rot
