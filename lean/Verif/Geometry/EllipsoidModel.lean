import Verif.Num.Vec3
import Mathlib.Analysis.SpecialFunctions.Complex.Arg
import Mathlib.Analysis.SpecialFunctions.Trigonometric.Inverse

/-!
# Model of the ellipsoid

Models `include/huira_impl/geometry/ellipsoid.ipp`.  `float` is the real numbers with exact arithmetic; the one division that
can be 0/0 (`C / q`) is modelled with an explicit NaN.
-/

namespace Huira.Ellipsoid

noncomputable section
open Real Classical

/-- Componentwise product (`operator*` of `glm::vec3`). -/
def cmul (a b : V3) : V3 := ⟨a.x * b.x, a.y * b.y, a.z * b.z⟩

/-- The ray of the Embree callback: origin, direction, `tnear`, `tfar` (`⊤` is infinity). -/
structure Ray where
  o : V3
  d : V3
  tnear : ℝ
  tfar : WithTop ℝ

/-- `std::atan2(y, x)`: the argument of `x + iy`, in (-π, π]. -/
def atan2 (y x : ℝ) : ℝ := Complex.arg ⟨x, y⟩

/-- `inv_r` (`ellipsoid.ipp` 101). -/
def invR (r : V3) : V3 := ⟨1 / r.x, 1 / r.y, 1 / r.z⟩

/-- `O_s` and `D_s` (`ellipsoid.ipp` 114-115). -/
def scaled (r v : V3) : V3 := cmul v (invR r)

/-- `L` (`ellipsoid.ipp` 117). -/
def speed (r : V3) (ray : Ray) : ℝ := V3.len (scaled r ray.d)

/-- `D_u` (`ellipsoid.ipp` 118). -/
def unitDir (r : V3) (ray : Ray) : V3 := (1 / speed r ray) * scaled r ray.d

/-- The two candidates, sorted (`ellipsoid.ipp` 120-137); `none` when the discriminant is negative.  The second is `none` when
it is 0/0, in which case the comparison with it is false and nothing is swapped.  `neg` is the sign bit of `B`. -/
def roots (r : V3) (ray : Ray) (neg : Bool) : Option (ℝ × Option ℝ) :=
  let Os := scaled r ray.o
  let Du := unitDir r ray
  let L := speed r ray
  let B := 2 * V3.dot Os Du
  let C := V3.dot Os Os - 1
  let disc := B * B - 4 * C
  if disc < 0 then none
  else
    let s := sqrt disc
    let q := -0.5 * (B + (if neg then -s else s))
    if q = 0 then some (q / L, none)
    else
      let t1 := C / q
      if q > t1 then some (t1 / L, some (q / L)) else some (q / L, some (t1 / L))

/-- The fields of the hit filled in by `test_hit` (`ellipsoid.ipp` 151-165). -/
structure Hit where
  ng : V3
  u : ℝ
  v : ℝ

/-- `std::max({r.x, r.y, r.z})`. -/
def rMax (r : V3) : ℝ := max (max r.x r.y) r.z

/-- The hit computed for a candidate (`ellipsoid.ipp` 151-165). -/
def hitAt (r : V3) (ray : Ray) (t : ℝ) : Hit :=
  let tu := t * speed r ray
  let Ps := scaled r ray.o + tu * unitDir r ray
  let Pu := V3.normalize Ps
  ⟨rMax r * cmul Ps (invR r), (atan2 Pu.y Pu.x + π) / (2 * π), arccos Pu.z / π⟩

/-- What the callback leaves in the ray: `tfar` (`none` is NaN) and the hit whose identifiers were written, if any. -/
structure Rec where
  tfar : Option (WithTop ℝ)
  hit : Option Hit

/-- `test_hit` (`ellipsoid.ipp` 140-188) with the filter's verdict `accept`.  A NaN candidate passes both range tests; its hit
is not a number (`hit` then holds an arbitrary record).  A rejected hit restores `tfar` but not the hit's fields. -/
def testHit (r : V3) (ray : Ray) (accept : ℝ → Bool) (acceptNan : Bool) (rec : Rec) (t : Option ℝ) : Rec × Bool :=
  match t with
  | none => if acceptNan then (⟨none, some (hitAt r ray 0)⟩, true) else (⟨some ray.tfar, some (hitAt r ray 0)⟩, false)
  | some t =>
    if t < ray.tnear ∨ (t : WithTop ℝ) > ray.tfar then (rec, false)
    else if accept t then (⟨some (t : WithTop ℝ), some (hitAt r ray t)⟩, true)
    else (⟨some ray.tfar, some (hitAt r ray t)⟩, false)

/-- `intersect_callback` (`ellipsoid.ipp` 91-194). -/
def intersect (r : V3) (ray : Ray) (neg : Bool) (accept : ℝ → Bool) (acceptNan : Bool) : Rec :=
  let rec0 : Rec := ⟨some ray.tfar, none⟩
  match roots r ray neg with
  | none => rec0
  | some (t0, t1) =>
    let a := testHit r ray accept acceptNan rec0 (some t0)
    if a.2 then a.1 else (testHit r ray accept acceptNan a.1 t1).1

/-- No filter is registered anywhere in the code, so `rtcInvokeIntersectFilterFromGeometry` accepts. -/
def intersectNoFilter (r : V3) (ray : Ray) (neg : Bool) : Rec := intersect r ray neg (fun _ => true) true

/-- `bounds_callback` (`ellipsoid.ipp` 74-89). -/
def bounds (r : V3) : V3 × V3 := (⟨-r.x, -r.y, -r.z⟩, ⟨r.x, r.y, r.z⟩)

/-- The part of the interaction set by `compute_surface_interaction`. -/
structure Surf where
  position : V3
  normal : V3
  tangent : V3
  bitangent : V3

/-- `compute_surface_interaction` (`ellipsoid.ipp` 13-45); `none` when a zero vector is normalised (NaN in the code). -/
def surface (r : V3) (u v : ℝ) : Option Surf :=
  let phi := u * 2 * π - π
  let theta := v * π
  let p : V3 := ⟨r.x * sin theta * cos phi, r.y * sin theta * sin phi, r.z * cos theta⟩
  let m := rMax r
  (V3.normalize? ⟨(sin theta * cos phi) * (m / r.x), (sin theta * sin phi) * (m / r.y), cos theta * (m / r.z)⟩).bind fun n =>
  let dpdu : V3 := ⟨-r.x * sin theta * sin phi, r.y * sin theta * cos phi, 0⟩
  let dpdu := if V3.dot dpdu dpdu < 1e-8 then ⟨1, 0, 0⟩ else dpdu
  (V3.normalize? dpdu).bind fun t =>
  (V3.normalize? (V3.cross n t)).map fun b => ⟨p, n, t, b⟩

end
end Huira.Ellipsoid
