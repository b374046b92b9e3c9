import Verif.Num.Vec3
import Verif.Image.Model
import Mathlib.Data.Real.Archimedean
/-!
# Camera geometry: projection, ray directions, view frustum

`include/huira_impl/cameras/camera_model.ipp`, `include/huira_impl/render/frustum.ipp`. Single-precision values are exact
reals here (rounding is left out); a NaN frustum normal (the normalisation of a zero vector) is `none`.
-/
namespace Huira.Camera
noncomputable section
open Classical

/-- A lens distortion (`include/huira/cameras/distortion/distortion.hpp`): two maps of normalised image coordinates. -/
structure Distortion where
  distort : ℝ × ℝ → ℝ × ℝ
  undistort : ℝ × ℝ → ℝ × ℝ

/-- The members of `CameraModel` used by projection and ray casting (camera_model.hpp 163, 179-184, 208). -/
structure Lens where
  fx : ℝ
  fy : ℝ
  cx : ℝ
  cy : ℝ
  resX : Nat
  resY : Nat
  blender : Bool
  distortion : Option Distortion

/-- Depth of a point along the viewing axis (camera_model.ipp 460-465). -/
def Lens.depth (c : Lens) (p : V3) : ℝ := if c.blender then -p.z else p.z

/-- `project_point` (camera_model.ipp 458-472) -/
def Lens.project (c : Lens) (p : V3) : ℝ × ℝ :=
  let signY : ℝ := if c.blender then -1 else 1
  let n : ℝ × ℝ := (p.x / c.depth p, signY * p.y / c.depth p)
  let n := match c.distortion with
    | some d => d.distort n
    | none => n
  (c.fx * n.1 + c.cx, c.fy * n.2 + c.cy)

/-- `pixel_to_direction_` (camera_model.ipp 618-642) -/
def Lens.pixelToDirection (c : Lens) (u v : ℝ) : V3 :=
  let n : ℝ × ℝ := ((u - c.cx) / c.fx, (v - c.cy) / c.fy)
  let n := match c.distortion with
    | some d => d.undistort n
    | none => n
  if c.blender then ⟨n.1, -n.2, -1⟩ else ⟨n.1, n.2, 1⟩

/-- The distortion field: unit directions of the integer pixels (`compute_distortion_field_`, camera_model.ipp 645-657). -/
def Lens.field (c : Lens) (x y : Int) : V3 := V3.normalize (c.pixelToDirection x y)

/-- `distortion_field_.sample_bilinear<Clamp>(u, v)` for three components (camera_model.ipp 520; image.ipp 410-448). -/
def sampleField (w h : Nat) (f : Int → Int → V3) (u v : ℝ) : Option V3 := do
  let x ← Image.sampleBilinear w h .clamp (fun i j => (f i j).x) u v
  let y ← Image.sampleBilinear w h .clamp (fun i j => (f i j).y) u v
  let z ← Image.sampleBilinear w h .clamp (fun i j => (f i j).z) u v
  return ⟨x, y, z⟩

/-- `cast_ray(pixel)` (camera_model.ipp 511-528), the ray's direction: the pinhole direction, or the interpolated
distortion field when a distortion model is set. -/
def Lens.castRay (c : Lens) (u v : ℝ) : V3 :=
  match c.distortion with
  | none => V3.normalize (c.pixelToDirection u v)
  | some _ =>
    match sampleField c.resX c.resY c.field (u / ((c.resX : ℝ) - 1)) (v / ((c.resY : ℝ) - 1)) with
    | some d => V3.normalize d
    | none => V3.zero

/-- `zdir` of `compute_frustum_` (camera_model.ipp 723-727) -/
def Lens.zdir (c : Lens) : V3 := if c.blender then ⟨0, 0, -1⟩ else ⟨0, 0, 1⟩
/-- `ydir` of `compute_frustum_` (camera_model.ipp 722-728) -/
def Lens.ydir (c : Lens) : V3 := if c.blender then ⟨0, -1, 0⟩ else ⟨0, 1, 0⟩
/-- `xdir` of `compute_frustum_` (camera_model.ipp 721) -/
def xdir : V3 := ⟨1, 0, 0⟩

/-- One call of the lambda `update` (camera_model.ipp 743-751) -/
def extremaStep (zd : V3) (acc : V3 × ℝ) (d : V3) : V3 × ℝ :=
  if V3.dot d zd < acc.2 then (d, V3.dot d zd) else acc

/-- The extremum found over the edge pixels visited in order, starting from the zero vector and 100
(camera_model.ipp 730-760). -/
def extrema (zd : V3) (dirs : List V3) : V3 := (dirs.foldl (extremaStep zd) (V3.zero, 100)).1

/-- Edge pixels visited (camera_model.ipp 754-761); `ray` is `cast_ray(i, j)`. -/
def topEdge (ray : ℝ → ℝ → V3) (resX : Nat) : List V3 := (List.range resX).map fun i : Nat => ray (i : ℝ) 0
def bottomEdge (ray : ℝ → ℝ → V3) (resX resY : Nat) : List V3 := (List.range resX).map fun i : Nat => ray (i : ℝ) ((resY : ℝ) - 1)
def leftEdge (ray : ℝ → ℝ → V3) (resY : Nat) : List V3 := (List.range (resY - 2)).map fun j : Nat => ray 0 ((j + 1 : Nat) : ℝ)
def rightEdge (ray : ℝ → ℝ → V3) (resX resY : Nat) : List V3 :=
  (List.range (resY - 2)).map fun j : Nat => ray ((resX : ℝ) - 1) ((j + 1 : Nat) : ℝ)

/-- `compute_frustum_` (camera_model.ipp 716-771): the plane normals handed to the frustum. -/
def Lens.frustum (c : Lens) : List (Option V3) :=
  let left := extrema c.zdir (leftEdge c.castRay c.resY)
  let right := extrema c.zdir (rightEdge c.castRay c.resX c.resY)
  let top := extrema c.zdir (topEdge c.castRay c.resX)
  let bottom := extrema c.zdir (bottomEdge c.castRay c.resX c.resY)
  [some c.zdir, V3.normalize? (V3.cross c.ydir left), V3.normalize? (V3.cross right c.ydir),
   V3.normalize? (V3.cross top xdir), V3.normalize? (V3.cross xdir bottom)]

/-- `glm::dot(normal, direction) < 0.0f` (frustum.ipp 28); false for a NaN normal -/
def rejects (n : Option V3) (d : V3) : Prop :=
  match n with
  | some v => V3.dot v d < 0
  | none => False

/-- `Frustum::contains` (frustum.ipp 25-33) -/
def contains (ns : List (Option V3)) (d : V3) : Prop := ∀ n ∈ ns, ¬ rejects n d

/-- `in_fov` (camera_model.ipp 546-554) -/
def Lens.inFov (c : Lens) (p : V3) : Prop := ¬ V3.dot p p < 1e-12 ∧ contains c.frustum p

/-- `try_project_point` (camera_model.ipp 475-483); `none` is the NaN pixel -/
def Lens.tryProject (c : Lens) (p : V3) : Option (ℝ × ℝ) := if c.inFov p then some (c.project p) else none

end
end Huira.Camera
