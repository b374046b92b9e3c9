import Verif.Core.TransformModel
import Verif.Volumes.Model
import Mathlib.Order.WithBot
/-!
# Depth, normals, albedo and geometry ids of a rendered pixel

Models the part of `Renderer::path_trace_` (`include/huira_impl/render/renderer.ipp` 155-566) that feeds the auxiliary channels
of the frame buffer: the loop over the samples of a pixel and the loop over the segments of a path, with the pass through
partly transparent surfaces, the medium stack, and the writes at the end of a pixel; and the test of the depth channel for point
sources (`render_unresolved_`, renderer.ipp 831-839, 845-846, 888-896, with `Image::operator()(Pixel)`,
`include/huira_impl/images/image.ipp` 240-248).

Simplifications.  Real numbers; the NaN vector is `none`.  The scene is what its ray test answers; the material is evaluated with
the hit.  The random numbers of one turn of the path loop enter through what they decide (`Chance`), and the theorems hold for
every outcome.  Light transport (radiance) is the subject of C116 and C117; of a sample's radiance only whether it is NaN matters
here.  `Surface.geomId` is not a field: `hit.geom_id` is the number of the geometry inside its own acceleration structure
(`include/huira/geometry/ray.hpp` 43), every structure holds exactly one geometry (`mesh.ipp` 154, `ellipsoid.ipp` 68), and
Embree numbers from 0, so it is 0.
-/
namespace Huira.Aov

open V3 Xform

noncomputable section
open Classical

/-- `Ray`: origin and direction (`include/huira/geometry/ray.hpp`). -/
structure Ray where
  origin : V3
  dir : V3

/-- A surface hit with its material evaluated (renderer.ipp 345-352): `hit.t`, the primitive, the resolved position and
geometric normal, opacity, shading normal and albedo (one spectral bin). -/
structure Surface where
  t : ℝ
  prim : Volumes.Prim
  position : V3
  normalG : V3
  opacity : ℝ
  normalS : V3
  albedo : ℝ

/-- `HitRecord` and what it maps to (renderer.ipp 284, 305-307, 338). -/
inductive Hit where
  | miss
  | light (t : ℝ)
  | surface (s : Surface)

/-- What the renderer asks the scene: `SceneView::intersect` (scene_view.ipp 169-213) and `offset_intersection_`. -/
structure Scene where
  intersect : Ray → Hit
  offset : V3 → V3 → V3

/-- What the random numbers decide in one turn of the path loop: whether the medium's free path ends (its length and the ray that
goes on from there, lines 202-203, 267-277), the number drawn against the opacity (line 355), and the ray chosen by the
reflectance model with whether it crosses the surface (lines 442-479; none: no valid direction or roulette). -/
structure Chance where
  scatter : Option (ℝ × Ray)
  u : ℝ
  bounce : Option (Ray × Bool)

/-- Lines 164-167: accumulators of the pixel; `gid = none` is the greatest `std::size_t`. -/
structure Acc where
  depth : WithTop ℝ
  gid : Option ℕ
  albedo : ℝ
  normals : V3

/-- Lines 164-167: their initial values. -/
def Acc.start : Acc := ⟨⊤, none, 0, V3.zero⟩

/-- State of the path loop. -/
structure St where
  ray : Ray
  bounce : ℕ
  stack : Volumes.Stack
  acc : Acc

/-- `opt_mi->t < hit.t` (line 212; the `t` of a miss is infinite). -/
def before (t : ℝ) : Hit → Prop
  | .miss => True
  | .light t' => t < t'
  | .surface s => t < s.t

/-- The sample passes the surface (lines 354-355). -/
def passes (s : Surface) (c : Chance) : Prop := s.opacity < 1 ∧ c.u > s.opacity

/-- The ray that goes on behind a passed surface (lines 356-364). -/
def beyond (sc : Scene) (r : Ray) (s : Surface) : Ray :=
  ⟨sc.offset s.position (if dot r.dir s.normalG < 0 then -s.normalG else s.normalG), r.dir⟩

/-- Line 341-343: the first sample notes the geometry. -/
def note (first : Bool) (a : Acc) : Acc := if first then { a with gid := some 0 } else a

/-- Lines 382-386. -/
def record (bounce : ℕ) (s : Surface) (a : Acc) : Acc :=
  if bounce = 0 then { a with depth := min a.depth (s.t : WithTop ℝ), normals := a.normals + s.normalS, albedo := a.albedo + s.albedo }
  else a

/-- What follows a hit when no medium event came before it (lines 284-486): the new state, or the end of the path. -/
def arrive (sc : Scene) (first : Bool) (st : St) (c : Chance) : Hit → St ⊕ Acc
  | .miss => .inr st.acc
  | .light _ => .inr st.acc
  | .surface s =>
    let a := note first st.acc
    if passes s c then
      .inl ⟨beyond sc st.ray s, st.bounce, Volumes.toggle st.stack (some s.prim), a⟩
    else
      let a := record st.bounce s a
      match c.bounce with
      | none => .inr a
      | some (r, crosses) =>
        .inl ⟨r, st.bounce + 1, if crosses then Volumes.toggle st.stack (some s.prim) else st.stack, a⟩

/-- One turn of the path loop (lines 198-487). -/
def turn (sc : Scene) (first : Bool) (st : St) (c : Chance) : St ⊕ Acc :=
  let h := sc.intersect st.ray
  match Volumes.top st.stack, c.scatter with
  | some _, some (t, r) =>
    if before t h then .inl ⟨r, st.bounce + 1, st.stack, st.acc⟩ else arrive sc first st c h
  | _, _ => arrive sc first st c h

/-- The path loop (lines 198-487), `n` turns at most; none: not finished after `n` turns (passing a surface does not count as a
bounce, so `max_bounces_` does not bound the turns). -/
def path (sc : Scene) (maxBounces : ℕ) (first : Bool) : ℕ → (ℕ → Chance) → St → Option Acc
  | 0, _, _ => none
  | n + 1, ch, st =>
    if st.bounce < maxBounces then
      match turn sc first st (ch 0) with
      | .inr a => some a
      | .inl st' => path sc maxBounces first n (fun i => ch (i + 1)) st'
    else some st.acc

/-- A sample of the pixel: the ray of the camera, its random outcomes, and whether its radiance is NaN (renderer.ipp 493-495). -/
structure Sample where
  ray : Ray
  chance : ℕ → Chance
  nan : Bool

/-- The samples of a pixel (renderer.ipp 174-522), in order: accumulators and `samples_taken`.  The list is what was taken before the early
exit of renderer.ipp 511-521. -/
def samples (sc : Scene) (maxBounces turns : ℕ) : Bool → List Sample → Acc → Option (Acc × ℕ)
  | _, [], a => some (a, 0)
  | first, s :: l, a =>
    match path sc maxBounces first turns s.chance ⟨s.ray, 0, [], a⟩ with
    | none => none
    | some a => (samples sc maxBounces turns false l a).map fun r => (r.1, if s.nan then r.2 else r.2 + 1)

/-- The auxiliary channels of a pixel; `albedo` and the normals are `none` where the code computes NaN or infinity. -/
structure Out where
  depth : WithTop ℝ
  gid : Option ℕ
  albedo : Option ℝ
  cameraNormal : Option V3
  worldNormal : Option V3

/-- renderer.ipp 523-553: the channels written for a pixel.  The depth channel holds infinity before (`FrameBuffer::clear`,
frame_buffer.hpp 82-85, called by `render`, line 36) and is written only with a finite value.  `c2w` is `camera_to_world_[0]`. -/
def write (c2w : Transform) (r : Acc × ℕ) : Out :=
  let inv : ℝ := 1 / (r.2 : ℝ)
  let n := if r.2 = 0 then none else normalize? (inv * r.1.normals)
  ⟨if r.1.depth < ⊤ then r.1.depth else ⊤, r.1.gid, if r.2 = 0 then none else some (r.1.albedo * inv), n,
    n.map c2w.applyDirection⟩

/-- A pixel (renderer.ipp 157-553). -/
def pixel (sc : Scene) (maxBounces turns : ℕ) (c2w : Transform) (l : List Sample) : Option Out :=
  (samples sc maxBounces turns true l Acc.start).map (write c2w)

/-- `camera_to_world_[i]` as the scene view builds it from the camera's pose in the world (`scene_view.ipp` 57-66): the
*inverse* of the observer's transform. -/
def cameraToWorld (observer : Transform) : Option Transform := observer.inverse

/-! ## The depth channel hides point sources -/

/-- `data_[to_linear(x, y)]` with the position truncated (`image.ipp` 240-248, `to_linear`: `y * width + x`); none: outside the
stored data. -/
def readAt (W : ℕ) (data : List (WithTop ℝ)) (x y : ℝ) : Option (WithTop ℝ) := data[(⌊y⌋.toNat * W + ⌊x⌋.toNat)]?

/-- Is a projected source drawn?  Line 831 drops positions off the image (both ends kept), renderer.ipp 888-896 look at the depth channel
if there is one (`hasDepth`).  none: a read outside the depth image. -/
def drawn (W H : ℕ) (hasDepth : Bool) (data : List (WithTop ℝ)) (x y : ℝ) : Option Bool :=
  if x < 0 ∨ x > W ∨ y < 0 ∨ y > H then some false
  else if hasDepth then (readAt W data x y).map fun d => decide (d = ⊤)
  else some true

end
end Huira.Aov
