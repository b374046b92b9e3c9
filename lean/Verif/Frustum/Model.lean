import Mathlib.Algebra.Module.Basic
import Verif.Num.Vec3
/-!
# Frustum: containment and triangle clipping (model)

Models `include/huira_impl/render/frustum.ipp` 12-33 (`Frustum`, `contains`), 53-91 (`clip_triangle`), 129-141
(`lerp_clip_vertex_`), 157-191 (`clip_polygon_by_plane_`) and the data of `include/huira/geometry/vertex.hpp`
(`Vertex`, `Tangent`, `Triangle`).

Simplification: exact real arithmetic; a spectral value is an element of a real vector space `S` (a vector of bins,
on which `+`, `-` and scaling act per bin).
-/
namespace Huira.Frustum
noncomputable section
open Classical

/-- `Vertex<TSpectral>` (vertex.hpp). -/
@[ext] structure Vertex (S : Type) where
  position : V3
  albedo : S
  normal : V3
  uv : ℝ × ℝ

/-- `Tangent` (vertex.hpp). -/
@[ext] structure Tangent where
  tangent : V3
  bitangent : V3

/-- `Triangle<TSpectral>` (vertex.hpp): three vertices and, optionally, three tangents. -/
structure Triangle (S : Type) where
  v0 : Vertex S
  v1 : Vertex S
  v2 : Vertex S
  tangents : Option (Tangent × Tangent × Tangent)

/-- `ClipVertex` (frustum.hpp 60-63). -/
@[ext] structure ClipVertex (S : Type) where
  vertex : Vertex S
  tangent : Tangent

variable {S : Type} [AddCommGroup S] [Module ℝ S]

/-- `contains` (frustum.ipp 24-33). -/
def contains (normals : List V3) (d : V3) : Bool := !normals.any (fun n => decide (V3.dot n d < 0))

/-- `lerp_clip_vertex_` (frustum.ipp 129-141). -/
def lerp (a b : ClipVertex S) (t : ℝ) : ClipVertex S :=
  ⟨⟨a.vertex.position + t * (b.vertex.position - a.vertex.position),
    a.vertex.albedo + t • (b.vertex.albedo - a.vertex.albedo),
    a.vertex.normal + t * (b.vertex.normal - a.vertex.normal),
    a.vertex.uv + t • (b.vertex.uv - a.vertex.uv)⟩,
   ⟨a.tangent.tangent + t * (b.tangent.tangent - a.tangent.tangent),
    a.tangent.bitangent + t * (b.tangent.bitangent - a.tangent.bitangent)⟩⟩

/-- The body of the loop of `clip_polygon_by_plane_` (frustum.ipp 169-188). -/
def clipEdge (n : V3) (current next : ClipVertex S) : List (ClipVertex S) :=
  let dCurrent := V3.dot n current.vertex.position
  let dNext := V3.dot n next.vertex.position
  if 0 ≤ dCurrent ∧ 0 ≤ dNext then [next]
  else if 0 ≤ dCurrent ∧ ¬ 0 ≤ dNext then [lerp current next (dCurrent / (dCurrent - dNext))]
  else if ¬ 0 ≤ dCurrent ∧ 0 ≤ dNext then [lerp current next (dCurrent / (dCurrent - dNext)), next]
  else []

/-- `clip_polygon_by_plane_` (frustum.ipp 157-191): `polygon[i]` is paired with `polygon[(i + 1) % n]`. -/
def clipPolygon (n : V3) (polygon : List (ClipVertex S)) : List (ClipVertex S) :=
  (polygon.zip (polygon.tail ++ polygon.take 1)).flatMap (fun e => clipEdge n e.1 e.2)

/-- The loop over the planes with its early exit (frustum.ipp 67-73). -/
def clipAll : List V3 → List (ClipVertex S) → List (ClipVertex S)
  | [], polygon => polygon
  | n :: ns, polygon =>
    let polygon := clipPolygon n polygon
    if polygon.isEmpty then [] else clipAll ns polygon

/-- One triangle of the fan (frustum.ipp 79-88). -/
def mkTriangle (hasTangents : Bool) (p a b : ClipVertex S) : Triangle S :=
  ⟨p.vertex, a.vertex, b.vertex, if hasTangents then some (p.tangent, a.tangent, b.tangent) else none⟩

/-- Fan triangulation (frustum.ipp 75-90): `polygon[0], polygon[i], polygon[i+1]` for `1 ≤ i`, `i + 1 < size`. -/
def fan (hasTangents : Bool) : List (ClipVertex S) → List (Triangle S)
  | [] => []
  | p :: l => (l.zip l.tail).map (fun e => mkTriangle hasTangents p e.1 e.2)

/-- The initial polygon (frustum.ipp 57-64); without tangents the default-constructed (zero) tangent is used. -/
def initial (t : Triangle S) : List (ClipVertex S) :=
  let z : Tangent := ⟨V3.zero, V3.zero⟩
  match t.tangents with
  | some (a, b, c) => [⟨t.v0, a⟩, ⟨t.v1, b⟩, ⟨t.v2, c⟩]
  | none => [⟨t.v0, z⟩, ⟨t.v1, z⟩, ⟨t.v2, z⟩]

/-- `clip_triangle` (frustum.ipp 53-91). -/
def clipTriangle (normals : List V3) (t : Triangle S) : List (Triangle S) :=
  fan t.tangents.isSome (clipAll normals (initial t))

end
end Huira.Frustum
