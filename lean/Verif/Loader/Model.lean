import Verif.Core.TransformProps
import Verif.View.CollectModel
import Verif.Geometry.MeshModel
/-!
# Model of the conversion of a loaded 3D file: nodes and meshes

Models `include/huira_impl/assets/io/model_loader.ipp` (`convert_transform_`, `process_node_`, the root part of `load`, `convert_mesh_`,
`process_meshes_`).  What Assimp returns is the input.  `float` and `double` are the reals; names and log output are dropped
(registries accept every name, C02); objects are identified by numbers.
-/
set_option linter.unusedSimpArgs false
namespace Huira.Loader
noncomputable section
open V3 Rot Xform

/-! ## Effects -/

/-- Kinds of scene objects that loading registers with the scene. -/
inductive Ev
  | model | bsdf | material | texture | geometry | primitive | node
deriving DecidableEq

/-- The outcome of a piece of code that registers objects: what was registered, and the result (`none`: an exception). -/
structure Out (α : Type) where
  added : List Ev
  val : Option α

namespace Out
variable {α β : Type}
/-- A result without effect. -/
def pure (a : α) : Out α := ⟨[], some a⟩
/-- `HUIRA_THROW_ERROR`. -/
def throw : Out α := ⟨[], none⟩
/-- A computation that may throw and registers nothing. -/
def ofOption (a : Option α) : Out α := ⟨[], a⟩
/-- Registering one object. -/
def emit (e : Ev) : Out Unit := ⟨[e], some ()⟩
/-- Sequencing; an exception keeps what was registered before it. -/
def bind (a : Out α) (f : α → Out β) : Out β :=
  match a.val with
  | none => ⟨a.added, none⟩
  | some x => ⟨a.added ++ (f x).added, (f x).val⟩
end Out

/-! ## Node transforms -/

/-- `aiMatrix4x4` (Assimp): row-major, the letters name the rows. -/
structure AiMat where
  a1 : ℝ
  a2 : ℝ
  a3 : ℝ
  a4 : ℝ
  b1 : ℝ
  b2 : ℝ
  b3 : ℝ
  b4 : ℝ
  c1 : ℝ
  c2 : ℝ
  c3 : ℝ
  c4 : ℝ

/-- `if (scale > 1e-10) col /= scale` (`model_loader.ipp` 329-343). -/
def unitCol (c : V3) (s : ℝ) : V3 := open Classical in if s > 1e-10 then ⟨c.x / s, c.y / s, c.z / s⟩ else c

/-- `convert_transform_` (`model_loader.ipp` 300-352); `none` when `from_local_to_parent` throws.  The last row is ignored. -/
def convertTransform (m : AiMat) : Option Transform :=
  let position : V3 := ⟨m.a4, m.b4, m.c4⟩
  let col0 : V3 := ⟨m.a1, m.b1, m.c1⟩
  let col1 : V3 := ⟨m.a2, m.b2, m.c2⟩
  let col2 : V3 := ⟨m.a3, m.b3, m.c3⟩
  let sx := Real.sqrt (col0.x * col0.x + col0.y * col0.y + col0.z * col0.z)
  let sy := Real.sqrt (col1.x * col1.x + col1.y * col1.y + col1.z * col1.z)
  let sz := Real.sqrt (col2.x * col2.x + col2.y * col2.y + col2.z * col2.z)
  (setMatrix ⟨unitCol col0 sx, unitCol col1 sy, unitCol col2 sz⟩).map fun r =>
    { Transform.default with position := position, rotation := r, scale := ⟨sx, sy, sz⟩ }

/-! ## Node hierarchy -/

/-- `aiNode`: transformation, mesh indices, children. -/
inductive AiNode where
  | mk (m : AiMat) (meshes : List Nat) (children : List AiNode)

/-- `new_instance(primitive)` (`frame_node.ipp` 69-79): a child with the default transform. -/
def inst (p : Nat) : Collect.Node Transform := .mk [] Transform.default (.prim p) []

/-- The loop over the meshes of a node (`model_loader.ipp` 267-286); `prims` is `primitive_map` (index: mesh). -/
def instances (prims : List Nat) : List Nat → Out (List (Collect.Node Transform))
  | [] => .pure []
  | i :: is => match prims[i]? with
    | none => .throw
    | some p => (instances prims is).bind fun l => .pure (inst p :: l)

mutual
/-- `process_node_` (`model_loader.ipp` 246-292). -/
def processNode (prims : List Nat) : AiNode → Out (Collect.Node Transform)
  | .mk m meshes children =>
    (Out.ofOption (convertTransform m)).bind fun t =>
    (Out.emit .node).bind fun _ =>
    (instances prims meshes).bind fun is =>
    (processList prims children).bind fun cs =>
    .pure (.mk [] t .none (is ++ cs))

/-- The loop over the children (`model_loader.ipp` 289-291 and 93-95). -/
def processList (prims : List Nat) : List AiNode → Out (List (Collect.Node Transform))
  | [] => .pure []
  | n :: ns => (processNode prims n).bind fun c => (processList prims ns).bind fun cs => .pure (c :: cs)
end

/-- The root part of `load` (`model_loader.ipp` 86-108): the children of the root, then its own meshes; a mesh index
that does not exist is only logged. -/
def processRoot (prims : List Nat) : AiNode → Out (Collect.Node Transform)
  | .mk m meshes children =>
    (Out.ofOption (convertTransform m)).bind fun t =>
    (processList prims children).bind fun cs =>
    .pure (.mk [] t .none (cs ++ (meshes.filterMap fun i => prims[i]?).map inst))

/-! ## Meshes -/

/-- A value of `RGB`. -/
abbrev Rgb := ℝ × ℝ × ℝ

/-- `aiMesh`: faces as index lists; the arrays that are present, each with one entry per vertex (Assimp's contract, `Wf`). -/
structure AiMesh where
  faces : List (List Nat)
  numVertices : Nat
  vertices : List V3
  normals : Option (List V3)
  texCoords : Option (List V3)
  colors : Option (List (Rgb × ℝ))
  tangents : Option (List V3 × List V3)
  materialIndex : Nat

variable {n : ℕ}

/-- The index loop (`model_loader.ipp` 159-168). -/
def faceIndices (face : List Nat) : List Nat := match face with
  | [i, j, k] => [i, j, k]
  | _ => []

/-- Normal of a vertex (`model_loader.ipp` 182-186). -/
def convertNormal (a : AiMesh) (i : Nat) : Option V3 := match a.normals with
  | some l => l[i]?
  | none => some ⟨0, 1, 0⟩

/-- Texture coordinates of a vertex (`model_loader.ipp` 189-195). -/
def convertTexCoord (a : AiMesh) (i : Nat) : Option (ℝ × ℝ) := match a.texCoords with
  | some l => l[i]?.map fun c => (c.x, 1 - c.y)
  | none => some (0, 0)

/-- Colour of a vertex (`model_loader.ipp` 198-203); the default is 1 (`vertex.hpp` 13). -/
def convertColor (conv : Rgb → (Fin n → ℝ)) (a : AiMesh) (i : Nat) : Option (Fin n → ℝ) := match a.colors with
  | some l => l[i]?.map fun c => conv c.1
  | none => some fun _ => 1

/-- One pass of the vertex loop (`model_loader.ipp` 176-212); `none` when an array is read outside. -/
def convertVertex (conv : Rgb → (Fin n → ℝ)) (a : AiMesh) (i : Nat) : Option (Mesh.Vtx n) := do
  let position ← a.vertices[i]?
  let normal ← convertNormal a i
  let uv ← convertTexCoord a i
  let albedo ← convertColor conv a i
  return ⟨position, albedo, normal, uv⟩

/-- The tangents pushed by the vertex loop (`model_loader.ipp` 204-209). -/
def convertTangent (a : AiMesh) (i : Nat) : Option (List Mesh.Tan) := match a.tangents with
  | some (t, b) => do return [⟨← t[i]?, ← b[i]?⟩]
  | none => some []

/-- The buffers built by `convert_mesh_` (`model_loader.ipp` 154-212); outer `none`: a read outside an array. -/
def buffers (conv : Rgb → (Fin n → ℝ)) (a : AiMesh) : Option (List Nat × List (Mesh.Vtx n) × List Mesh.Tan) := do
  let vs ← (List.range a.numVertices).mapM (convertVertex conv a)
  let ts ← (List.range a.numVertices).mapM (convertTangent a)
  return (a.faces.flatMap faceIndices, vs, ts.flatten)

/-- `convert_mesh_` (`model_loader.ipp` 150-233); the result is the mesh and its material.  Without a material of that index
`add_primitive` is called with an empty handle and throws (`scene.ipp` 287-289), after the geometry has been registered. -/
def convertMesh (conv : Rgb → (Fin n → ℝ)) (materials : Nat) (a : AiMesh) : Out (Mesh.Mesh n × Nat) :=
  (Out.ofOption (buffers conv a)).bind fun b =>
  (Out.ofOption (Mesh.makeTan b.1 b.2.1 b.2.2)).bind fun mesh =>
  (Out.emit .geometry).bind fun _ =>
  if a.materialIndex < materials then (Out.emit .primitive).bind fun _ => .pure (mesh, a.materialIndex)
  else .throw

/-- `process_meshes_` (`model_loader.ipp` 123-138). -/
def processMeshes (conv : Rgb → (Fin n → ℝ)) (materials : Nat) : List AiMesh → Out (List (Mesh.Mesh n × Nat))
  | [] => .pure []
  | a :: l => (convertMesh conv materials a).bind fun p => (processMeshes conv materials l).bind fun ps => .pure (p :: ps)

end
end Huira.Loader
