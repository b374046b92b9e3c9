import Mathlib.Data.List.Perm.Basic
import Mathlib.Data.List.Basic
import Mathlib.Tactic.SplitIfs
/-!
# Models and the assets they refer to

Models `Model::set_all_bsdfs`, `Model::get_material_by_id` (`include/huira_impl/assets/model.ipp` 60-147), `delete_primitive`,
`delete_geometry`, `delete_model` (`include/huira_impl/scene/scene.ipp` 196-218, 331-339, 783-788), `new_instance` (frame_handle.ipp
48-55), and what a scene view reads of the instances (scene_view.ipp 400-520): an instance holds the plain address of
its asset (instance.hpp 28-32, 66), a model holds its own graph whose instances hold plain addresses of primitives.

Simplifications: the outcome of `prune_graph_references_` (scene.ipp 1116-1152) is the one proved for the scene graph
(`Huira.SceneGraph.C07_instanced_asset_cannot_be_deleted`): it throws when the main graph has an instance of the asset and
does nothing otherwise; it never looks into the graphs of models. Loading is the successful one (C108-C111): fresh materials,
one fresh geometry and primitive for every mesh, the graph of the file. Reading a destroyed object is the outcome `crash`.
-/
namespace Huira.AssetGraph

/-- The children of a frame, first child first: each is an instance of a primitive or a frame with children. -/
inductive Forest
  | nil
  | inst (p : ℕ) (rest : Forest)
  | frame (kids : Forest) (rest : Forest)
deriving Repr

/-- A node. -/
inductive Node
  | inst (p : ℕ)
  | frame (kids : Forest)

/-- `get_children()`. -/
def Forest.nodes : Forest → List Node
  | .nil => []
  | .inst p rest => .inst p :: rest.nodes
  | .frame kids rest => .frame kids :: rest.nodes

/-- Number of nodes and lists, for termination. -/
def Forest.size : Forest → ℕ
  | .nil => 1
  | .inst _ rest => 1 + rest.size
  | .frame kids rest => 1 + kids.size + rest.size

/-- Size of a node. -/
def Node.size : Node → ℕ
  | .inst _ => 1
  | .frame kids => 1 + kids.size

theorem nodes_size (f : Forest) : (f.nodes.map Node.size).sum < f.size := by
  induction f with
  | nil => simp [Forest.nodes, Forest.size]
  | inst p rest ih => simp only [Forest.nodes, List.map_cons, List.sum_cons, Node.size, Forest.size]; omega
  | frame kids rest _ ih => simp only [Forest.nodes, List.map_cons, List.sum_cons, Node.size, Forest.size]; omega

theorem sum_reverse (l : List Node) : (l.reverse.map Node.size).sum = (l.map Node.size).sum := by
  induction l with
  | nil => rfl
  | cons a l ih => simp only [List.reverse_cons, List.map_append, List.sum_append, ih, List.map_cons, List.map_nil,
      List.sum_cons, List.sum_nil]; omega

/-- The loops of `get_material_by_id` and `set_all_bsdfs` (model.ipp 73-103, 121-146): the primitives in the order in which they
are met; the argument is the stack, its back first. -/
def dfs : List Node → List ℕ
  | [] => []
  | .inst p :: st => p :: dfs st
  | .frame kids :: st => dfs (kids.nodes.reverse ++ st)
termination_by st => (st.map Node.size).sum
decreasing_by
  · simp only [List.map_cons, List.sum_cons, Node.size]; omega
  · have := nodes_size kids
    simp only [List.map_append, List.sum_append, sum_reverse, List.map_cons, List.sum_cons, Node.size]
    omega

/-- A primitive: its geometry and its material. -/
structure Prim where
  id : ℕ
  geom : ℕ
  mat : ℕ
deriving DecidableEq, Repr

/-- What an instance of the main graph points to. -/
inductive Ref
  | prim (p : ℕ)
  | model (m : ℕ)
deriving DecidableEq, Repr

/-- The scene. -/
structure Scene where
  next : ℕ := 0
  geoms : List ℕ := []
  prims : List Prim := []
  /-- models with the children of their root nodes -/
  models : List (ℕ × Forest) := []
  /-- instances of the main graph -/
  insts : List Ref := []
  /-- `bsdf_` of every material -/
  bsdf : ℕ → ℕ := fun _ => 0

/-- Outcome of a call. -/
inductive Out
  | created (n : ℕ)
  | done
  | throw
  | crash
deriving DecidableEq, Repr

/-- Follow the address of a primitive. -/
def Scene.at (s : Scene) (p : ℕ) : Option Prim := s.prims.find? fun q => q.id = p

/-- Rename the primitives of a forest. -/
def Forest.shift (k : ℕ) : Forest → Forest
  | .nil => .nil
  | .inst p rest => .inst (k + p) (rest.shift k)
  | .frame kids rest => .frame (kids.shift k) (rest.shift k)

/-- The primitives of a forest, in the order of the file. -/
def Forest.prims : Forest → List ℕ
  | .nil => []
  | .inst p rest => p :: rest.prims
  | .frame kids rest => kids.prims ++ rest.prims

/-- `load_model`: `mats` materials, a mesh with the given material for every entry of `meshes`, and the graph with instances of
mesh numbers. Identities are handed out from `next`: materials, then geometries, then primitives, then the model. -/
def loadModel (s : Scene) (mats : ℕ) (meshes : List ℕ) (root : Forest) : Scene × Out :=
  if (∀ m ∈ meshes, m < mats) ∧ ∀ p ∈ root.prims, p < meshes.length then
    let g0 := s.next + mats
    let p0 := g0 + meshes.length
    let m := p0 + meshes.length
    ({ s with
        next := m + 1
        geoms := s.geoms ++ (List.range meshes.length).map (g0 + ·)
        prims := s.prims ++ meshes.zipIdx.map fun e => ⟨p0 + e.2, g0 + e.2, s.next + e.1⟩
        models := s.models ++ [(m, root.shift p0)] }, .created m)
  else (s, .throw)

/-- `delete_primitive` (scene.ipp 331-339). -/
def deletePrimitive (s : Scene) (p : ℕ) : Scene × Out :=
  if (s.at p).isNone then (s, .throw)
  else if Ref.prim p ∈ s.insts then (s, .throw)
  else ({ s with prims := s.prims.filter fun q => q.id ≠ p }, .done)

/-- The purge loop of `delete_geometry` (scene.ipp 213-215). -/
def purge (s : Scene) : List ℕ → Scene × Out
  | [] => (s, .done)
  | p :: ps =>
    if (deletePrimitive s p).2 = .done then purge (deletePrimitive s p).1 ps else deletePrimitive s p

/-- The primitives an instance of the main graph makes a scene view read (scene_view.ipp 400-520); `none`: the model is gone. -/
def Scene.reads (s : Scene) : Ref → Option (List ℕ)
  | .prim p => some [p]
  | .model m => (s.models.find? fun e => e.1 = m).map fun e => dfs [.frame e.2]

/-- What a program can do. -/
inductive Op
  | load (mats : ℕ) (meshes : List ℕ) (root : Forest)
  | instPrim (p : ℕ)
  | instModel (m : ℕ)
  | deletePrim (p : ℕ)
  | deleteGeom (g : ℕ)
  | deleteModel (m : ℕ)
  | setAll (m b : ℕ)
  | find (m mat : ℕ)
  | render

/-- The search of `get_material_by_id` (model.ipp 81-105) over the primitives met. -/
def search (s : Scene) (mat : ℕ) : List ℕ → Out
  | [] => .throw
  | p :: ps =>
    match s.at p with
    | none => .crash
    | some q => if q.mat = mat then .created mat else search s mat ps

/-- The loop of `set_all_bsdfs` (model.ipp 127-139) over the primitives met. -/
def setAll (s : Scene) (b : ℕ) : List ℕ → Scene × Out
  | [] => (s, .done)
  | p :: ps =>
    match s.at p with
    | none => (s, .crash)
    | some q => setAll { s with bsdf := fun m => if m = q.mat then b else s.bsdf m } b ps

/-- Making a scene view and rendering it: every instance of the main graph is followed. -/
def render (s : Scene) : Out :=
  if ∀ r ∈ s.insts, ∃ ps, s.reads r = some ps ∧ ∀ p ∈ ps, (s.at p).isSome then .done else .crash

open Classical in
/-- One call. -/
noncomputable def step (s : Scene) : Op → Scene × Out
  | .load mats meshes root => loadModel s mats meshes root
  | .instPrim p => if (s.at p).isSome then ({ s with insts := s.insts ++ [.prim p] }, .done) else (s, .throw)
  | .instModel m =>
    if m ∈ s.models.map (·.1) then ({ s with insts := s.insts ++ [.model m] }, .done) else (s, .throw)
  | .deletePrim p => deletePrimitive s p
  | .deleteGeom g =>
    if g ∈ s.geoms then
      let r := purge s ((s.prims.filter fun q => q.geom = g).map (·.id))
      if r.2 = .done then ({ r.1 with geoms := r.1.geoms.erase g }, .done) else r
    else (s, .throw)
  | .deleteModel m =>
    if m ∈ s.models.map (·.1) then
      if Ref.model m ∈ s.insts then (s, .throw)
      else ({ s with models := s.models.filter fun e => e.1 ≠ m }, .done)
    else (s, .throw)
  | .setAll m b =>
    match s.models.find? fun e => e.1 = m with
    | none => (s, .throw)
    | some e => setAll s b (dfs [.frame e.2])
  | .find m mat =>
    match s.models.find? fun e => e.1 = m with
    | none => (s, .throw)
    | some e => (s, search s mat (dfs [.frame e.2]))
  | .render => (s, render s)

/-- A program. -/
noncomputable def run (s : Scene) : List Op → Scene
  | [] => s
  | op :: ops => run (step s op).1 ops

end Huira.AssetGraph
