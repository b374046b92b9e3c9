/-!
# Geometries and primitives

Models `include/huira_impl/scene/scene.ipp` 161-166 (`add_geometry`), 196-218 (`delete_geometry`), 279-301
(`add_primitive`), 331-339 (`delete_primitive`) and frame_handle.ipp 48-55 (`new_instance`).

The outcome of `prune_graph_references_` (scene.ipp 1116-1152) is taken from the scene-graph model
(`Huira.SceneGraph.C07_instanced_asset_cannot_be_deleted`): it throws, without changing the graph, iff the
primitive has an instance somewhere; otherwise it does nothing.  Instances therefore never go away and are
kept as a list of instantiated primitives.  Names are irrelevant here and dropped.
-/
namespace Huira.Assets

structure Scene where
  next : Nat
  /-- `geometries_` -/
  geoms : List Nat
  /-- `primitives_`: (primitive, its `geometry` pointer) -/
  prims : List (Nat × Nat)
  /-- primitives wrapped by the instances in the scene graph -/
  insts : List Nat

inductive Op where
  | addGeometry
  | addPrimitive (g : Nat)
  | instantiate (p : Nat)
  | deletePrimitive (p : Nat)
  | deleteGeometry (g : Nat)

inductive Out where
  | created (n : Nat)
  | done
  | throw
deriving DecidableEq

def init : Scene := { next := 0, geoms := [], prims := [], insts := [] }

/-- `delete_primitive` (scene.ipp 331-339): dead handle throws; an instance in the graph makes the pruning
throw before the primitive is removed. -/
def deletePrimitive (s : Scene) (p : Nat) : Scene × Out :=
  if p ∈ s.prims.map (·.1) then
    if p ∈ s.insts then (s, .throw)
    else ({ s with prims := s.prims.filter (fun e => e.1 ≠ p) }, .done)
  else (s, .throw)

/-- The purge loop of `delete_geometry` (scene.ipp 213-215); the first throw escapes. -/
def purge (s : Scene) : List Nat → Scene × Out
  | [] => (s, .done)
  | p :: ps =>
    match deletePrimitive s p with
    | (s', .throw) => (s', .throw)
    | (s', _) => purge s' ps

/-- One API call. -/
def step (s : Scene) : Op → Scene × Out
  | .addGeometry => ({ s with geoms := s.geoms ++ [s.next], next := s.next + 1 }, .created s.next)
  | .addPrimitive g =>
    if g ∈ s.geoms then ({ s with prims := s.prims ++ [(s.next, g)], next := s.next + 1 }, .created s.next)
    else (s, .throw)
  | .instantiate p =>
    if p ∈ s.prims.map (·.1) then ({ s with insts := s.insts ++ [p] }, .done) else (s, .throw)
  | .deletePrimitive p => deletePrimitive s p
  | .deleteGeometry g =>
    if g ∈ s.geoms then
      match purge s ((s.prims.filter (fun e => e.2 = g)).map (·.1)) with
      | (s', .throw) => (s', .throw)
      | (s', _) => ({ s' with geoms := s'.geoms.erase g }, .done)
    else (s, .throw)

def run : Scene → List Op → Scene
  | s, [] => s
  | s, op :: ops => run (step s op).1 ops

end Huira.Assets
