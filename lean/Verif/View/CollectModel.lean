/-!
# Model of the collection of a scene into a view

Models the traversals of `include/huira_impl/scene/scene_view.ipp`: `traverse_and_collect_`, `traverse_model_graph_`, the
`handle_asset_ptr_` overloads, the `add_…_instance_` functions, `build_tlas_`, the lookup of a hit's instance in `resolve_hit` and the
resolution of the unresolved objects in the constructor.  Objects are identified by numbers (addresses in the code).  Transforms are
of an arbitrary type with an arbitrary product, so that single precision rounding is included.  The graph is a finite tree (a model
that contains itself makes the code recurse forever).
-/

namespace Huira.Collect

mutual
/-- A node of the scene graph or of a model's graph (`node.hpp`).  `apparent` are the transforms relative to the camera at the temporal
samples (`get_apparent_transform` and the camera's inverse, `scene_view.ipp` 395-408), used for nodes of the scene only; `loc` is
`local_transform_`, used for nodes of a model only. -/
inductive Node (T : Type) where
  | mk (apparent : List T) (loc : T) (asset : Asset T) (children : List (Node T))

/-- What a node instantiates (`Instantiable`, `scene/instance.hpp` 33); `none` for a frame or a null model. -/
inductive Asset (T : Type) where
  | none
  | prim (p : Nat)
  | light (l : Nat)
  | camera
  | unresolved (u : Nat)
  | model (root : Node T)
end

variable {T : Type}

def Node.apparent : Node T → List T | .mk a _ _ _ => a
def Node.loc : Node T → T | .mk _ l _ _ => l
def Node.asset : Node T → Asset T | .mk _ _ a _ => a
def Node.children : Node T → List (Node T) | .mk _ _ _ c => c

/-- The collected members of a `SceneView` (`scene_view.hpp` 104-110): batches of a primitive and the transforms of its instances,
`batch_lookup_`, lights and unresolved objects. -/
structure St (T : Type) where
  primitives : List (Nat × List (List T)) := []
  lookup : Nat → Option Nat := fun _ => none
  lights : List (Nat × List T) := []
  unresolved : List (Nat × List T) := []

/-- `add_primitive_instance_` (`scene_view.ipp` 493-512). -/
def St.addPrim (s : St T) (p : Nat) (tf : List T) : St T :=
  match s.lookup p with
  | some index => { s with primitives := s.primitives.modify index fun b => (b.1, b.2 ++ [tf]) }
  | none => { s with
      primitives := s.primitives ++ [(p, [tf])]
      lookup := fun k => if k = p then some ((s.primitives ++ [(p, [tf])]).length - 1) else s.lookup k }

/-- `add_light_instance_` (`scene_view.ipp` 519-529). -/
def St.addLight (s : St T) (l : Nat) (tf : List T) : St T := { s with lights := s.lights ++ [(l, tf)] }

/-- `add_unresolved_instance_` (`scene_view.ipp` 536-546). -/
def St.addUnresolved (s : St T) (u : Nat) (tf : List T) : St T := { s with unresolved := s.unresolved ++ [(u, tf)] }

mutual
/-- The `handle_asset_ptr_` overloads (`scene_view.ipp` 425-486). -/
def handle (mul : T → T → T) (s : St T) (tf : List T) : Asset T → St T
  | .none => s
  | .prim p => s.addPrim p tf
  | .light l => s.addLight l tf
  | .camera => s
  | .unresolved u => s.addUnresolved u tf
  | .model root => modelNode mul s tf root

/-- `traverse_model_graph_` (`scene_view.ipp` 553-573). -/
def modelNode (mul : T → T → T) (s : St T) (parent : List T) : Node T → St T
  | .mk _ loc asset children =>
    modelList mul (handle mul s (parent.map fun t => mul t loc) asset) (parent.map fun t => mul t loc) children

/-- The loop over the children of a node of a model (`scene_view.ipp` 570-572). -/
def modelList (mul : T → T → T) (s : St T) (parent : List T) : List (Node T) → St T
  | [] => s
  | n :: ns => modelList mul (modelNode mul s parent n) parent ns
end

mutual
/-- `traverse_and_collect_` (`scene_view.ipp` 388-418). -/
def collect (mul : T → T → T) (s : St T) : Node T → St T
  | .mk apparent _ asset children => collectList mul (handle mul s apparent asset) children

/-- The loop over the children of a node of the scene (`scene_view.ipp` 415-417). -/
def collectList (mul : T → T → T) (s : St T) : List (Node T) → St T
  | [] => s
  | n :: ns => collectList mul (collect mul s n) ns
end

/-! ## Acceleration structure -/

/-- `InstanceMapping` (`scene_view.hpp` 123-130); the fields the other kind of mapping leaves at zero are kept. -/
structure Mapping where
  isLight : Bool := false
  batch : Nat := 0
  inst : Nat := 0
  light : Nat := 0
deriving DecidableEq, Inhabited

/-- One instance attached to the acceleration structure: identifier, the primitive (left) or light (right) whose shape it is, the
transforms over time and the mask. -/
structure Entry (T : Type) where
  id : Nat
  what : Nat ⊕ Nat
  transforms : List T
  mask : Nat

/-- `MASK_GEOMETRY_`, `MASK_LIGHT_` (`scene_view.hpp` 120-121). -/
def maskGeometry : Nat := 1
def maskLight : Nat := 2

/-- `instance_mappings_.resize` if needed and the assignment (`scene_view.ipp` 615-625, 699-708). -/
def store (ms : List Mapping) (id : Nat) (m : Mapping) : List Mapping :=
  let ms := if ms.length ≤ id then ms ++ List.replicate (id + 1 - ms.length) default else ms
  ms.set id m

/-- The acceleration structure and `instance_mappings_`. -/
structure Tlas (T : Type) where
  entries : List (Entry T) := []
  mappings : List Mapping := []

/-- `rtcAttachGeometry` and what follows; `ids k` is the identifier Embree returns for the `k`-th attached geometry. -/
def Tlas.attach (ids : Nat → Nat) (t : Tlas T) (what : Nat ⊕ Nat) (tf : List T) (mask : Nat) (m : Mapping) : Tlas T :=
  { entries := t.entries ++ [⟨ids t.entries.length, what, tf, mask⟩]
    mappings := store t.mappings (ids t.entries.length) m }

/-- The inner loop over the instances of a batch (`scene_view.ipp` 592-626). -/
def attachInstances (ids : Nat → Nat) (batch p : Nat) : Nat → Tlas T → List (List T) → Tlas T
  | _, t, [] => t
  | i, t, tf :: rest => attachInstances ids batch p (i + 1) (t.attach ids (.inl p) tf maskGeometry ⟨false, batch, i, 0⟩) rest

/-- The loop over the batches (`scene_view.ipp` 588-627). -/
def attachBatches (ids : Nat → Nat) : Nat → Tlas T → List (Nat × List (List T)) → Tlas T
  | _, t, [] => t
  | b, t, (p, insts) :: rest => attachBatches ids (b + 1) (attachInstances ids b p 0 t insts) rest

/-- The loop over the sphere lights (`scene_view.ipp` 630-709). -/
def attachLights (ids : Nat → Nat) (isSphere : Nat → Bool) : Nat → Tlas T → List (Nat × List T) → Tlas T
  | _, t, [] => t
  | i, t, (l, tf) :: rest =>
    let t' := if !isSphere l then t else if tf.length = 0 then t else t.attach ids (.inr l) tf maskLight ⟨true, 0, 0, i⟩
    attachLights ids isSphere (i + 1) t' rest

/-- `build_tlas_` (`scene_view.ipp` 578-712). -/
def buildTlas (ids : Nat → Nat) (isSphere : Nat → Bool) (s : St T) : Tlas T :=
  attachLights ids isSphere 0 (attachBatches ids 0 {} s.primitives) s.lights

/-- The primitive and transforms `resolve_hit` uses for a hit on the instance `id` (`scene_view.ipp` 306-313); `none` for an index out of
range. The kind of the mapping is not looked at. -/
def resolveInstance (s : St T) (t : Tlas T) (id : Nat) : Option (Nat × List T) := do
  let m ← t.mappings[id]?
  let b ← s.primitives[m.batch]?
  let tf ← b.2[m.inst]?
  pure (b.1, tf)

/-- The light the renderer uses for a hit on the instance `id` (`renderer.ipp` 306-313). -/
def resolveLight (s : St T) (t : Tlas T) (id : Nat) : Option (Nat × List T) := do
  let m ← t.mappings[id]?
  if m.isLight then s.lights[m.light]? else none

/-! ## Unresolved objects -/

/-- The light instance an unresolved sphere or asteroid uses: the first one of its light (`unresolved_sphere.ipp` 129-130,
`unresolved_asteroid.ipp` 155-156). -/
def lightFor (lights : List (Nat × List T)) (l : Nat) : Option (Nat × List T) := lights.find? fun x => x.1 == l

/-- The resolution of the unresolved objects at the end of the constructor (`scene_view.ipp` 135-141): the irradiance is stored in the
object. `f` is the object's `resolve_irradiance`, `none` for an exception. -/
def resolveAll {E : Type} (f : Nat → List T → Option E) : (Nat → Option E) → List (Nat × List T) → Option (Nat → Option E)
  | irr, [] => some irr
  | irr, (u, tf) :: rest =>
    match f u tf with
    | none => none
    | some e => resolveAll f (fun k => if k = u then some e else irr k) rest

/-- The irradiance an instance of the object `u` is rendered with. -/
def instanceIrradiance {E : Type} (irr : Nat → Option E) (u : Nat) : Option E := irr u

end Huira.Collect
