/-!
# Scene graph: frames, instances, transform modes

Models `include/huira_impl/scene/node.ipp` (1-339, 577-641, 748-768), `include/huira_impl/scene/frame_node.ipp`
(25-180), `include/huira_impl/handles/scene/frame_handle.ipp` (1-65),
`include/huira_impl/handles/scene/node_handle.ipp`, and of `include/huira_impl/scene/scene.ipp` the
constructor (46-48), `delete_primitive` / `delete_light` / ... (331-339, 449-454, ...) and
`prune_graph_references_` (1114-1152).

Simplifications: vectors, rotations and scales are values of an arbitrary type `V`; SPICE strings are values of
type `S`; callbacks carry no data; logging is dropped.  Nodes are numbered in creation order, node 0 is the
root.  Nodes loaded by the model loader (`model_loader.ipp` 264) live in the tree of their model, not under the
scene root, and are not modelled.
-/
namespace Huira.SceneGraph

/-- `TransformMode` (node.hpp). -/
inductive Mode where
  | manual | spice | positionCallback | rotationCallback | transformCallback
deriving DecidableEq

/-- `Transform<double>` as stored in `local_transform_`. -/
structure Local (V : Type) where
  position : V
  velocity : V
  rotation : V
  angularVelocity : V
  scale : V

/-- `Node` / `FrameNode` / `Instance` fields (node.hpp 132-155, frame_node.hpp 65, instance.hpp 70). -/
structure Node (V S : Type) where
  /-- `FrameNode` (can have children) as opposed to `Instance`. -/
  isFrame : Bool
  /-- `Instance::asset_`: which asset pointer it wraps. -/
  asset : Option Nat
  /-- `parent_` -/
  parent : Option Nat
  /-- `children_` -/
  children : List Nat
  /-- `position_mode_` -/
  posMode : Mode
  /-- `rotation_mode_` -/
  rotMode : Mode
  /-- `spice_origin_`, `none` = empty string -/
  origin : Option S
  /-- `spice_frame_`, `none` = empty string -/
  frame : Option S
  /-- `local_transform_` -/
  loc : Local V
  /-- `body_frame_rates_` -/
  bodyRates : Bool

/-- Scene graph. `registered` is `Scene::node_registry_.objects_`, consulted by `delete_child`. -/
structure Graph (V S : Type) where
  count : Nat
  node : Nat → Node V S
  registered : List Nat

variable {V S : Type}

/-- Freshly constructed node (node.hpp 133-140). -/
def freshNode (dflt : Local V) (isFrame : Bool) (asset : Option Nat) (parent : Option Nat) : Node V S :=
  { isFrame, asset, parent, children := [], posMode := .manual, rotMode := .manual,
    origin := none, frame := none, loc := dflt, bodyRates := false }

/-- Replace node `n`. -/
def Graph.set (g : Graph V S) (n : Nat) (x : Node V S) : Graph V S :=
  { g with node := fun i => if i = n then x else g.node i }

/-- Scene constructor: the root is a SPICE frame (scene.ipp 46-48). -/
def initGraph (dflt : Local V) (ssb j2000 : S) : Graph V S :=
  { count := 1,
    node := fun _ => { (freshNode dflt true none none : Node V S) with
      posMode := .spice, rotMode := .spice, origin := some ssb, frame := some j2000 },
    registered := [] }

/-- `position_must_be_spice_` (frame_node.ipp 156-164; instances have no children, node.hpp 143). -/
def posMustBeSpice (g : Graph V S) (n : Nat) : Bool :=
  (g.node n).children.any (fun c => decide ((g.node c).posMode = .spice))

/-- `rotation_must_be_spice_` (frame_node.ipp 171-179). -/
def rotMustBeSpice (g : Graph V S) (n : Nat) : Bool :=
  (g.node n).children.any (fun c => decide ((g.node c).rotMode = .spice))

/-- `position_can_be_spice_` (node.ipp 749-757). -/
def posCanBeSpice (g : Graph V S) (n : Nat) : Bool :=
  match (g.node n).parent with
  | none => true
  | some p => decide ((g.node p).posMode = .spice)

/-- `rotation_can_be_spice_` (node.ipp 760-768). -/
def rotCanBeSpice (g : Graph V S) (n : Nat) : Bool :=
  match (g.node n).parent with
  | none => true
  | some p => decide ((g.node p).rotMode = .spice)

/-- `children_.push_back(child)` of a freshly made node (frame_node.ipp 28-30, 72-77). -/
def addChild (dflt : Local V) (g : Graph V S) (p : Nat) (isFrame : Bool) (asset : Option Nat) : Graph V S :=
  { g with
    count := g.count + 1,
    node := fun i =>
      if i = g.count then freshNode dflt isFrame asset (some p)
      else if i = p then { g.node p with children := (g.node p).children ++ [g.count] }
      else g.node i }

/-- API calls on existing nodes. -/
inductive Op (V S : Type) where
  | newSubframe (p : Nat)
  | newSpiceSubframe (p : Nat) (origin frame : S)
  | newInstance (p : Nat) (asset : Nat)
  | deleteChild (p c : Nat)
  | setPosition (n : Nat) (v : V)
  | setRotation (n : Nat) (v : V)
  | setScale (n : Nat) (v : V)
  | setVelocity (n : Nat) (v : V)
  | setAngularVelocity (n : Nat) (v : V)
  | setBodyAngularVelocity (n : Nat) (v : V)
  | setManualTransform (n : Nat) (t : Local V)
  | setSpiceOrigin (n : Nat) (s : S)
  | setSpiceFrame (n : Nat) (s : S)
  | setSpice (n : Nat) (o f : S)
  | setPositionCallback (n : Nat)
  | setRotationCallback (n : Nat)
  | setStateCallback (n : Nat)

inductive Out where
  | done
  | created (n : Nat)
  | throw
deriving DecidableEq

/-- `Node::set_spice` (node.ipp 268-284). -/
def setSpice (g : Graph V S) (n : Nat) (o f : S) : Graph V S × Out :=
  if !posCanBeSpice g n then (g, .throw)
  else if !rotCanBeSpice g n then (g, .throw)
  else (g.set n { g.node n with origin := some o, frame := some f, posMode := .spice, rotMode := .spice }, .done)

/-- `FrameNode::delete_child` (frame_node.ipp 42-61) with `NameRegistry::remove` (name_registry.ipp 39-42)
on `node_registry_`: throws for foreign children, throws for children that are not registered, otherwise
unregisters and unlinks. -/
def deleteChild (g : Graph V S) (p c : Nat) : Graph V S × Out :=
  if (g.node c).parent ≠ some p then (g, .throw)
  else if c ∈ (g.node p).children then
    if c ∈ g.registered then
      ({ g with registered := g.registered.erase c }.set p
          { g.node p with children := (g.node p).children.erase c }, .done)
    else (g, .throw)
  else (g, .done)

/-- Node numbers mentioned by a call must be existing nodes, and must be frames where the API takes a
`FrameHandle`; other calls cannot be written (the handle types forbid them), we let them throw. -/
def frameOk (g : Graph V S) (p : Nat) : Bool := decide (p < g.count) && (g.node p).isFrame
def nodeOk (g : Graph V S) (n : Nat) : Bool := decide (n < g.count)

/-- One API call. -/
def step (dflt : Local V) (g : Graph V S) : Op V S → Graph V S × Out
  -- frame_handle.ipp 7-10, frame_node.ipp 26-35
  | .newSubframe p => if frameOk g p then (addChild dflt g p true none, .created g.count) else (g, .throw)
  -- frame_handle.ipp 19-26: the child exists before `set_spice` is tried
  | .newSpiceSubframe p o f =>
    if frameOk g p then
      match setSpice (addChild dflt g p true none) g.count o f with
      | (g', .done) => (g', .created g.count)
      | (g', _) => (g', .throw)
    else (g, .throw)
  -- frame_handle.ipp 48-55, frame_node.ipp 69-145
  | .newInstance p a => if frameOk g p then (addChild dflt g p false (some a), .created g.count) else (g, .throw)
  -- frame_handle.ipp 33-36, 62-65
  | .deleteChild p c => if frameOk g p && nodeOk g c then deleteChild g p c else (g, .throw)
  -- node.ipp 51-64
  | .setPosition n v =>
    if !nodeOk g n || posMustBeSpice g n then (g, .throw)
    else (g.set n { g.node n with loc := { (g.node n).loc with position := v }, posMode := .manual, origin := none }, .done)
  -- node.ipp 71-83
  | .setRotation n v =>
    if !nodeOk g n || rotMustBeSpice g n then (g, .throw)
    else (g.set n { g.node n with loc := { (g.node n).loc with rotation := v }, rotMode := .manual, frame := none }, .done)
  -- node.ipp 105-111
  | .setScale n v =>
    if !nodeOk g n then (g, .throw)
    else (g.set n { g.node n with loc := { (g.node n).loc with scale := v } }, .done)
  -- node.ipp 135-148
  | .setVelocity n v =>
    if !nodeOk g n || (g.node n).posMode ≠ .manual then (g, .throw)
    else (g.set n { g.node n with loc := { (g.node n).loc with velocity := v } }, .done)
  -- node.ipp 173-188
  | .setAngularVelocity n v =>
    if !nodeOk g n || (g.node n).rotMode ≠ .manual then (g, .throw)
    else (g.set n { g.node n with loc := { (g.node n).loc with angularVelocity := v }, bodyRates := false }, .done)
  -- node.ipp 197-212
  | .setBodyAngularVelocity n v =>
    if !nodeOk g n || (g.node n).rotMode ≠ .manual then (g, .throw)
    else (g.set n { g.node n with loc := { (g.node n).loc with angularVelocity := v }, bodyRates := true }, .done)
  -- node.ipp 215-226: the modes and SPICE strings are left alone
  | .setManualTransform n t =>
    if !nodeOk g n || rotMustBeSpice g n || posMustBeSpice g n then (g, .throw)
    else (g.set n { g.node n with loc := t, bodyRates := false }, .done)
  -- node.ipp 233-243
  | .setSpiceOrigin n s =>
    if !nodeOk g n || !posCanBeSpice g n then (g, .throw)
    else (g.set n { g.node n with origin := some s, posMode := .spice }, .done)
  -- node.ipp 250-260
  | .setSpiceFrame n s =>
    if !nodeOk g n || !rotCanBeSpice g n then (g, .throw)
    else (g.set n { g.node n with frame := some s, rotMode := .spice }, .done)
  -- node.ipp 268-284
  | .setSpice n o f => if nodeOk g n then setSpice g n o f else (g, .throw)
  -- node.ipp 286-307: no check of the children
  | .setPositionCallback n =>
    if !nodeOk g n then (g, .throw)
    else (g.set n { g.node n with posMode := .positionCallback, origin := none }, .done)
  -- node.ipp 309-328: no check of the children
  | .setRotationCallback n =>
    if !nodeOk g n then (g, .throw)
    else (g.set n { g.node n with rotMode := .rotationCallback, frame := none }, .done)
  -- node.ipp 330-339
  | .setStateCallback n =>
    if !nodeOk g n then (g, .throw)
    else (g.set n { g.node n with posMode := .transformCallback, rotMode := .transformCallback,
                                  origin := none, frame := none }, .done)

/-- Getter results. -/
inductive Got (α : Type) where
  | val (a : α)
  | throw

/-- `get_static_position` (node.ipp 578-586) -/
def getPosition (g : Graph V S) (n : Nat) : Got V :=
  if (g.node n).posMode ≠ .manual then .throw else .val (g.node n).loc.position
/-- `get_static_rotation` (node.ipp 588-596): checks the *position* mode -/
def getRotation (g : Graph V S) (n : Nat) : Got V :=
  if (g.node n).posMode ≠ .manual then .throw else .val (g.node n).loc.rotation
/-- `get_static_velocity` (node.ipp 603-611) -/
def getVelocity (g : Graph V S) (n : Nat) : Got V :=
  if (g.node n).posMode ≠ .manual then .throw else .val (g.node n).loc.velocity
/-- `get_static_angular_velocity` (node.ipp 613-621): checks the *position* mode -/
def getAngularVelocity (g : Graph V S) (n : Nat) : Got V :=
  if (g.node n).posMode ≠ .manual then .throw else .val (g.node n).loc.angularVelocity
/-- `get_static_scale` (node.ipp 598-601) -/
def getScale (g : Graph V S) (n : Nat) : Got V := .val (g.node n).loc.scale
/-- `get_spice_origin` (node.ipp 624-631) -/
def getOrigin (g : Graph V S) (n : Nat) : Got (Option S) :=
  if (g.node n).posMode ≠ .spice then .throw else .val (g.node n).origin
/-- `get_spice_frame` (node.ipp 634-641): checks the *position* mode -/
def getFrame (g : Graph V S) (n : Nat) : Got (Option S) :=
  if (g.node n).posMode ≠ .spice then .throw else .val (g.node n).frame

/-! ### Deleting assets -/

/-- `prune_graph_references_` (scene.ipp 1116-1152), depth first over the tree below `n`: every instance of
asset `a` is deleted through `delete_child`; the first throw aborts.  `fuel` bounds the recursion depth (the
tree has at most `count` nodes); the `children_snapshot` is the list iterated over. -/
def prune (g : Graph V S) (a : Nat) : Nat → Nat → Graph V S × Out
  | 0, _ => (g, .done)
  | fuel + 1, n =>
    (g.node n).children.foldl (fun (acc : Graph V S × Out) c =>
      match acc with
      | (g', .throw) => (g', .throw)
      | (g', _) =>
        if (g'.node c).asset = some a then deleteChild g' n c
        else prune g' a fuel c) (g, .done)

end Huira.SceneGraph
