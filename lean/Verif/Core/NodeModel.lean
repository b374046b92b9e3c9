import Verif.Core.TransformModel

/-!
# Model of the world (SSB) transform of a node

Models, from `include/huira_impl/scene/node.ipp`: `get_ssb_transform_` (424-512), `get_local_position_at_` (521-538),
`get_local_rotation_at_` (547-576), `get_geometric_state_` (387-414), `get_apparent_transform` (350-376), the static getters
(578-640), and `compute_aberrated_direction` (`include/huira_impl/core/physics.ipp` 238-267). Exact real arithmetic; times
are ephemeris seconds. SPICE is an arbitrary pair of functions of name and time, callbacks are arbitrary functions; `none`
stands for an exception. A node is given with the list of its ancestors, nearest first (`parent_` links).
-/

namespace Huira.World

open V3 Rot Xform

/-- `TransformMode` (node.hpp). -/
inductive Mode where
  | manual
  | spice
  | positionCallback
  | rotationCallback
  | transformCallback
  deriving DecidableEq

/-- The members of a node that matter (node.hpp 133-151). `S` are SPICE names. -/
structure Node (S : Type) where
  posMode : Mode
  rotMode : Mode
  loc : Transform
  bodyRates : Bool
  origin : S
  frame : S
  posCb : ℝ → M3 → V3 → V3 × V3
  rotCb : ℝ → V3 → V3 → M3 × V3
  stateCb : ℝ → Transform

/-- SPICE: `spkezr(origin, t, "J2000", "NONE", "SSB")` and `sxform("J2000", frame, t)`. -/
structure Spice (S : Type) where
  spk : S → ℝ → V3 × V3
  sx : S → ℝ → M3 × V3

/-- `numeric_limits<double>::epsilon()`, used by the axis-angle constructor. -/
noncomputable def machEps : ℝ := 2 ^ (-52 : ℤ)

/-- `get_local_position_at_` (node.ipp 521-538), `total = (t_obs - dt) - epoch`. -/
noncomputable def localPosition {S : Type} (n : Node S) (total : ℝ) : V3 × V3 :=
  (n.loc.position + total * n.loc.velocity, n.loc.velocity)

/-- `get_local_rotation_at_` (node.ipp 547-576). -/
noncomputable def localRotation {S : Type} (n : Node S) (total : ℝ) : Option (M3 × V3) :=
  let omega := n.loc.angularVelocity
  let angle := len omega * total
  if |angle| < 1e-12 then some (n.loc.rotation, omega)
  else do
    let delta ← axisAngle machEps (normalize omega) angle
    let r ← if n.bodyRates then compose n.loc.rotation delta else compose delta n.loc.rotation
    return (r, omega)

/-- The local transform of a node below `parent`, node.ipp 451-508 (all but the fully-SPICE case). -/
noncomputable def localTransform {S : Type} (sp : Spice S) (n : Node S) (parent : Transform) (epoch tObs dt : ℝ) :
    Option Transform := do
  let tEmit := tObs - dt
  if n.posMode = .transformCallback ∧ n.rotMode = .transformCallback then
    return { n.stateCb tEmit with scale := n.loc.scale }
  else
    let (p, v) ← match n.posMode with
      | .spice => do
        let inv ← parent.inverse
        let (pos, vel) := sp.spk n.origin tEmit
        pure (inv.applyPoint pos, inv.applyDirection vel)
      | .manual => pure (localPosition n (tObs - dt - epoch))
      | _ => pure (⟨0, 0, 0⟩, ⟨0, 0, 0⟩)
    let (r, w) ← match n.rotMode with
      | .spice => do
        let (rot, av) := sp.sx n.frame tEmit
        let inv ← parent.inverse
        let r ← compose inv.rotation rot
        pure (r, inv.applyDirection av)
      | .manual => localRotation n (tObs - dt - epoch)
      | _ => pure (M3.one, ⟨0, 0, 0⟩)
    let (p, v) := if n.posMode = .positionCallback then n.posCb tEmit r w else (p, v)
    let (r, w) := if n.rotMode = .rotationCallback then n.rotCb tEmit p v else (r, w)
    return { position := p, rotation := r, scale := n.loc.scale, velocity := v, angularVelocity := w }

/-- `get_ssb_transform_` (node.ipp 424-512). -/
noncomputable def ssb {S : Type} (sp : Spice S) (epoch tObs dt : ℝ) : Node S → List (Node S) → Option Transform
  | n, ancestors =>
    if n.posMode = .spice ∧ n.rotMode = .spice then
      let (pos, vel) := sp.spk n.origin (tObs - dt)
      let (rot, av) := sp.sx n.frame (tObs - dt)
      some { position := pos, rotation := rot, scale := n.loc.scale, velocity := vel, angularVelocity := av }
    else
      match ancestors with
      | [] => none
      | p :: rest => do
        let parent ← ssb sp epoch tObs dt p rest
        let l ← localTransform sp n parent epoch tObs dt
        parent.compose l
  termination_by _ ancestors => ancestors.length

/-- Loop of `get_geometric_state_` (node.ipp 400-411): `pos τ` is the node's position at light time `τ`, `k` iterations
are left. Returns the light time the returned transform was computed with and the last light time. -/
noncomputable def lightLoop (pos : ℝ → V3) (obs : V3) (c tol : ℝ) : Nat → ℝ → ℝ → ℝ × ℝ
  | 0, last, dt => (last, dt)
  | k + 1, _, dt =>
    let newDt := len (obs - pos dt) / c
    if |newDt - dt| < tol then (dt, newDt) else lightLoop pos obs c tol k dt newDt

/-- `get_geometric_state_` (node.ipp 387-414) with `iterate`: the light time at which the returned transform is evaluated,
and the returned light time. -/
noncomputable def geometric (pos : ℝ → V3) (obs : V3) (c tol : ℝ) : ℝ × ℝ :=
  lightLoop pos obs c tol 10 0 (len (obs - pos 0) / c)

/-- `compute_aberrated_direction` (physics.ipp 238-267); `c` is the speed of light. -/
noncomputable def aberrate (c : ℝ) (u v : V3) : Option V3 :=
  let beta := (1 / c) * v
  let b2 := dot beta beta
  if b2 < 0.999999 then
    let gamma := 1 / Real.sqrt (1 - b2)
    let ub := dot u beta
    let num := u + beta + ((gamma / (1 + gamma)) * ub) * beta
    let den := gamma * (1 + ub)
    some ((1 / den) * num)
  else none

/-- Apparent position, `get_apparent_transform` (node.ipp 357-373), of a point at `p` for an observer at `obs`. -/
noncomputable def apparent (c : ℝ) (obs vObs p : V3) : Option V3 :=
  let rel := p - obs
  let dist := len rel
  if dist > 1e-8 then do
    let uApp ← aberrate c ((1 / dist) * rel) vObs
    return obs + dist * uApp
  else some p

/-- `ObservationMode` (node.hpp 37) -/
inductive ObsMode where
  | trueState
  | geometricState
  | aberratedState
  deriving DecidableEq

/-- `get_apparent_transform` (node.ipp 350-376): `state τ` is the world transform at light time `τ`
(`get_ssb_transform_(epoch, t_obs, τ)`, here assumed not to throw). -/
noncomputable def apparentTransform (mode : ObsMode) (c tol : ℝ) (state : ℝ → Transform) (observer : Transform) :
    Option Transform :=
  match mode with
  | .trueState => some (state 0)
  | .geometricState => some (state (geometric (fun t => (state t).position) observer.position c tol).1)
  | .aberratedState => do
    let g := state (geometric (fun t => (state t).position) observer.position c tol).1
    let p ← apparent c observer.position observer.velocity g.position
    return { g with position := p }

/-- `ZUpYForwardCallback::evaluate` (nadir_point.hpp 8-22), `up = true`, and `ZDownYForwardCallback::evaluate` (24-38),
`up = false`; the casts of the axes to float are not modelled, `none` stands for an exception or NaN axes. -/
noncomputable def nadir (up : Bool) (position velocity : V3) : Option (M3 × V3) := do
  let z ← normalize? position
  let z := if up then z else -z
  let y ← normalize? velocity
  let x ← normalize? (cross y z)
  let y ← normalize? (cross z x)
  let r ← fromBasis x y z
  return (r, ⟨0, 0, 0⟩)

/-- `get_static_position` (node.ipp 578-587) -/
def getStaticPosition {S : Type} (n : Node S) : Option V3 := if n.posMode ≠ .manual then none else some n.loc.position
/-- `get_static_rotation` (node.ipp 588-597): tests `position_mode_` -/
def getStaticRotation {S : Type} (n : Node S) : Option M3 := if n.posMode ≠ .manual then none else some n.loc.rotation
/-- `get_static_scale` (node.ipp 598-602) -/
def getStaticScale {S : Type} (n : Node S) : Option V3 := some n.loc.scale
/-- `get_static_velocity` (node.ipp 603-612) -/
def getStaticVelocity {S : Type} (n : Node S) : Option V3 := if n.posMode ≠ .manual then none else some n.loc.velocity
/-- `get_static_angular_velocity` (node.ipp 613-622): tests `position_mode_` -/
def getStaticAngularVelocity {S : Type} (n : Node S) : Option V3 :=
  if n.posMode ≠ .manual then none else some n.loc.angularVelocity
/-- `get_spice_origin` (node.ipp 624-632) -/
def getSpiceOrigin {S : Type} (n : Node S) : Option S := if n.posMode ≠ .spice then none else some n.origin
/-- `get_spice_frame` (node.ipp 634-642): tests `position_mode_` -/
def getSpiceFrame {S : Type} (n : Node S) : Option S := if n.posMode ≠ .spice then none else some n.frame

end Huira.World
