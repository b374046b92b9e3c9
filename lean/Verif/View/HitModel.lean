import Verif.Core.TransformModel

/-!
# Model of hit resolution

Models `SceneView::resolve_hit` (`include/huira_impl/scene/scene_view.ipp` 299-331), in exact real arithmetic.  A vector of NaNs (the
result of normalising the zero vector) is `none`; every comparison with it is false.  `Transform` is the model of C64.
-/

namespace Huira.Hit

open V3 Xform

noncomputable section
open Classical

/-- What the geometry's `compute_surface_interaction` has set, in the coordinates of the geometry (`scene_view.ipp` 309). -/
structure Local where
  position : V3
  normalS : V3
  tangent : V3
  bitangent : V3

/-- The interaction. -/
structure Isect where
  position : V3
  normalG : Option V3
  normalS : Option V3
  tangent : Option V3
  bitangent : Option V3
  wo : V3

/-- `glm::dot(a, b) < 0` with NaN. -/
def dotNeg (a b : Option V3) : Prop := ∃ u v, a = some u ∧ b = some v ∧ dot u v < 0

/-- `-a` with NaN. -/
def neg? (a : Option V3) : Option V3 := a.map (fun v => -v)

/-- `glm::cross` with NaN. -/
def cross? (a b : Option V3) : Option V3 := a.bind fun u => b.map fun v => cross u v

/-- `resolve_hit` (`scene_view.ipp` 299-331), given the instance's transforms, one for each temporal sample; `none` when there
is none (out-of-range read). -/
def resolve (transforms : List Transform) (loc : Local) (ng : V3) (d : V3) : Option Isect :=
  match transforms[0]? with
  | none => none
  | some xf =>
    let g := normalize? (xf.applyDirection ng)
    let g := if dotNeg (some d) g then g else neg? g
    let s := normalize? (xf.applyDirection loc.normalS)
    let s := if dotNeg s g then neg? s else s
    let t := normalize? (xf.applyDirection loc.tangent)
    let b := normalize? (xf.applyDirection loc.bitangent)
    let b := if dotNeg (cross? t b) s then neg? b else b
    some ⟨xf.applyPoint loc.position, g, s, t, b, -d⟩

end
end Huira.Hit
