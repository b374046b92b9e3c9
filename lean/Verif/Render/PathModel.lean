import Mathlib.Analysis.SpecialFunctions.Complex.Arg
import Mathlib.Analysis.SpecialFunctions.Trigonometric.Inverse
import Verif.Num.Vec3
import Verif.Render.StatsModel
/-!
# Weights of light paths, key-frame interpolation, environment lookup

Models, from `include/huira_impl/render/renderer.ipp`: the multiple-importance-sampling state carried along a path
(`prev_bsdf_pdf`, `prev_isect`, `bounce`; lines 190-198, 276, 308-338, 354-371, 426-433, 458-459) and the weights given to
light samples and light hits; `interpolate_transform` (lines 74-103); the environment-map coordinates (lines 289-294).
-/
namespace Huira.Path

noncomputable section
open Classical

/-! ## Multiple importance sampling -/

/-- What happened at a path vertex, with an identifier of its position. -/
inductive Event (Pos : Type) where
  /-- BSDF sampled at a surface (lines 447-459) -/
  | surface (pos : Pos) (delta : Bool) (pdf : XF)
  /-- phase function sampled in a medium (lines 267-277) -/
  | volume (pos : Pos) (pdf : XF)
  /-- passed through a partly transparent surface (lines 354-371): `bounce--; continue` -/
  | pass (pos : Pos)

/-- `bounce`, `prev_bsdf_pdf`, `prev_isect` (none: the default-constructed `Interaction` of line 193). -/
structure St (Pos : Type) where
  bounce : Nat
  pdf : XF
  isect : Option Pos

/-- Start of a path, lines 192-198. -/
def St.start (Pos : Type) : St Pos := ⟨0, .fin 1, none⟩

/-- One vertex: `prev_bsdf_pdf = is_delta ? 0 : pdf; prev_isect = shading_isect` for a surface (lines 458-459),
`prev_bsdf_pdf = ps.p` for a medium (line 276; `prev_isect` is not updated), nothing for a pass-through. -/
def St.next {Pos : Type} (s : St Pos) : Event Pos → St Pos
  | .surface p d f => ⟨s.bounce + 1, if d then .fin 0 else f, some p⟩
  | .volume _ f => ⟨s.bounce + 1, f, s.isect⟩
  | .pass _ => s

/-- State after a path prefix. -/
def after {Pos : Type} (es : List (Event Pos)) : St Pos := es.foldl St.next (St.start Pos)

/-- Weight of a light hit, lines 316-327; `lightPdf` is the light's density (`pdf_li`) as seen from an interaction. -/
def hitWeight {Pos : Type} (s : St Pos) (lightPdf : Option Pos → XF) : XF :=
  if s.bounce > 0 then Stats.powerHeuristic s.pdf (lightPdf s.isect) else .fin 1

/-- Weight of a light sample taken at a surface, lines 428-433. -/
def neeSurface (lightPdf bsdfPdf : XF) : XF := Stats.powerHeuristic lightPdf bsdfPdf

/-- Weight of a light sample taken in a medium, lines 256-258: no heuristic is applied. -/
def neeVolume : XF := .fin 1

/-! ## Key frames -/

/-- A transform: position, and the other parts (rotation, scale) as abstract data with their default. -/
structure Frame (Rot : Type) where
  position : V3
  rotation : Rot
  scale : V3

/-- `Transform<float>{}`: origin, identity rotation, unit scale. -/
def Frame.default {Rot : Type} (ident : Rot) : Frame Rot := ⟨⟨0, 0, 0⟩, ident, ⟨1, 1, 1⟩⟩

/-- `interpolate_transform`, lines 74-103. Line 97 calls the static factory `from_local_to_parent` and drops its result,
and line 100 (scale) is commented out, so rotation and scale keep their defaults when there are two or more key frames. -/
def interpolate {Rot : Type} (ident : Rot) (l : List (Frame Rot)) (t : ℝ) : Frame Rot :=
  match l with
  | [] => Frame.default ident
  | [a] => a
  | _ =>
    let scaled := t * ((l.length - 1 : Nat) : ℝ)
    let idx := min ⌊scaled⌋.toNat (l.length - 2)
    let frac := scaled - (idx : ℝ)
    { Frame.default ident with
      position := (1 - frac) * (l.getD idx (Frame.default ident)).position +
        frac * (l.getD (idx + 1) (Frame.default ident)).position }

/-! ## Environment map -/

/-- `u` and `v` of a direction, lines 290-294: `0.5 + atan2(d.z, d.x) / (2 pi)` and `0.5 - asin(clamp(d.y, -1, 1)) / pi`.
`atan2(y, x)` is the argument of `x + i y`. -/
def envU (d : V3) : ℝ := 1 / 2 + Complex.arg ⟨d.x, d.z⟩ * (1 / 2 * (1 / Real.pi))
def envV (d : V3) : ℝ := 1 / 2 - Real.arcsin (max (-1) (min 1 d.y)) * (1 / Real.pi)

end
end Huira.Path
