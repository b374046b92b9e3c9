import Mathlib.Analysis.SpecialFunctions.Log.Basic
import Mathlib.Analysis.SpecialFunctions.Trigonometric.Basic
import Mathlib.Algebra.BigOperators.Fin
/-!
# Participating media (model)

`include/huira/volumes/medium_stack.hpp`, `medium.hpp`, `density/constant_density_field.hpp`,
`scattering/isotropic_scatter.hpp`, the volume part of `Renderer::path_trace_` and `SceneView::evaluate_transmittance`.
Spectral values are functions on channels; arithmetic is exact (real numbers), NaN inputs are not modelled.
-/
namespace Huira.Volumes

/-! ## Medium stack -/

/-- `MediumStack::CAPACITY` (medium_stack.hpp 21) -/
def capacity : Nat := 8

/-- A primitive is identified by its address; `hasMedium` tells whether `primitive->medium` is set. -/
structure Prim where
  id : Nat
  hasMedium : Bool
deriving DecidableEq

/-- The used part of `entries_`, top first. The stored medium is the primitive's. -/
abbrev Stack := List Prim

/-- `toggle` (medium_stack.hpp 46-62); `none` is the null primitive. -/
def toggle (s : Stack) : Option Prim → Stack
  | none => s
  | some p =>
    if p.hasMedium = false then s
    else if s.head? = some p then s.tail
    else if s.length < capacity then p :: s
    else s

/-- `top` (medium_stack.hpp 28-31): the primitive whose medium is active. -/
def top (s : Stack) : Option Prim := s.head?

/-- A ray's stack after crossing the given boundaries, starting from the empty stack (renderer.ipp 196). -/
def cross (s : Stack) (w : List (Option Prim)) : Stack := w.foldl toggle s

/-! ## Media -/

noncomputable section
open Real

/-- `ConstantDensityField(absorption, scattering)` (constant_density_field.hpp 17-31): `none` = throws. -/
def constantField {n : Nat} (absorption scattering : Fin n → ℝ) : Option ((Fin n → ℝ) × (Fin n → ℝ)) :=
  open Classical in
  if (∃ c, absorption c < 0) then none
  else if (∃ c, scattering c < 0) then none
  else some (absorption, scattering)

/-- `MediumProperties::extinction` (medium_properties.hpp 11) -/
def extinction {n : Nat} (p : (Fin n → ℝ) × (Fin n → ℝ)) : Fin n → ℝ := fun c => p.1 c + p.2 c

/-- `Medium::evaluate_transmittance` (medium.hpp 56-73) -/
def transmittance {n : Nat} (ext : Fin n → ℝ) (t : ℝ) : Fin n → ℝ :=
  if t ≤ 0 then fun _ => 1 else fun c => exp (-ext c * t)

/-- Average extinction (medium.hpp 86-90, renderer.ipp 207-211) -/
def avgExt {n : Nat} (ext : Fin n → ℝ) : ℝ := (∑ c, ext c) / n

/-- `Medium::sample_free_path` (medium.hpp 78-102): the distance for the random number `u`, or none. -/
def sampleFreePath {n : Nat} (ext : Fin n → ℝ) (u : ℝ) : Option ℝ :=
  if avgExt ext ≤ 1e-6 then none else some (-log (1 - u) / avgExt ext)

/-- What the path tracer does with it (renderer.ipp 201-285): either a scattering event at distance `t` with the given
throughput factor, or the surface at `hitT` is reached with the given factor. -/
inductive Flight (n : Nat) where
  | scatter (t : ℝ) (weight : Fin n → ℝ)
  | surface (weight : Fin n → ℝ)

/-- renderer.ipp 213-285 (`ext`, `scat` from `get_properties`; `hitT` is the finite distance of the next surface). -/
def flight {n : Nat} (ext scat : Fin n → ℝ) (hitT u : ℝ) : Flight n :=
  let avg := avgExt ext
  let surf : Flight n := .surface fun c => exp (-ext c * hitT) * (1 / exp (-avg * hitT))
  match sampleFreePath ext u with
  | some t =>
    if t < hitT then .scatter t fun c => scat c * exp (-ext c * t) * (1 / (avg * exp (-avg * t)))
    else surf
  | none => surf

/-- One step of `SceneView::evaluate_transmittance` (scene_view.ipp 231-289): the segment up to the next surface
crossed, the extinction of the medium active on it (none = vacuum) and what the surface does: `some tr` multiplies by its
transmission, `none` = passed through by opacity. -/
structure Segment (n : Nat) where
  length : ℝ
  ext : Option (Fin n → ℝ)
  surface : Option (Fin n → ℝ)

/-- A channel-wise `max() <= 0` test: every channel is non-positive. -/
def allNonpos {n : Nat} (f : Fin n → ℝ) : Prop := ∀ c, f c ≤ 0

/-- Attenuation by the active medium, if any (scene_view.ipp 239-240) -/
def applyMedium {n : Nat} (acc : Fin n → ℝ) (ext : Option (Fin n → ℝ)) (len : ℝ) : Fin n → ℝ :=
  match ext with
  | none => acc
  | some e => fun c => acc c * transmittance e len c

open Classical in
/-- The loop (scene_view.ipp 233-289) over the segments in order; the last segment has no surface event applied after it
(`lastLen`, `lastExt`). -/
def alongRay {n : Nat} (acc : Fin n → ℝ) : List (Segment n) → ℝ → Option (Fin n → ℝ) → Fin n → ℝ
  | [], len, ext =>
    let acc' := applyMedium acc ext len
    if ext.isSome ∧ allNonpos acc' then fun _ => 0 else acc'
  | s :: rest, len, ext =>
    let acc' := applyMedium acc s.ext s.length
    if s.ext.isSome ∧ allNonpos acc' then fun _ => 0
    else
      match s.surface with
      | none => alongRay acc' rest len ext
      | some tr => if allNonpos tr then fun _ => 0 else alongRay (fun c => acc' c * tr c) rest len ext

/-- `IsotropicPhaseFunction::evaluate` (isotropic_scatter.hpp 19-24) -/
def phaseEval : ℝ := 1 / (4 * π)

/-- `IsotropicPhaseFunction::sample` (isotropic_scatter.hpp 26-40): direction for the random numbers `u`, `v`. -/
def phaseSample (u v : ℝ) : ℝ × ℝ × ℝ :=
  let z := 1 - 2 * u
  let r := sqrt (max 0 (1 - z * z))
  let phi := 2 * π * v
  (r * cos phi, r * sin phi, z)

end
end Huira.Volumes
