import Verif.Core.NodeMotion
/-!
# Model of the SPICE state interfaces

Models `include/huira_impl/core/spice.ipp` 255-358 (`spkezr`, `pxform`, `sxform`) over exact real numbers. CSPICE is a
parameter: what `spkezr_c`, `pxform_c` and `sxform_c` answer for given names and time. `xf2rav_c`, a routine of CSPICE that
only computes, is modelled by its formula. Error handling is modelled in `Verif.Core.SpiceSession`.
-/
namespace Huira.SpiceIf

open V3 Rot

/-- A C array `double[3][3]`: `a r c`, row first. -/
abbrev CMat := Fin 3 → Fin 3 → ℝ

/-- What the kernels say, for names `S`: `spkezr_c(target, et, frame, abcorr, observer)` (state in km and km/s, light time),
`pxform_c(from, to, et)`, and `sxform_c(from, to, et)`: a 6x6 matrix with the blocks `R 0; R' R`, given by `R` and `R'`. -/
structure CSpice (S : Type) where
  spkezr : S → ℝ → S → S → S → (V3 × V3) × ℝ
  pxform : S → S → ℝ → CMat
  sxform : S → S → ℝ → CMat × CMat

variable {S : Type}

/-- `spice::spkezr` (spice.ipp 255-277). -/
noncomputable def spkezr (k : CSpice S) (target : S) (et : ℝ) (frame abcorr observer : S) : V3 × V3 × ℝ :=
  let r := k.spkezr target et frame abcorr observer
  let positionKm : V3 := ⟨r.1.1.x, r.1.1.y, r.1.1.z⟩
  let velocityKm : V3 := ⟨r.1.2.x, r.1.2.y, r.1.2.z⟩
  ((1000 : ℝ) * positionKm, (1000 : ℝ) * velocityKm, r.2)

/-- The conversion of a row-major C matrix to a column-major `Mat3` (spice.ipp 297-305, 338-346). -/
def toMat3 (m : CMat) : M3 := ⟨⟨m 0 0, m 1 0, m 2 0⟩, ⟨m 0 1, m 1 1, m 2 1⟩, ⟨m 0 2, m 1 2, m 2 2⟩⟩

/-- `spice::pxform` (spice.ipp 287-309). -/
noncomputable def pxform (k : CSpice S) (frm dst : S) (et : ℝ) : Option M3 := p2lMatrix (toMat3 (k.pxform frm dst et))

/-- CSPICE's `xf2rav_c`: the rotation, and the angular velocity from the skew matrix `R'ᵀ R`. -/
noncomputable def xf2rav (x : CMat × CMat) : CMat × V3 :=
  let omega : CMat := fun i j => x.2 0 i * x.1 0 j + x.2 1 i * x.1 1 j + x.2 2 i * x.1 2 j
  (x.1, ⟨omega 2 1, omega 0 2, omega 1 0⟩)

/-- `spice::sxform` (spice.ipp 319-358). -/
noncomputable def sxform (k : CSpice S) (frm dst : S) (et : ℝ) : Option (M3 × V3) := do
  let (matrix, angularVelocity) := xf2rav (k.sxform frm dst et)
  let rotationObj ← p2lMatrix (toMat3 matrix)
  let angVelParent := rotationObj.mulVec angularVelocity
  return (rotationObj, angVelParent)

end Huira.SpiceIf
