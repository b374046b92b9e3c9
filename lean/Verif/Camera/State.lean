import Verif.Num.XFloat
/-!
# The camera as a state machine

`include/huira_impl/cameras/camera_model.ipp`, `include/huira/cameras/camera_model.hpp`,
`include/huira_impl/cameras/sensors/sensor_model.ipp`. Lengths are in metres, values are extended floats (`XF`).

Derived data (direction field, frustum, pixel solid angles) are deterministic functions of the settings in force when they
were computed; the model stores that snapshot of the settings instead of the data. The type `D` names distortion models.
PSF, Harvey-Shack and defocus-kernel data are left out.
-/
namespace Huira.Camera
noncomputable section
open Classical

/-- The settings a ray direction depends on. -/
structure Optics (D : Type) where
  fx : XF
  fy : XF
  cx : XF
  cy : XF
  resX : Int
  resY : Int
  blender : Bool
  distortion : Option D

/-- Where `cast_ray` takes its directions from (camera_model.ipp 516-524): computed from the present settings, or from
the direction field, given by the settings it was computed with (`none`: never computed). -/
inductive RaySource (D : Type) where
  | pinhole (o : Optics D)
  | field (o : Option (Optics D))

/-- Members of `CameraModel` (camera_model.hpp 159-208); the sensor's resolution and pitch included. -/
structure State (D : Type) where
  focal : XF
  pitchX : XF
  pitchY : XF
  isExplicit : Bool
  o : Optics D
  field : Option (Optics D)
  frustum : Optics D × RaySource D
  solid : Optics D
  veilAlpha : XF
  veilOn : Bool
  focus : XF

variable {D : Type}

/-- What `cast_ray` uses now. -/
def State.rays (s : State D) : RaySource D :=
  match s.o.distortion with
  | none => .pinhole s.o
  | some _ => .field s.field

/-- `compute_frustum_` (camera_model.ipp 716-771): uses `cast_ray` on the edge pixels and the convention. -/
def computeFrustum (s : State D) : State D := { s with frustum := (s.o, s.rays) }
/-- `compute_distortion_field_` (camera_model.ipp 645-657) -/
def computeField (s : State D) : State D := { s with field := some s.o }
/-- `compute_intrinsics_` (camera_model.ipp 602-614) -/
def computeIntrinsics (s : State D) : State D :=
  let s := if s.isExplicit then s
    else { s with o := { s.o with fx := s.focal.div s.pitchX, fy := s.focal.div s.pitchY } }
  let s := computeFrustum s
  { s with solid := s.o }

/-- Outcome of a call: the state it leaves and whether it threw. -/
structure Res (D : Type) where
  st : State D
  threw : Bool

def Res.bind (r : Res D) (f : State D → Res D) : Res D := if r.threw then r else f r.st
def ret (s : State D) : Res D := ⟨s, false⟩
def fail (s : State D) : Res D := ⟨s, true⟩

/-- `SensorModel::set_resolution` (sensor_model.ipp 36-43) -/
def setResolution (x y : Int) (s : State D) : Res D :=
  if x < 0 ∨ y < 0 then fail s else ret { s with o := { s.o with resX := x, resY := y } }
/-- `SensorModel::set_pixel_pitch` (sensor_model.ipp 53-63) -/
def setPitch (x y : XF) (s : State D) : Res D :=
  if x.le (.fin 0) ∨ x.isInf ∨ x.isNan ∨ y.le (.fin 0) ∨ y.isInf ∨ y.isNan then fail s
  else ret { s with pitchX := x, pitchY := y }
/-- `SensorModel::set_sensor_size` (sensor_model.ipp 86-97) -/
def setSize (w h : XF) (s : State D) : Res D :=
  if w.le (.fin 0) ∨ w.isInf ∨ w.isNan ∨ h.le (.fin 0) ∨ h.isInf ∨ h.isNan then fail s
  else setPitch (w.div (.fin s.o.resX)) (h.div (.fin s.o.resY)) s

/-- Principal-point block shared by both `configure_sensor_*` (camera_model.ipp 142-162, 196-215) -/
def setPrincipal (cx cy : Option XF) (x y : Int) (s : State D) : Res D :=
  let fcx := cx.getD (.fin ((x : ℝ) * 0.5))
  let fcy := cy.getD (.fin ((y : ℝ) * 0.5))
  if fcx.isNan ∨ fcy.isNan ∨ fcx.isInf ∨ fcy.isInf then fail s
  else ret (computeIntrinsics { s with o := { s.o with cx := fcx, cy := fcy } })

/-- `set_focal_length` (camera_model.ipp 33-52), the PSF update left out -/
def setFocalLength (f : XF) (s : State D) : Res D :=
  let s := { s with isExplicit := false, focal := f }
  if s.focal.le (.fin 0) ∨ s.focal.isInf ∨ s.focal.isNan then fail s else ret (computeIntrinsics s)

/-- `configure_sensor_from_pitch` (camera_model.ipp 126-162) -/
def configPitch (x y : Int) (px : XF) (py : Option XF) (cx cy : Option XF) (s : State D) : Res D :=
  let s := { s with isExplicit := false }
  ((setResolution x y s).bind (setPitch px (py.getD px))).bind (setPrincipal cx cy x y)

/-- `configure_sensor_from_size` (camera_model.ipp 175-216) -/
def configSize (x y : Int) (w : XF) (h : Option XF) (cx cy : Option XF) (s : State D) : Res D :=
  let s := { s with isExplicit := false }
  ((setResolution x y s).bind (fun s => match h with
    | some h => setSize w h s
    | none => setPitch (w.div (.fin x)) (w.div (.fin x)) s)).bind (setPrincipal cx cy x y)

/-- `set_intrinsics` (camera_model.ipp 246-270) -/
def setIntrinsics (fx fy cx cy : XF) (x y : Int) (anchor : XF) (s : State D) : Res D :=
  let s := { s with isExplicit := true, o := { s.o with fx := fx, fy := fy, cx := cx, cy := cy } }
  (((setResolution x y s).bind (fun s =>
    let s := { s with focal := anchor }
    setPitch (anchor.div fx) (anchor.div fy) s)).bind (fun s =>
    setSize ((anchor.div fx).mul (.fin x)) ((anchor.div fy).mul (.fin y)) s)).bind (fun s => ret (computeIntrinsics s))

/-- A GLM 3×3 matrix: `m c r` is `m[c][r]`, column `c`, row `r`. -/
abbrev GlmMat3 := Fin 3 → Fin 3 → XF

/-- `set_intrinsic_matrix` (camera_model.ipp 225-235) -/
def setIntrinsicMatrix (m : GlmMat3) (x y : Int) (anchor : XF) (s : State D) : Res D :=
  setIntrinsics (m 0 0) (m 1 1) (m 0 2) (m 1 2) x y anchor s

/-- `set_distortion` (camera_model.ipp 63-68) -/
def setDistortion (d : D) (s : State D) : Res D :=
  ret (computeFrustum (computeField { s with o := { s.o with distortion := some d } }))
/-- `delete_distortion` (camera_model.hpp 65) -/
def deleteDistortion (s : State D) : Res D := ret { s with o := { s.o with distortion := none } }
/-- `use_blender_convention` (camera_model.hpp 155) -/
def useBlender (b : Bool) (s : State D) : Res D := ret { s with o := { s.o with blender := b } }

/-- `set_sensor` (camera_model.ipp 107-113) with the constructor's checks (sensor_model.ipp 13-26) -/
def setSensor (x y : Int) (px py : XF) (s : State D) : Res D :=
  if x < 0 ∨ y < 0 ∨ px.le (.fin 0) ∨ py.le (.fin 0) then fail s
  else ret (computeIntrinsics { s with pitchX := px, pitchY := py, o := { s.o with resX := x, resY := y } })

/-- `set_veiling_glare` (camera_model.ipp 342-350) -/
def setVeilingGlare (a : XF) (s : State D) : Res D :=
  if a.lt (.fin 0) ∨ XF.lt (.fin 1) a ∨ a.isNan then fail s
  else ret { s with veilAlpha := a, veilOn := decide (XF.lt (.fin 0) a) }
/-- `disable_veiling_glare` (camera_model.ipp 356-360) -/
def disableVeilingGlare (s : State D) : Res D := ret { s with veilAlpha := .fin 0, veilOn := false }

/-- `std::abs` -/
def absX : XF → XF
  | .fin r => .fin |r|
  | .ninf => .pinf
  | x => x

/-- `set_focus_distance` (camera_model.ipp 399-415), the defocus kernel left out -/
def setFocus (d : XF) (s : State D) : Res D :=
  if d.isNan then fail s
  else if (absX d).lt (.fin 1e-12) then fail s
  else ret { s with focus := d }
/-- `set_diopters` (camera_model.ipp 425-435) -/
def setDiopters (d : XF) (s : State D) : Res D :=
  setFocus (if (absX d).lt (.fin 1e-12) then .pinf else XF.div (.fin 1) d) s
/-- `get_diopters` (camera_model.ipp 441-448) -/
def getDiopters (s : State D) : XF := if s.focus.isInf then .fin 0 else XF.div (.fin 1) s.focus

/-- The public setters. -/
inductive Op (D : Type) where
  | focalLength (f : XF)
  | configPitch (x y : Int) (px : XF) (py cx cy : Option XF)
  | configSize (x y : Int) (w : XF) (h cx cy : Option XF)
  | intrinsics (fx fy cx cy : XF) (x y : Int) (anchor : XF)
  | intrinsicMatrix (m : GlmMat3) (x y : Int) (anchor : XF)
  | distortion (d : D)
  | deleteDistortion
  | blender (b : Bool)
  | sensor (x y : Int) (px py : XF)
  | veilingGlare (a : XF)
  | disableVeilingGlare
  | focus (d : XF)
  | diopters (d : XF)

def step (s : State D) : Op D → Res D
  | .focalLength f => setFocalLength f s
  | .configPitch x y px py cx cy => configPitch x y px py cx cy s
  | .configSize x y w h cx cy => configSize x y w h cx cy s
  | .intrinsics fx fy cx cy x y a => setIntrinsics fx fy cx cy x y a s
  | .intrinsicMatrix m x y a => setIntrinsicMatrix m x y a s
  | .distortion d => setDistortion d s
  | .deleteDistortion => deleteDistortion s
  | .blender b => useBlender b s
  | .sensor x y px py => setSensor x y px py s
  | .veilingGlare a => setVeilingGlare a s
  | .disableVeilingGlare => disableVeilingGlare s
  | .focus d => setFocus d s
  | .diopters d => setDiopters d s

/-- The default camera (constructor, camera_model.ipp 15-25; camera_model.hpp 159-208; sensor_model.hpp 26-28):
50 mm, 1024 × 1024 pixels of 8.5 µm. -/
def initial : State D :=
  let o0 : Optics D := ⟨.fin 0, .fin 0, .fin 512, .fin 512, 1024, 1024, false, none⟩
  computeIntrinsics ⟨.fin 0.05, .fin 8.5e-6, .fin 8.5e-6, false, o0, none, (o0, .pinhole o0), o0, .fin 0, false, .pinf⟩

/-- A history: every call is made, whether or not earlier ones threw. -/
def run (s : State D) : List (Op D) → State D
  | [] => s
  | op :: ops => run (step s op).st ops

/-- All calls of a history were accepted. -/
def Accepted (s : State D) : List (Op D) → Prop
  | [] => True
  | op :: ops => (step s op).threw = false ∧ Accepted (step s op).st ops

end
end Huira.Camera
