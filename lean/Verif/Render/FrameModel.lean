import Mathlib.Algebra.BigOperators.Intervals
import Verif.FrameBuffer.Model
import Verif.Image.Model
import Verif.Sensor.Model
/-!
# A render from the enabled channels and the camera's settings to the pictures

Models `Renderer::render` (`include/huira_impl/render/renderer.ipp` lines 24-62) with the ends of `path_trace_` (lines
129-132, 569-577, 583) and `render_unresolved_` (lines 656-665, 700-702, 1014-1017), the camera settings they read
(`include/huira_impl/cameras/camera_model.ipp`, the parts cited below), the two pictures of the frame buffer they write
(`include/huira/render/frame_buffer.hpp`), and `SimpleSensor::readout`
(`include/huira_impl/cameras/sensors/simple_sensor.ipp` lines 65-116).

What path tracing computes before the point-spread function is applied, and what the drawing of point sources leaves in
its picture, are inputs (`Scene`): properties C49-C54, C116 and C136 are about them. Powers are exact reals.

An access through a null pointer, or outside a picture through the unchecked `operator()` of `Image`
(`include/huira_impl/images/image.ipp` lines 186-191), is the outcome `undefined`.
-/
namespace Huira.Frame
open Huira.FrameBuffer (Channel Store)

noncomputable section
open Classical Finset

/-- A picture: its size and its pixels. -/
structure Pic (α : Type) where
  w : Nat
  h : Nat
  px : Int → Int → α

/-- A spectral picture as one plane per bin. -/
abbrev Plane := Int → Int → ℝ

/-- The centre kernel of a point-spread function, `get_kernel(0, 0)`: `2 r + 1` pixels in both directions
(`include/huira_impl/cameras/psfs/psf.ipp`). -/
structure Psf (n : Nat) where
  r : Nat
  ker : Fin n → Nat → Nat → ℝ

/-- The settings of a camera that `render` reads, and those of `set_harvey_shack_scatter` (camera_model.hpp 159-180). -/
structure Cam (n : Nat) where
  w : Nat
  h : Nat
  psf : Option (Psf n)
  /-- `use_aperture_psf_` -/
  fromAperture : Bool
  /-- `convolve_psf_` -/
  convolve : Bool
  /-- `aperture_->has_defocus()` -/
  defocus : Bool
  alpha : ℝ
  glare : Bool
  scatter : Bool
  scatterFraction : ℝ
  scatterExponent : ℝ
  scatterR0 : ℝ
  scatterRadius : ℝ

/-- A new camera of a given resolution (camera_model.hpp 163-180, camera_model.ipp 15-26). -/
def Cam.new (n w h : Nat) : Cam n := ⟨w, h, none, false, false, false, 0, false, false, 0, 2, 1 / 2, 0⟩

/-- Calls on the camera and on the frame buffer. The kernel an aperture makes (`make_psf`) is an argument of the calls that
ask for it. -/
inductive Op (n : Nat) where
  /-- any of the calls that change the sensor's resolution -/
  | resolution (w h : Nat)
  | setPsf (k : Psf n)
  | deletePsf
  | aperturePsf (on : Bool) (k : Psf n)
  /-- `set_focal_length`, `set_fstop`: rebuild the aperture's PSF if it is in use -/
  | rebuild (k : Psf n)
  | convolution (on : Bool)
  /-- `set_focus_distance`, `set_diopters`: leave the aperture with or without a defocus kernel -/
  | focus (defocus : Bool)
  | setGlare (a : XF)
  | noGlare
  | setScatter (fraction exponent r0 radius : ℝ)
  | noScatter
  /-- `enable_X(on)` on the frame buffer -/
  | enable (c : Channel) (on : Bool)

/-- The camera after a call. -/
def camStep {n : Nat} (c : Cam n) : Op n → Cam n
  | .resolution w h => { c with w := w, h := h }
  | .setPsf k => { c with psf := some k, fromAperture := false }  -- camera_model.ipp 305-309
  | .deletePsf => { c with psf := none, fromAperture := false }  -- camera_model.ipp 331-335
  | .aperturePsf on k =>  -- camera_handle.ipp 342-349, camera_model.ipp 317-324
    if on then { c with psf := some k, fromAperture := true } else { c with psf := none, fromAperture := false }
  | .rebuild k => if c.fromAperture then { c with psf := some k } else c  -- camera_model.ipp 46-51, 578-583
  | .convolution on => { c with convolve := on }  -- camera_model.hpp 102
  | .focus d => { c with defocus := d }
  | .setGlare (.fin a) =>  -- camera_model.ipp 342-350
    if a < 0 ∨ a > 1 then c else { c with alpha := a, glare := decide (a > 0) }
  | .setGlare _ => c  -- NaN and infinities throw
  | .noGlare => { c with alpha := 0, glare := false }  -- camera_model.ipp 356-360
  | .setScatter f e r0 r =>  -- camera_model.ipp 370-380
    { c with scatter := true, scatterFraction := f, scatterExponent := e, scatterR0 := r0, scatterRadius := r }
  | .noScatter =>  -- camera_model.ipp 386-393
    { c with scatter := false, scatterFraction := 0, scatterExponent := 2, scatterR0 := 1 / 2, scatterRadius := 0 }
  | .enable _ _ => c

/-- The frame buffer: its size and the two pictures `render` fills from the light received. -/
structure Buf (n : Nat) where
  w : Nat
  h : Nat
  received : Pic (Fin n → ℝ)
  sensor : Pic (List XF)

/-- A new frame buffer (frame_buffer.hpp 110). -/
def Buf.new (n w h : Nat) : Buf n := ⟨w, h, ⟨0, 0, fun _ _ _ => 0⟩, ⟨0, 0, fun _ _ => []⟩⟩

/-- `enable_` (frame_buffer.hpp 131-141) -/
def enablePic {α : Type} (w h : Nat) (fill : α) (on : Bool) (p : Pic α) : Pic α :=
  if on = false then ⟨0, 0, fun _ _ => fill⟩
  else if p.w ≠ w ∨ p.h ≠ h then ⟨w, h, fun _ _ => fill⟩
  else p

/-- The frame buffer after a call (frame_buffer.hpp 53-78, through `Channel.touches` of the frame-buffer model). -/
def bufStep {n : Nat} (b : Buf n) : Op n → Buf n
  | .enable c on =>
    { b with received := if Store.receivedPower ∈ c.touches then enablePic b.w b.h (fun _ => 0) on b.received else b.received
             sensor := if Store.sensorResponse ∈ c.touches then enablePic b.w b.h [] on b.sensor else b.sensor }
  | _ => b

/-- A history of calls on a camera and a frame buffer. -/
def after {n : Nat} (s : Cam n × Buf n) (ops : List (Op n)) : Cam n × Buf n :=
  ops.foldl (fun s o => (camStep s.1 o, bufStep s.2 o)) s

/-- `has_` (frame_buffer.hpp 124-129) -/
def hasPic {n : Nat} {α : Type} (b : Buf n) (p : Pic α) : Prop := p.w = b.w ∧ p.h = b.h

/-- What the scene sends: the power picture of path tracing before the point-spread function; the number of point
sources, and the picture they leave, which depends on the camera's PSF and defocus (renderer.ipp 664-722). -/
structure Scene (n : Nat) where
  traced : Fin n → Plane
  sources : Nat
  points : Option (Psf n) → Bool → Fin n → Plane

/-- `Image::convolve` with a PSF, plane by plane. -/
def blur {n : Nat} (w h : Nat) (k : Psf n) (f : Fin n → Plane) : Fin n → Plane :=
  fun c => Image.convolve w h (f c) (2 * k.r + 1) (2 * k.r + 1) (k.ker c)

/-- The picture `path_trace_` returns when received power is enabled, renderer.ipp 129-132, 569-577, 583; `none`: null
pointer. -/
def tracedPower {n : Nat} (c : Cam n) (w h : Nat) (s : Scene n) : Option (Fin n → Plane) :=
  if c.convolve then c.psf.map fun k => blur w h k s.traced else some s.traced

/-- The picture `render_unresolved_` returns when received power is enabled, renderer.ipp 656-702, 1014-1017, 1024. -/
def pointPower {n : Nat} (c : Cam n) (w h : Nat) (s : Scene n) : Option (Fin n → Plane) :=
  if s.sources = 0 then some fun _ _ _ => 0
  else if c.defocus ∧ c.convolve then c.psf.map fun k => blur w h k (s.points c.psf c.defocus)
  else some (s.points c.psf c.defocus)

/-- `total_power` of one bin, renderer.ipp 48-51. -/
def total (w h : Nat) (f : Plane) : ℝ := ∑ y ∈ range h, ∑ x ∈ range w, f x y

/-- Veiling glare, renderer.ipp 46-59, on one bin of a picture of `w × h` pixels. -/
def veil {n : Nat} (c : Cam n) (w h : Nat) (f : Plane) : Plane :=
  if c.glare then fun x y => f x y * (1 - c.alpha) + c.alpha * total w h f / ((w * h : Nat) : ℝ) else f

/-- One pixel of the readout (simple_sensor.ipp 86-114): three values for RGB (98-107), one otherwise (109-112). `noise`
are the numbers the two normal distributions return. -/
def sensorPixel {n : Nat} (rgb : Bool) (cfg : Sensor.Config n) (energy : Fin n → XF) (dt : XF) (power : Fin n → ℝ)
    (noise : Nat → XF × XF) : List XF :=
  if rgb then List.ofFn fun b : Fin n =>
    Sensor.noiseAdc cfg (Sensor.electrons (.fin (power b)) dt (energy b) (cfg.qe b)) (Sensor.darkE cfg dt) (noise b).1
      (noise b).2 (Sensor.maxDn cfg)
  else [Sensor.pixelMono cfg energy dt (fun b => .fin (power b)) (noise 0).1 (noise 0).2]

/-- The sensor: its kind, its configuration, the photon energies, and the noise of a readout. -/
structure Readout (n : Nat) where
  rgb : Bool
  cfg : Sensor.Config n
  energy : Fin n → XF
  dt : XF
  noise : Int → Int → Nat → XF × XF

/-- Outcome of a render. -/
inductive Out (n : Nat) where
  | threw
  | undefined
  | done (b : Buf n)

/-- `readout` (simple_sensor.ipp 65-116): every pixel of the received power is read and the same pixel of the sensor
response is written, without looking at the size of the latter. -/
def readout {n : Nat} (d : Readout n) (b : Buf n) : Out n :=
  if (b.received.w ≠ 0 ∧ b.received.h ≠ 0) ∧ (b.sensor.w < b.received.w ∨ b.sensor.h < b.received.h) then .undefined
  else .done { b with sensor := ⟨b.sensor.w, b.sensor.h, fun x y =>
    if 0 ≤ x ∧ x < b.received.w ∧ 0 ≤ y ∧ y < b.received.h then
      sensorPixel d.rgb d.cfg d.energy d.dt (b.received.px x y) (d.noise x y) else b.sensor.px x y⟩ }

/-- `clear` (frame_buffer.hpp 82-105), the two pictures. -/
def clearBuf {n : Nat} (b : Buf n) : Buf n :=
  { b with received := if hasPic b b.received then { b.received with px := fun _ _ _ => 0 } else b.received
           sensor := if hasPic b b.sensor then { b.sensor with px := fun _ _ => [] } else b.sensor }

/-- `render` (renderer.ipp 24-62). -/
def render {n : Nat} (c : Cam n) (d : Readout n) (s : Scene n) (b : Buf n) : Out n :=
  if c.w ≠ b.w ∨ c.h ≠ b.h then .threw
  else
    let b := clearBuf b
    if hasPic b b.received then
      match tracedPower c b.w b.h s, pointPower c b.w b.h s with
      | some t, some p =>
        readout d { b with received := { b.received with
          px := fun x y ch => veil c b.w b.h (fun x y => t ch x y + p ch x y) x y } }
      | _, _ => .undefined
    else readout d b

end
end Huira.Frame
