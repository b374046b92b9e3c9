import Verif.ImageIO.Base
import Mathlib.Algebra.Order.Field.Rat
import Mathlib.Algebra.Field.Rat
/-!
# FITS pixel scaling (model)

Models the pixel path of `write_image_fits` and `read_image_fits` (`include/huira_impl/images/io/fits_io.ipp`
374-386, 405-498, 503-650) in exact arithmetic. CFITSIO is outside the model: `store` is what it does to a `TFLOAT`
value when converting to an integer BITPIX; it is assumed only that integers are stored unchanged. Reading returns the
stored values. Only the header fields that influence pixels (BITPIX, SATURATE) are modelled. Finite pixels only.
-/
namespace Huira.ImageIO.Fits

/-- `bitpix_max` (fits_io.ipp 374-386). -/
def bitpixMax (b : Int) : ℚ := if b = 8 then 255 else if b = 16 then 32767 else if b = 32 then 2147483647 else 1

/-- `std::clamp` -/
def clamp (v lo hi : ℚ) : ℚ := if v < lo then lo else if hi < v then hi else v

/-- The ADC ceiling (fits_io.ipp 558-565). -/
def adcMax (bitDepth : Int) (sensorBits : Nat) : ℚ :=
  if 0 < sensorBits then 2 ^ sensorBits - 1 else bitpixMax bitDepth

/-- Value put in the buffer for a finite pixel (fits_io.ipp 606-618). -/
def encodePixel (bitDepth : Int) (sensorBits : Nat) (px : ℚ) : ℚ :=
  if 0 < bitDepth then clamp (px * adcMax bitDepth sensorBits) (if bitDepth = 8 then 1 else 0) (bitpixMax bitDepth)
  else px

/-- An image: width, height, row-major pixels (row 0 on top) and the sensor bit depth attribute (0 = unset). -/
structure Img where
  w : Nat
  h : Nat
  px : List ℚ
  sensorBits : Nat

structure File where
  bitpix : Int
  w : Nat
  h : Nat
  saturate : Option ℚ
  data : List ℚ

/-- A loop of writes `buf[i] = v`. -/
def writeAll : List (Nat × ℚ) → List ℚ → Res (List ℚ)
  | [], v => .ok v
  | (i, b) :: ws, v => if i < v.length then writeAll ws (v.set i b) else .ub

/-- A checked read. -/
def readAt (v : List ℚ) (i : Nat) : Res ℚ := match v[i]? with | some a => .ok a | none => .ub

/-- `write_image_fits` (fits_io.ipp 503-650): rows are written bottom-up. -/
def write (store : ℚ → ℚ) (bitDepth : Int) (userSaturate : Option ℚ) (im : Img) : Res File :=
  if im.w = 0 ∨ im.h = 0 then .throw
  else if bitDepth ∉ [8, 16, 32, -32, -64] then .throw
  else do
    let ws ← mapRes (fun p : Nat × Nat => readAt im.px (p.2 * im.w + p.1) >>= fun v =>
      .ok ((im.h - 1 - p.2) * im.w + p.1, encodePixel bitDepth im.sensorBits v)) (grid im.w im.h)
    let buf ← writeAll ws (List.replicate (im.w * im.h) 0)
    let sat := if 0 < bitDepth ∧ userSaturate = none then some (adcMax bitDepth im.sensorBits) else userSaturate
    .ok ⟨bitDepth, im.w, im.h, sat, if 0 < bitDepth then buf.map store else buf⟩

/-- The divisor used on reading (fits_io.ipp 453-470). -/
def divisor (f : File) : ℚ :=
  match f.saturate with
  | some s => if 0 < s then s else bitpixMax f.bitpix
  | none => bitpixMax f.bitpix

/-- `read_image_fits` (fits_io.ipp 405-498): the pixel at `(x, y)`. -/
def readPixel (f : File) (x y : Nat) : Option ℚ :=
  (f.data[(f.h - 1 - y) * f.w + x]?).map fun v => if 0 < f.bitpix then v * (1 / divisor f) else v

end Huira.ImageIO.Fits
