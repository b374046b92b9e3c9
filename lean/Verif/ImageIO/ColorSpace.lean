import Mathlib.Analysis.SpecialFunctions.Pow.Real
/-!
# Transfer functions and format detection (model)

`include/huira/images/io/color_space.hpp` 8-32 over exact reals (constants as written), and `detect_image_format` /
`read_image` (`include/huira_impl/images/io/read_image.ipp` 18-69).
-/
namespace Huira.ImageIO

noncomputable section
/-- `srgb_to_linear` (color_space.hpp 8-14) -/
def srgbToLinear (s : ℝ) : ℝ := if s ≤ 0.04045 then s / 12.92 else ((s + 0.055) / 1.055) ^ (2.4 : ℝ)
/-- `linear_to_srgb` (color_space.hpp 22-28) -/
def linearToSrgb (l : ℝ) : ℝ := if l ≤ 0.0031308 then l * 12.92 else 1.055 * l ^ (1 / 2.4 : ℝ) - 0.055
/-- `gamma_to_linear` (color_space.hpp 17-20) -/
def gammaToLinear (e g : ℝ) : ℝ := e ^ g
end

inductive Format where
  | bmp | fits | hdr | jpeg | png | tga | tiff | unknown
deriving DecidableEq

/-- `std::filesystem::path::extension` of the last component: from the last dot on, empty if there is none, or the
only dot is the first character, or the name is ".." ([fs.path.decompose]). Characters of a generic-format path. -/
def extension (path : List Char) : List Char :=
  let name := (path.reverse.takeWhile (· ≠ '/')).reverse
  if name = ['.', '.'] then []
  else
    let suffix := (name.reverse.takeWhile (· ≠ '.')).reverse
    if suffix.length + 1 < name.length then '.' :: suffix else []

/-- `detect_image_format` (read_image.ipp 18-42) on the extension. -/
def detectExt (ext : List Char) : Format :=
  if ext = ".bmp".toList ∨ ext = ".BMP".toList then .bmp
  else if ext = ".fits".toList ∨ ext = ".FITS".toList then .fits
  else if ext = ".hdr".toList ∨ ext = ".HDR".toList then .hdr
  else if ext = ".jpg".toList ∨ ext = ".jpeg".toList ∨ ext = ".JPG".toList ∨ ext = ".JPEG".toList then .jpeg
  else if ext = ".png".toList ∨ ext = ".PNG".toList then .png
  else if ext = ".tga".toList ∨ ext = ".TGA".toList then .tga
  else if ext = ".tiff".toList ∨ ext = ".TIFF".toList ∨ ext = ".tif".toList ∨ ext = ".TIF".toList then .tiff
  else .unknown

def detect (path : List Char) : Format := detectExt (extension path)

/-- Which decoder `read_image` runs (read_image.ipp 51-69): `none` = throws. -/
def dispatch : Format → Option Format
  | .fits => none
  | .unknown => none
  | f => some f

end Huira.ImageIO
