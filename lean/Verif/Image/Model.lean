import Mathlib.Algebra.Order.Floor.Ring
import Mathlib.Algebra.Order.Field.Basic
import Mathlib.Algebra.BigOperators.Ring.Finset
import Mathlib.Algebra.BigOperators.Intervals
/-!
# Images (model)

Models `include/huira_impl/images/image.ipp`: pixel addressing (180-356, 577-581), texture sampling (360-445,
591-614), convolution (484-512, 616-646, 649-758).

Simplifications: `int` products do not overflow (the image was allocated, so `width * height` fits `int`);
texture coordinates and pixels are exact elements of an ordered field with a floor function (finite floats are
such numbers); FFTW is modelled by what it computes exactly: forward/inverse transforms of a product are the
circular convolution of the padded buffers.
-/
namespace Huira.Image

/-! ### Addressing -/

/-- Result of an access: throws, touches element `i`, or is out of bounds (undefined behaviour). -/
inductive Access where
  | throw
  | elem (i : Nat)
  | ub
deriving DecidableEq

/-- `to_linear` (image.ipp 577-581) before the cast to `size_t`. -/
def toLinear (w : Int) (x y : Int) : Int := y * w + x

/-- Indexing `data_` of size `n` with a signed value cast to `size_t` (negative values become huge). -/
def touch (n : Nat) (i : Int) : Access := if 0 ≤ i ∧ i < n then .elem i.toNat else .ub

/-- `at(int x, int y)` (image.ipp 278-298): only the upper bounds are tested. -/
def at2 (w h : Nat) (x y : Int) : Access :=
  if x ≥ w ∨ y ≥ h then .throw else touch (w * h) (toLinear w x y)

/-- `operator()(int x, int y)` in a release build (image.ipp 176-196). -/
def call2 (w h : Nat) (x y : Int) : Access := touch (w * h) (toLinear w x y)

/-- `at(size_t)` (image.ipp 243-266). -/
def at1 (n : Nat) (i : Nat) : Access := if i ≥ n then .throw else .elem i

/-! ### Texture sampling -/

inductive Wrap where
  | clamp
  | rep
  | mirror

section Sample
variable {K : Type} [Field K] [LinearOrder K] [IsStrictOrderedRing K] [FloorRing K]

/-- `static_cast<int>` / the integer part used by `fmod`: truncation toward zero. -/
def trunc (c : K) : Int := if 0 ≤ c then ⌊c⌋ else ⌈c⌉

/-- `std::fmod(c, 1.0f)` -/
def fmod1 (c : K) : K := c - (trunc c : K)

/-- `std::clamp(c, 0, 1)` -/
def clamp01 (c : K) : K := if c < 0 then 0 else if 1 < c then 1 else c

/-- `wrap_coordinate<W>(coord, 1.0f)` (image.ipp 592-614). `none` is the undefined conversion of a value that
does not fit an `int` in mirror mode. -/
def wrap (m : Wrap) (c : K) : Option K :=
  match m with
  | .clamp => some (clamp01 c)
  | .rep => let c := fmod1 c; some (if c < 0 then c + 1 else c)
  | .mirror =>
    let c := |c|
    if c < 2147483648 then
      let period := trunc (c / 1)
      let r := fmod1 c
      some (clamp01 (if period % 2 = 1 then 1 - r else r))
    else none

/-- `std::round` of a value (half away from zero), used here for non-negative values. -/
def round (c : K) : Int := if 0 ≤ c then ⌊c + 1 / 2⌋ else ⌈c - 1 / 2⌉

/-- Column (or row) read by `sample_nearest_neighbor` (image.ipp 381-388). -/
def nearestIndex (n : Nat) (u : K) : Int := min (round (u * ((n : K) - 1))) ((n : Int) - 1)

/-- `sample_nearest_neighbor<W>` on a `w × h` image (image.ipp 370-391): the element read. -/
def sampleNearest (w h : Nat) (m : Wrap) (u v : K) : Option Access := do
  let u ← wrap m u
  let v ← wrap m v
  return touch (w * h) (toLinear w (nearestIndex w u) (nearestIndex h v))

/-- The four reads and weights of `sample_bilinear` (image.ipp 411-434). -/
structure Bilinear (K : Type) where
  x0 : Int
  x1 : Int
  y0 : Int
  y1 : Int
  fx : K
  fy : K

/-- `x0, x1, y0, y1, fx, fy` (image.ipp 418-428). -/
def bilinearSetup (w h : Nat) (u v : K) : Bilinear K :=
  let px := u * ((w : K) - 1)
  let py := v * ((h : K) - 1)
  let x0 := trunc px
  let y0 := trunc py
  ⟨x0, min (x0 + 1) ((w : Int) - 1), y0, min (y0 + 1) ((h : Int) - 1), px - (x0 : K), py - (y0 : K)⟩

/-- The interpolated value of a scalar image `img` given as a function of the pixel (image.ipp 430-441). -/
def bilinearValue (b : Bilinear K) (img : Int → Int → K) : K :=
  img b.x0 b.y0 * (1 - b.fx) * (1 - b.fy) + img b.x1 b.y0 * b.fx * (1 - b.fy) +
  img b.x0 b.y1 * (1 - b.fx) * b.fy + img b.x1 b.y1 * b.fx * b.fy

/-- `sample_bilinear<W>` for a scalar pixel type. -/
def sampleBilinear (w h : Nat) (m : Wrap) (img : Int → Int → K) (u v : K) : Option K := do
  let u ← wrap m u
  let v ← wrap m v
  return bilinearValue (bilinearSetup w h u v) img
end Sample

/-! ### Convolution -/

section Conv
variable {K : Type} [CommRing K]
open Finset

/-- An image read through the loop guards: zero outside `w × h`. -/
def zeroExt (w h : Nat) (img : Int → Int → K) (x y : Int) : K :=
  if 0 ≤ x ∧ x < w ∧ 0 ≤ y ∧ y < h then img x y else 0

/-- `convolve_direct_` (image.ipp 616-646), pixel `(x, y)` of the result; the `continue`s are the zero extension. -/
def direct (w h : Nat) (img : Int → Int → K) (kw kh : Nat) (ker : Nat → Nat → K) (x y : Int) : K :=
  ∑ ky ∈ range kh, ∑ kx ∈ range kw,
    zeroExt w h img (x + kx - (kw / 2 : Nat)) (y + ky - (kh / 2 : Nat)) * ker kx ky

/-- Destination column of kernel column `k` in the padded buffer (image.ipp 712-713). -/
def dst (p kc : Nat) (k : Nat) : Int := ((k : Int) - kc + p) % p

/-- Padded kernel buffer (image.ipp 709-717). The stores hit distinct cells (`dst_injective`), so the buffer is
the sum of the single-cell buffers. -/
def packKernel (pw ph kw kh : Nat) (ker : Nat → Nat → K) (i j : Int) : K :=
  ∑ ky ∈ range kh, ∑ kx ∈ range kw, if dst pw (kw / 2) kx = i ∧ dst ph (kh / 2) ky = j then ker kx ky else 0

/-- `convolve_fft_` (image.ipp 649-758): circular convolution, of size `pw × ph`, of the zero-padded image with
the wrapped kernel buffer. -/
def fft (w h : Nat) (img : Int → Int → K) (kw kh : Nat) (ker : Nat → Nat → K) (x y : Int) : K :=
  let pw := w + kw - 1
  let ph := h + kh - 1
  ∑ j ∈ range ph, ∑ i ∈ range pw,
    zeroExt w h img i j * packKernel pw ph kw kh ker ((x - i) % pw) ((y - j) % ph)

/-- `convolve` (image.ipp 484-512). -/
def convolve (w h : Nat) (img : Int → Int → K) (kw kh : Nat) (ker : Nat → Nat → K) (x y : Int) : K :=
  if kw = 1 ∧ kh = 1 then img x y * ker 0 0
  else if kw * kh ≤ 25 then direct w h img kw kh ker x y
  else fft w h img kw kh ker x y
end Conv

end Huira.Image
