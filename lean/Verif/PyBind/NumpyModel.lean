import Mathlib.Data.List.Basic
import Mathlib.Data.List.Indexes
import Mathlib.Data.Int.Basic
import Mathlib.Tactic.Ring
import Mathlib.Tactic.Linarith
import Mathlib.Tactic.NormNum
/-!
# Python bindings: numpy arrays (model)

Models `bindings/python/include/huira/core/types_py.ipp` (vectors, matrices, quaternions from and to numpy),
`bindings/python/include/huira/core/rotation_py.ipp` (the numpy overloads) and
`bindings/python/include/huira/images/image_py.ipp` 48-166 (images from numpy, buffer protocol, `to_numpy`).

Environment (numpy and pybind11, contracts)
* An array has a data pointer, a shape and byte strides; element `idx` lies at `pointer + Σ idx_k * stride_k`. `mem` gives
  the scalar stored at a byte address of the block of memory the array lives in, `none` outside of the block.
* `py::array_t<T, py::array::c_style | py::array::forcecast>` hands over the elements in row-major order
  (`PyArray_FromAny` with `NPY_ARRAY_C_CONTIGUOUS`: a copy unless the array is laid out so already).
* `py::array_t<T>` has only the flag `forcecast`: an array that holds `T` already is handed over as it is, with its
  strides; another one is converted to a new array (contiguous for one dimension).
* Scalars are values of an arbitrary type; the conversion between scalar types (`forcecast`) is part of the argument.

C++ `int` arithmetic that overflows is undefined; it is modelled as two's complement, as compilers for the supported
platforms do it.
-/
namespace Huira.PyBind

/-- A numpy array. -/
structure Arr (α : Type) where
  mem : ℤ → Option α
  base : ℤ
  shape : List ℕ
  strides : List ℤ
  /-- bytes of a scalar -/
  item : ℤ
  /-- the array already holds the scalar type asked for -/
  same : Bool

variable {α : Type}

/-- `Σ idx_k * stride_k` -/
def dotIdx : List ℕ → List ℤ → ℤ
  | i :: is, s :: ss => (i : ℤ) * s + dotIdx is ss
  | _, _ => 0

/-- `a[i, j, …]` -/
def Arr.get (a : Arr α) (idx : List ℕ) : Option α := a.mem (a.base + dotIdx idx a.strides)

/-- Row-major list of the index vectors of a shape. -/
def indices : List ℕ → List (List ℕ)
  | [] => [[]]
  | n :: ns => (List.range n).flatMap fun i => (indices ns).map (i :: ·)

/-- The elements in row-major order: what a `c_style` argument points to. -/
def Arr.flat (a : Arr α) : List (Option α) := (indices a.shape).map a.get

/-- Memory of a freshly made contiguous array. -/
def contiguous (item : ℤ) (xs : List (Option α)) (b : ℤ) : Option α :=
  if item ∣ b ∧ 0 ≤ b then (xs[(b / item).toNat]?).join else none

/-- The argument conversion of `py::array_t<T>` (no layout flag) for one-dimensional arrays. -/
def loose (a : Arr α) : Arr α :=
  if a.same then a
  else ⟨contiguous a.item a.flat, 0, a.shape, [a.item], a.item, true⟩

/-- Reading `ptr[k]` where `ptr` is the data pointer cast to `T*`: the strides play no part. -/
def Arr.ptr (a : Arr α) (k : ℕ) : Option α := a.mem (a.base + (k : ℤ) * a.item)

/-- What a call does. -/
inductive Result (β : Type) where
  | throws
  | value (b : β)
  /-- memory outside of the array is read or memory outside of the image is written -/
  | outOfBounds

/-- Turn a list of reads into a result. -/
def Result.ofReads {β : Type} (xs : List (Option β)) : Result (List β) :=
  if xs.all Option.isSome then .value (xs.filterMap id) else .outOfBounds

/-- The numpy constructors of `Vec3` (`n = 3`, types_py.ipp 28-37), `Quaternion` (`n = 4`, 120-129) and
`ShusterQuaternion` (`n = 4`, 181-190), and the vector arguments in rotation_py.ipp: `from_local_to_parent_axis_angle`
(75-86), `from_parent_to_local_axis_angle` (133-144), `from_basis_vectors` (193-207), `apply` (275-291). -/
def vecOf (n : ℕ) (a : Arr α) : Result (List α) :=
  let b := loose a
  if b.shape.length ≠ 1 ∨ b.shape.head? ≠ some n then .throws
  else Result.ofReads ((List.range n).map b.ptr)

/-- `to_numpy` of `Vec3`, `Quaternion`, `ShusterQuaternion` (types_py.ipp 52-62, 149-160, 210-221): a new array of
doubles with the components in order. -/
def vecTo (xs : List α) : Arr α :=
  ⟨contiguous 8 (xs.map some), 0, [xs.length], [8], 8, true⟩

/-- A matrix: entry by column and row, as `mat[col][row]` of GLM. -/
abbrev Mat (α : Type) := ℕ → ℕ → α

/-- The numpy constructor of `Mat3` (types_py.ipp 74-90) and the matrix arguments in rotation_py.ipp (57-72, 115-130); the
pointer runs over the row-major elements. -/
def matOf (a : Arr α) : Result (Mat (Option α)) :=
  if a.shape ≠ [3, 3] then .throws
  else .value fun col row => (a.flat[row * 3 + col]?).join

/-- `Mat3.to_numpy` (types_py.ipp 93-105), `local_to_parent_numpy`, `parent_to_local_numpy` (rotation_py.ipp 224-252): a new
3x3 array, `buf(row, col) = mat[col][row]`. -/
def matTo (m : Mat α) : Arr α :=
  ⟨contiguous 8 ((List.range 3).flatMap fun row => (List.range 3).map fun col => some (m col row)), 0, [3, 3], [24, 8], 8,
    true⟩

/-! ### Images -/

/-- `Image<PixelT>`: the pixels in memory order (each with `channels` scalars) and the resolution (image.hpp 138-142). -/
structure Img (α : Type) where
  data : List (List α)
  width : ℤ
  height : ℤ

/-- Conversion of a 64-bit value to `int`. -/
def toInt (n : ℤ) : ℤ := (n + 2147483648) % 4294967296 - 2147483648

/-- Conversion of an `int` to `size_t`. -/
def toSize (n : ℤ) : ℕ := (n % 18446744073709551616).toNat

/-- `Image(width, height)` (image.ipp 54-57): the number of pixels the storage has; more than a `vector` can hold is
refused by an exception (`none`). -/
def storage (maxSize : ℕ) (w h : ℤ) : Option ℕ :=
  let n := toSize (toInt (w * h))
  if n ≤ maxSize then some n else none

/-- The shape test of the constructor from numpy (image_py.ipp 49-72): height and width, or an exception. -/
def imageShape (channels : ℕ) (shape : List ℕ) : Option (ℤ × ℤ) :=
  match shape with
  | [h, w] => if channels = 1 then some (toInt h, toInt w) else none
  | [h, w, c] => if c = channels then some (toInt h, toInt w) else none
  | _ => none

/-- `PixelT` `i` of the source: `src[i * C + c]` (image_py.ipp 83-97). -/
def pixelAt (channels : ℕ) (src : List (Option α)) (i : ℕ) : List (Option α) :=
  (List.range channels).map fun c => (src[i * channels + c]?).join

/-- The copying loop (image_py.ipp 75-98) into an image with storage for `n` pixels. -/
def fillImage (channels : ℕ) (src : List (Option α)) (n pixels : ℕ) (w h : ℤ) : Result (Img α) :=
  if n < pixels then .outOfBounds
  else
    let reads := (List.range pixels).map (pixelAt channels src)
    if reads.all (·.all Option.isSome) then .value ⟨reads.map (·.filterMap id), w, h⟩
    else .outOfBounds

/-- `static_cast<size_t>(w) * static_cast<size_t>(h)` (image_py.ipp 81-82) -/
def pixelCount (w h : ℤ) : ℕ := toSize w * toSize h % 18446744073709551616

/-- The constructor from numpy (image_py.ipp 48-99); `maxSize` is `max_size()` of the vector. -/
def imageOf (channels maxSize : ℕ) (a : Arr α) : Result (Img α) :=
  match imageShape channels a.shape with
  | none => .throws
  | some (h, w) =>
    match storage maxSize w h with
    | none => .throws
    | some n => fillImage channels a.flat n (pixelCount w h) w h

/-- Scalar `k` of the storage of an image (pixels are tightly packed scalars, image_py.ipp 77-79). -/
def Img.scalar (img : Img α) (k : ℕ) : Option α := img.data.flatten[k]?

/-- The buffer protocol (image_py.ipp 107-135): a view of the storage, starting at address 0. -/
def Img.view (channels : ℕ) (item : ℕ) (img : Img α) : Arr α where
  mem := contiguous item (img.data.flatten.map some)
  base := 0
  shape := if channels = 1 then [img.height.toNat, img.width.toNat] else [img.height.toNat, img.width.toNat, channels]
  strides := if channels = 1 then [item * img.width, item] else [item * channels * img.width, item * channels, item]
  item := item
  same := true

/-- `to_numpy` (image_py.ipp 140-166): a new array of the same shape; the first `height * width * channels` scalars are
copied. -/
def Img.toNumpy (channels : ℕ) (item : ℕ) (img : Img α) : Arr α where
  mem := contiguous item ((img.data.flatten.take (img.width.toNat * img.height.toNat * channels)).map some)
  base := 0
  shape := if channels = 1 then [img.height.toNat, img.width.toNat] else [img.height.toNat, img.width.toNat, channels]
  strides := if channels = 1 then [item * img.width, item] else [item * channels * img.width, item * channels, item]
  item := item
  same := true

end Huira.PyBind
