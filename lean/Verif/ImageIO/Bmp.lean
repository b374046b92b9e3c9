import Verif.ImageIO.Base
/-!
# BMP reader (model)

Models `read_bmp_raw_` (`include/huira_impl/images/io/bmp_io.ipp` 40-148) and the pixel read-out of
`read_image_bmp` (161-191). `int` arithmetic is checked (`i32`), `size_t` arithmetic is modulo 2^64, an allocation
above `maxAlloc` bytes throws (`std::length_error` / `std::bad_alloc`).
-/
namespace Huira.ImageIO.Bmp

structure Raw where
  width : Int
  height : Int
  channels : Nat
  hasAlpha : Bool
  data : List Byte
deriving DecidableEq

/-- One iteration of the conversion loop (bmp_io.ipp 113-132): the copies for pixel `(x, y)`.
`x * file_channels` and `y * width` are computed in `int`. -/
def pixelMoves (offset stride : Nat) (width height : Int) (fc oc : Nat) (flip alpha : Bool) (p : Nat × Nat) :
    Res (List (Nat × Nat)) := do
  let srcY : Int := if flip then height - 1 - (p.2 : Int) else (p.2 : Int)
  let row := offset + toSizeT srcY * stride
  let srcIdx ← i32 ((p.1 : Int) * fc)
  let yw ← i32 ((p.2 : Int) * width)
  let dst := (toSizeT yw + p.1) * oc
  let src := row + toSizeT srcIdx
  .ok ([(dst + 0, src + 2), (dst + 1, src + 1), (dst + 2, src + 0)] ++ (if alpha then [(dst + 3, src + 3)] else []))

/-- `height` (bmp_io.ipp 96): negating the most negative value overflows. -/
def absHeight (rawHeight : Int) : Res Int := if rawHeight > 0 then .ok rawHeight else i32 (-rawHeight)

/-- The size computations and the conversion loop of `read_bmp_raw_` (bmp_io.ipp 94-137), from the header fields. -/
def decode (maxAlloc : Nat) (d : List Byte) (offset : Nat) (width rawHeight : Int) (bpp : Nat) : Res Raw := do
  let height ← absHeight rawHeight
  let alpha := decide (bpp = 32)
  let oc : Nat := if bpp = 32 then 4 else 3
  let wc ← i32 (width * ((bpp / 8 : Nat) : Int))
  let stride := (toSizeT wc + 3) % 18446744073709551616 / 4 * 4
  if d.length < (offset + stride * toSizeT height) % 18446744073709551616 then .throw
  else do
    let ho ← i32 (height * (oc : Int))
    let n := toSizeT width * toSizeT ho % 18446744073709551616
    if n > maxAlloc then .throw
    else do
      let moves ← mapRes (pixelMoves offset stride width height (bpp / 8) oc (decide (rawHeight > 0)) alpha)
        (grid width.toNat height.toNat)
      let data ← copyLoop d moves.flatten (List.replicate n 0)
      .ok ⟨width, height, oc, alpha, data⟩

/-- `read_bmp_raw_` (bmp_io.ipp 40-148): the checks before `decode`. -/
def readRaw (maxAlloc : Nat) (d : List Byte) : Res Raw :=
  if d.length < 54 then .throw
  else if byteAt d 0 ≠ 0x42 ∨ byteAt d 1 ≠ 0x4D then .throw
  else if le32 d 14 < 40 then .throw
  else if d.length < (14 + le32 d 14) % 4294967296 then .throw
  else if le32 d 30 ≠ 0 ∧ le32 d 30 ≠ 3 then .throw
  else if le16 d 28 ≠ 24 ∧ le16 d 28 ≠ 32 then .throw
  else decode maxAlloc d (le32 d 10) (s32 (le32 d 18)) (s32 (le32 d 22)) (le16 d 28)

/-- The bytes `read_image_bmp` converts for pixel `(x, y)`, channel `c` (bmp_io.ipp 172-186). -/
def Raw.channel (r : Raw) (x y c : Nat) : Option Byte := r.data[(y * r.width.toNat + x) * r.channels + c]?

end Huira.ImageIO.Bmp
