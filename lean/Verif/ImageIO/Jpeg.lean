import Verif.ImageIO.Png
/-!
# JPEG reader and writer (model)

Models `include/huira_impl/images/io/jpeg_io.ipp`.  TurboJPEG is outside the project: `Lib` records its documented
behaviour (header, decompression into a tightly packed caller-supplied buffer, compression).  `int` arithmetic is
checked (`i32`).  Image, bundle and level conversion are those of the PNG model.
-/
namespace Huira.ImageIO.Jpeg
open Huira.Num Huira.ImageIO Huira.ImageIO.Convert Huira.ImageIO.Png

/-- TurboJPEG: `header` = `tjDecompressHeader3` (width, height), `decode d gray` = `tjDecompress2` with `TJPF_GRAY` /
`TJPF_RGB`, pitch 0: the samples (row-major, interleaved), `compress` = `tjCompress2` with 4:4:4 subsampling. -/
structure Lib where
  header : List Byte → Option (Nat × Nat)
  decode : List Byte → Bool → Option (List Nat)
  compress : List Nat → Nat → Nat → Int → Option (List Byte)

/-- The value of `static_cast<std::size_t>(width * height * channels)` (jpeg_io.ipp 69). -/
def bufferSize (w h channels : Nat) : Res Nat := do
  let wh ← i32 ((w : Int) * h)
  let whc ← i32 (wh * channels)
  .ok (toSizeT whc)

/-- `read_jpeg_raw_` (jpeg_io.ipp 40-93): width, height, raw data.  `tjDecompress2` writes `width * height * channels`
samples; a smaller buffer is overrun. -/
def readRaw (lib : Lib) (d : List Byte) (gray : Bool) : Res (Nat × Nat × List Nat) :=
  match lib.header d with
  | none => .throw
  | some (w, h) => do
    let channels := if gray then 1 else 3
    let n ← bufferSize w h channels
    match lib.decode d gray with
    | none => .throw
    | some px => if px.length ≤ n then .ok (w, h, px ++ List.replicate (n - px.length) 0) else .ub

/-- One pixel of the RGB reader (jpeg_io.ipp 117-129). -/
def pixelRGB (fl : ℚ → ℚ) (raw : List Nat) (w x y : Nat) : Res (FV × FV × FV) := do
  let idx := (y * w + x) * 3
  let r ← at? raw (idx + 0)
  let g ← at? raw (idx + 1)
  let b ← at? raw (idx + 2)
  .ok (.val (toFloatU fl 255 (r : ℤ) 0 1), .val (toFloatU fl 255 (g : ℤ) 0 1), .val (toFloatU fl 255 (b : ℤ) 0 1))

/-- `read_image_jpeg` (jpeg_io.ipp 108-133); the bundle keeps its defaults (no alpha, sRGB, 8 bits; image.hpp 157-173). -/
def readRGB (fl : ℚ → ℚ) (lib : Lib) (d : List Byte) : Res (Bundle (FV × FV × FV)) := do
  let p ← readRaw lib d false
  let px ← mapRes (fun q => pixelRGB fl p.2.2 p.1 q.1 q.2) (grid p.1 p.2.1)
  .ok { image := ⟨p.1, p.2.1, px⟩, alpha := ⟨0, 0, []⟩, hint := .sRGB, gamma := 1, depth := 8 }

/-- `read_image_jpeg_mono` (jpeg_io.ipp 164-176): a linear loop over `width * height` (an `int` product). -/
def readMono (fl : ℚ → ℚ) (lib : Lib) (d : List Byte) : Res (Bundle FV) := do
  let p ← readRaw lib d true
  let n ← i32 ((p.1 : Int) * p.2.1)
  let px ← mapRes (fun i => at? p.2.2 i >>= fun v => .ok (FV.val (toFloatU fl 255 (v : ℤ) 0 1))) (List.range n.toNat)
  .ok { image := ⟨p.1, p.2.1, px⟩, alpha := ⟨0, 0, []⟩, hint := .sRGB, gamma := 1, depth := 8 }

/-- The levels of one pixel (jpeg_io.ipp 248-252). -/
def levelsOf (fl : ℚ → ℚ) (i : Img (FV × FV × FV)) (x y : Nat) : Res (List Nat) := do
  let p ← pixelAt i x y
  let r ← toLevel fl 255 p.1
  let g ← toLevel fl 255 p.2.1
  let b ← toLevel fl 255 p.2.2
  .ok [r, g, b]

/-- `write_image_jpeg` (jpeg_io.ipp 217-319): the bytes written.  Index `(y * width + x) * 3 + c` of the buffer is filled
for every pixel, which is the concatenation of the pixels' levels in row order; the file is assumed to open and to be
written completely. -/
def writeRGB (fl : ℚ → ℚ) (lib : Lib) (b : Bundle (FV × FV × FV)) (quality : Int) : Res (List Byte) :=
  if b.image.w = 0 ∨ b.image.h = 0 then .throw
  else if quality < 1 ∨ quality > 100 then .throw
  else do
    let px ← mapRes (fun q => levelsOf fl b.image q.1 q.2) (grid b.image.w b.image.h)
    match lib.compress px.flatten b.image.w b.image.h quality with
    | none => .throw
    | some d => .ok d

/-- `write_image_jpeg` for mono images (jpeg_io.ipp 331-342). -/
def writeMono (fl : ℚ → ℚ) (lib : Lib) (b : Bundle FV) (quality : Int) : Res (List Byte) :=
  writeRGB fl lib { b with image := ⟨b.image.w, b.image.h, b.image.data.map fun v => (v, v, v)⟩ } quality

end Huira.ImageIO.Jpeg
