import Verif.ImageIO.Png
import Verif.ImageIO.Alloc
/-!
# TIFF reader and writer (model)

Models `include/huira_impl/images/io/tiff_io.ipp`.  libtiff is outside the project: `File` is what an opened file
contains, `scanlineSize`, `tileSize`, `rowByte`, `tileByte` are the sizes and contents of the buffers libtiff documents
(host byte order, little-endian; for subsampled YCbCr the smaller, block-interleaved size), `Lib` is open / save.
Everything Huira computes — offsets, loops, conversions, refusals — is modelled from the source.  `std::uint32_t` loop
variables wrap; `static_cast<int>(offset)` wraps; reads outside a buffer are `ub`.  `float` operations are rounded by
`fl`; the `double` division for 32-bit samples is exact before its rounding to `float`.
-/
namespace Huira.ImageIO.Tiff
open Huira.Num Huira.ImageIO Huira.ImageIO.Convert
open Huira.ImageIO.Png (FV Img Bundle Hint pixelAt)

/-! ## libtiff -/

/-- An opened TIFF file (TIFF 6.0 vocabulary).  `fmt`: 1 unsigned, 2 signed, 3 IEEE float; `photo`: 0 MinIsWhite,
1 MinIsBlack, 2 RGB, 3 palette, 5 separated, 6 YCbCr; `extra`: types of the extra samples (0 unspecified, 1 associated
alpha, 2 unassociated alpha); `tile`: tile width and height of a tiled file; `sub`: YCbCr subsampling; `sample x y c`
the stored samples; `rgba` the result of `TIFFReadRGBAImageOriented` if that succeeds; `rowOk y s`, `tileOk x y s`
whether the row / tile can be decoded. -/
structure File where
  w : Nat
  h : Nat
  spp : Nat
  bps : Nat
  fmt : Nat
  photo : Nat
  contig : Bool
  extra : List Nat
  tile : Option (Nat × Nat)
  sub : Nat × Nat
  sample : Nat → Nat → Nat → Nat
  rgba : Option (Nat → Nat → Nat → Nat)
  rowOk : Nat → Nat → Bool
  tileOk : Nat → Nat → Nat → Bool

/-- libtiff and the host's `float` format: opening a byte string, saving, and the value of 32 bits read as a `float`. -/
structure Lib where
  openMem : List Byte → Option File
  save : File → List Byte
  asFloat : Nat → FV

/-- Samples per pixel in one row or tile buffer. -/
def File.perPixel (f : File) : Nat := if f.contig then f.spp else 1

/-- Subsampled YCbCr data are delivered in blocks (libtiff tif_strip.c, tif_tile.c). -/
def File.blocks (f : File) : Bool := f.contig && decide (f.photo = 6) && decide (f.spp = 3)

/-- `TIFFScanlineSize` (libtiff tif_strip.c). -/
def scanlineSize (f : File) : Nat :=
  if f.blocks then ((f.w + f.sub.1 - 1) / f.sub.1 * (f.sub.1 * f.sub.2 + 2) * f.bps + 7) / 8 / f.sub.2
  else (f.w * f.perPixel * f.bps + 7) / 8

/-- `TIFFTileSize` (libtiff tif_tile.c). -/
def tileSize (f : File) (tw th : Nat) : Nat :=
  if f.blocks then ((tw + f.sub.1 - 1) / f.sub.1 * (f.sub.1 * f.sub.2 + 2) * f.bps + 7) / 8 * ((th + f.sub.2 - 1) / f.sub.2)
  else (tw * f.perPixel * f.bps + 7) / 8 * th

/-- Byte `k` of a sample in host order. -/
def byteOf (v k : Nat) : Nat := v / 256 ^ k % 256

/-- The sample a buffer byte belongs to: `k / bytes` counts samples, `perPixel` to a pixel. -/
def chanOf (f : File) (s i : Nat) : Nat := if f.contig then i % f.perPixel else s

/-- Row `y` of plane `s` as delivered by `TIFFReadScanline`. -/
def rowBuf (f : File) (y s : Nat) : List Nat := (List.range (scanlineSize f)).map fun k =>
  let i := k / (f.bps / 8)
  byteOf (f.sample (i / f.perPixel) y (chanOf f s i)) (k % (f.bps / 8))

/-- The tile at `(tx, ty)` of plane `s` as delivered by `TIFFReadTile` (whole tile, padded outside the image). -/
def tileBuf (f : File) (tw th tx ty s : Nat) : List Nat := (List.range (tileSize f tw th)).map fun k =>
  let i := k / (f.bps / 8)
  let q := i / f.perPixel
  byteOf (f.sample (tx + q % tw) (ty + q / tw) (chanOf f s i)) (k % (f.bps / 8))

/-! ## The raw reader -/

/-- The state of a loop, run over a list of iterations. -/
def foldRes {σ α : Type} (step : σ → α → Res σ) : List α → σ → Res σ
  | [], s => .ok s
  | a :: l, s => step s a >>= foldRes step l

/-- `static_cast<int>(offset)` of a `std::size_t`, then pointer arithmetic: a negative offset leaves the buffer. -/
def bufAt (buf : List Nat) (off k : Nat) : Res Nat :=
  let o : Int := s32 (off % 4294967296) + k
  if o < 0 then .ub else match buf[o.toNat]? with | some v => .ok v | none => .ub

/-- `sample_to_float` (tiff_io.ipp 317-334). -/
def sampleToFloat (fl : ℚ → ℚ) (lib : Lib) (isFloat : Bool) (bps : Nat) (buf : List Nat) (off : Nat) : Res FV :=
  if isFloat then do
    let b0 ← bufAt buf off 0
    let b1 ← bufAt buf off 1
    let b2 ← bufAt buf off 2
    let b3 ← bufAt buf off 3
    .ok (lib.asFloat (b0 + 256 * b1 + 65536 * b2 + 16777216 * b3))
  else if bps = 8 then do
    let b ← bufAt buf off 0
    .ok (.val (fl (fl b / 255)))
  else if bps = 16 then do
    let b0 ← bufAt buf off 0
    let b1 ← bufAt buf off 1
    .ok (.val (fl (fl ((b0 + 256 * b1 : Nat) : ℚ) / 65535)))
  else do
    let b0 ← bufAt buf off 0
    let b1 ← bufAt buf off 1
    let b2 ← bufAt buf off 2
    let b3 ← bufAt buf off 3
    .ok (.val (fl (((b0 + 256 * b1 + 65536 * b2 + 16777216 * b3 : Nat) : ℚ) / 4294967295)))

/-- `channels[ch][i]`: the per-channel buffers, indexed by channel and pixel. -/
abbrev Store := Nat × Nat → FV

/-- `channels[ch][dst] = v` with `n` channels of `np` pixels. -/
def put (n np : Nat) (st : Store) (k : Nat × Nat) (v : FV) : Res Store :=
  if k.1 < n ∧ k.2 < np then .ok (fun k' => if k' = k then v else st k') else .ub

/-- The values of the loop variable of `for (uint32_t t = t0; t < n; t += step)`: 2^32 + 1 rounds without leaving mean
that the loop never ends. -/
def starts (n step : Nat) : Nat → Nat → Res (List Nat)
  | 0, _ => .ub
  | fuel + 1, t => if t < n then starts n step fuel ((t + step) % 4294967296) >>= fun l => .ok (t :: l) else .ok []

/-- Row, column and channel of the inner loops, in order. -/
def cells (rows cols n : Nat) : List (Nat × Nat × Nat) :=
  (List.range rows).flatMap fun r => (List.range cols).flatMap fun c => (List.range n).map fun ch => (r, c, ch)

/-- Parameters common to the loops. -/
structure Ctx where
  fl : ℚ → ℚ
  lib : Lib
  f : File
  isFloat : Bool
  bytes : Nat

/-- One tile of an interleaved file (tiff_io.ipp 351-371).  The result of `TIFFReadTile` is not looked at: when it
fails the buffer keeps what it held before (libtiff may also have written part of it). -/
def tileContig (c : Ctx) (tw th : Nat) (s : List Nat × Store) (p : Nat × Nat) : Res (List Nat × Store) := do
  let buf := if c.f.tileOk p.1 p.2 0 then tileBuf c.f tw th p.1 p.2 0 else s.1
  let effW := min tw (c.f.w - p.1)
  let effH := min th (c.f.h - p.2)
  let st ← foldRes (fun st (q : Nat × Nat × Nat) => do
    let v ← sampleToFloat c.fl c.lib c.isFloat c.f.bps buf ((q.1 * tw + q.2.1) * c.f.spp * c.bytes + q.2.2 * c.bytes)
    put c.f.spp (c.f.w * c.f.h) st (q.2.2, (p.2 + q.1) * c.f.w + (p.1 + q.2.1)) v) (cells effH effW c.f.spp) s.2
  .ok (buf, st)

/-- One tile of one plane (tiff_io.ipp 379-398). -/
def tileSeparate (c : Ctx) (tw th : Nat) (s : List Nat × Store) (p : Nat × Nat × Nat) : Res (List Nat × Store) := do
  let buf := if c.f.tileOk p.2.1 p.2.2 p.1 then tileBuf c.f tw th p.2.1 p.2.2 p.1 else s.1
  let effW := min tw (c.f.w - p.2.1)
  let effH := min th (c.f.h - p.2.2)
  let st ← foldRes (fun st (q : Nat × Nat × Nat) => do
    let v ← sampleToFloat c.fl c.lib c.isFloat c.f.bps buf ((q.1 * tw + q.2.1) * c.bytes)
    put c.f.spp (c.f.w * c.f.h) st (p.1, (p.2.2 + q.1) * c.f.w + (p.2.1 + q.2.1)) v) (cells effH effW 1) s.2
  .ok (buf, st)

/-- Tile corners in the order of the loops: outer `ty`, inner `tx`. -/
def corners (xs ys : List Nat) : List (Nat × Nat) := ys.flatMap fun y => xs.map fun x => (x, y)

/-- Tiled storage (tiff_io.ipp 340-401). -/
def readTiled (c : Ctx) (tw th : Nat) (st : Store) : Res Store := do
  let buf := List.replicate (tileSize c.f tw th) 0
  let xs ← starts c.f.w tw 4294967297 0
  let ys ← starts c.f.h th 4294967297 0
  if c.f.contig then do
    let r ← foldRes (tileContig c tw th) (corners xs ys) (buf, st)
    .ok r.2
  else do
    let r ← foldRes (tileSeparate c tw th) ((List.range c.f.spp).flatMap fun ch => (corners xs ys).map fun p => (ch, p)) (buf, st)
    .ok r.2

/-- Stripped storage, interleaved: one row (tiff_io.ipp 407-423). -/
def rowContig (c : Ctx) (st : Store) (y : Nat) : Res Store :=
  if c.f.rowOk y 0 then
    foldRes (fun st (q : Nat × Nat × Nat) => do
      let v ← sampleToFloat c.fl c.lib c.isFloat c.f.bps (rowBuf c.f y 0) (q.2.1 * c.f.spp * c.bytes + q.2.2 * c.bytes)
      put c.f.spp (c.f.w * c.f.h) st (q.2.2, y * c.f.w + q.2.1) v) (cells 1 c.f.w c.f.spp) st
  else .throw

/-- Stripped storage, one row of one plane (tiff_io.ipp 427-444). -/
def rowSeparate (c : Ctx) (st : Store) (p : Nat × Nat) : Res Store :=
  if c.f.rowOk p.2 p.1 then
    foldRes (fun st (q : Nat × Nat × Nat) => do
      let v ← sampleToFloat c.fl c.lib c.isFloat c.f.bps (rowBuf c.f p.2 p.1) (q.2.1 * c.bytes)
      put c.f.spp (c.f.w * c.f.h) st (p.1, p.2 * c.f.w + q.2.1) v) (cells 1 c.f.w 1) st
  else .throw

/-- Stripped storage (tiff_io.ipp 401-445). -/
def readStripped (c : Ctx) (st : Store) : Res Store :=
  if c.f.contig then foldRes (rowContig c) (List.range c.f.h) st
  else foldRes (rowSeparate c) ((List.range c.f.spp).flatMap fun ch => (List.range c.f.h).map fun y => (ch, y)) st

/-- Tiled or stripped storage (tiff_io.ipp 336-445). -/
def readStored (c : Ctx) (st : Store) : Res Store :=
  match c.f.tile with
  | some (tw, th) => readTiled c tw th st
  | none => readStripped c st

/-- `1.0f - v` -/
def invert (fl : ℚ → ℚ) : FV → FV
  | .nan => .nan
  | .val q => .val (fl (1 - q))

/-- `TIFFData` (tiff_io.ipp 36-47); `alpha` is the alpha index if there is one. -/
structure Data where
  w : Nat
  h : Nat
  n : Nat
  channels : Store
  alpha : Option Nat

/-- The alpha channel (tiff_io.ipp 288-303): only the first extra sample is looked at, the index is the last channel. -/
def alphaIndex (f : File) : Option Nat :=
  match f.extra with
  | e :: _ => if e = 1 ∨ e = 2 then some (f.spp - 1) else none
  | [] => none

/-- The format checks (tiff_io.ipp 228-256). -/
def accepted (f : File) : Bool :=
  !(decide (f.w = 0) || decide (f.h = 0)) && !decide (f.fmt = 2) && (decide (f.fmt = 3) || decide (f.fmt = 1)) &&
    (if f.fmt = 3 then decide (f.bps = 32) else decide (f.bps = 8) || decide (f.bps = 16) || decide (f.bps = 32))

/-- Palette images (tiff_io.ipp 258-285). -/
def readPalette (fl : ℚ → ℚ) (f : File) : Res Data :=
  match f.rgba with
  | none => .throw
  | some px => .ok ⟨f.w, f.h, 4, fun k => .val (fl (fl (px (k.2 % f.w) (k.2 / f.w) k.1) / 255)), some 3⟩

/-- MinIsWhite inversion (tiff_io.ipp 447-457). -/
def unwhite (fl : ℚ → ℚ) (f : File) (st : Store) : Store := fun k =>
  if f.photo = 0 ∧ alphaIndex f ≠ some k.1 then invert fl (st k) else st k

/-- `read_tiff_raw_` (tiff_io.ipp 155-469) after `TIFFClientOpen`. -/
def readFile (fl : ℚ → ℚ) (lib : Lib) (f : File) : Res Data :=
  if accepted f then
    if f.photo = 3 then readPalette fl f
    else do
      let c : Ctx := ⟨fl, lib, f, decide (f.fmt = 3), f.bps / 8⟩
      let st ← readStored c (fun _ => .val 0)
      .ok ⟨f.w, f.h, f.spp, unwhite fl f st, alphaIndex f⟩
  else .throw

/-- `read_tiff_raw_` (tiff_io.ipp 155-469). -/
def readRaw (fl : ℚ → ℚ) (lib : Lib) (d : List Byte) : Res Data :=
  match lib.openMem d with
  | none => .throw
  | some f => readFile fl lib f

/-! ## The readers -/

/-- The `Image` constructor on `Resolution{static_cast<int>(width), static_cast<int>(height)}` (tiff_io.ipp 459-463,
image.ipp 29-33): a negative number of pixels throws `std::length_error`.  When both dimensions exceed `int` the channel
buffers allocated before cannot exist. -/
def allocate (w h : Nat) : Res Unit :=
  if 2147483648 ≤ w ∧ 2147483648 ≤ h then .throw
  else i32 (s32 w * s32 h) >>= fun n => if n < 0 then .throw else .ok ()

/-- `(a + b + c) / 3.0f` -/
def mean (fl : ℚ → ℚ) : FV → FV → FV → FV
  | .val a, .val b, .val c => .val (fl (fl (fl (a + b) + c) / 3))
  | _, _, _ => .nan

/-- `read_image_tiff_rgb` / `read_image_tiff_mono` (tiff_io.ipp 490-539, 571-621); `grey` and `colour` build a pixel.
Pixel `(x, y)` is filled from index `i = y * width + x` for every `i` (`x = i % width`, `y = i / width`). -/
def readImage {P : Type} (fl : ℚ → ℚ) (grey : FV → P) (colour : FV → FV → FV → P) (lib : Lib) (d : List Byte) (readAlpha : Bool) :
    Res (Bundle P) := do
  let t ← readRaw fl lib d
  let cc := if t.alpha.isSome then t.n - 1 else t.n
  if cc ≠ 1 ∧ cc ≠ 3 then .throw
  else do
    let _ ← allocate t.w t.h
    .ok { image := ⟨t.w, t.h, (List.range (t.w * t.h)).map fun i =>
            if cc = 1 then grey (t.channels (0, i)) else colour (t.channels (0, i)) (t.channels (1, i)) (t.channels (2, i))⟩
          alpha := match t.alpha with
            | some a => if readAlpha then ⟨t.w, t.h, (List.range (t.w * t.h)).map fun i => t.channels (a, i)⟩ else ⟨0, 0, []⟩
            | none => ⟨0, 0, []⟩
          hint := .sRGB, gamma := 1, depth := 8 }

/-- `read_image_tiff_rgb` -/
def readRGB (fl : ℚ → ℚ) := readImage fl (fun v => (v, v, v)) (fun r g b => (r, g, b))
/-- `read_image_tiff_mono` -/
def readMono (fl : ℚ → ℚ) := readImage fl (fun v => v) (mean fl)

/-! ## The writers -/

/-- `static_cast<uint8_t>(std::clamp(v * 255.0f, 0.0f, 255.0f))` and the 16-bit form (tiff_io.ipp 697-708, 770-777):
truncation, not rounding; NaN passes the clamp and its conversion is undefined. -/
def toLevel (fl : ℚ → ℚ) (M : Nat) : FV → Res Nat
  | .nan => .ub
  | .val q =>
    let v := fl (q * M)
    let cl : ℚ := if v < 0 then 0 else if (M : ℚ) < v then M else v
    .ok ⌊cl⌋.toNat

/-- The levels of one pixel (tiff_io.ipp 690-709). -/
def levels (fl : ℚ → ℚ) (M : Nat) (i : Img (FV × FV × FV)) (x y : Nat) : Res (List Nat) := do
  let p ← pixelAt i x y
  let r ← toLevel fl M p.1
  let g ← toLevel fl M p.2.1
  let b ← toLevel fl M p.2.2
  .ok [r, g, b]

/-- One RGB row: the scanline buffer has `width * 3 * bytes` bytes and pixel `x` is written at `x * 3 * bytes`, both
with the product by three taken modulo 2^32 (tiff_io.ipp 686-692). -/
def writePixel (fl : ℚ → ℚ) (M bytes : Nat) (i : Img (FV × FV × FV)) (x y : Nat) : Res (List Nat) := do
  let l ← levels fl M i x y
  if x * 3 % 4294967296 * bytes + 3 * bytes ≤ i.w * 3 % 4294967296 * bytes then .ok l else .ub

/-- The file written (fields of tiff_io.ipp 667-677): `sample` from the rows; every row is readable afterwards. -/
def written (w h spp photo : Nat) (depth : Nat) (rows : List (List Nat)) : File :=
  { w := w, h := h, spp := spp, bps := depth, fmt := 1, photo := photo, contig := true, extra := [], tile := none
    sub := (2, 2), sample := fun x y c => (((rows[y * w + x]?).getD [])[c]?).getD 0, rgba := none
    rowOk := fun _ _ => true, tileOk := fun _ _ _ => true }

/-- `write_image_tiff` for RGB (tiff_io.ipp 647-716): the alpha image and the colour space are not written, an empty
image is not refused.  The file is assumed to open and the disk to have room. -/
def writeRGB (fl : ℚ → ℚ) (lib : Lib) (b : Bundle (FV × FV × FV)) : Res (List Byte) :=
  if b.depth ≠ 8 ∧ b.depth ≠ 16 then .throw
  else do
    let M := if b.depth = 8 then 255 else 65535
    let rows ← mapRes (fun q : Nat × Nat => writePixel fl M (b.depth.toNat / 8) b.image q.1 q.2) (grid b.image.w b.image.h)
    .ok (lib.save (written b.image.w b.image.h 3 2 b.depth.toNat rows))

/-- `write_image_tiff` for mono images (tiff_io.ipp 720-784). -/
def writeMono (fl : ℚ → ℚ) (lib : Lib) (b : Bundle FV) : Res (List Byte) :=
  if b.depth ≠ 8 ∧ b.depth ≠ 16 then .throw
  else do
    let M := if b.depth = 8 then 255 else 65535
    let rows ← mapRes (fun q : Nat × Nat => pixelAt b.image q.1 q.2 >>= fun v => toLevel fl M v >>= fun n => Res.ok [n]) (grid b.image.w b.image.h)
    .ok (lib.save (written b.image.w b.image.h 1 1 b.depth.toNat rows))

end Huira.ImageIO.Tiff
