import Verif.ImageIO.Base
import Verif.ImageIO.Convert
/-!
# PNG reader and writer (model)

Models `include/huira_impl/images/io/png_io.ipp`.  libpng itself is outside the project: its documented behaviour is
written down here as `File` (what a PNG file contains), `Lib` (parse / encode) and `outFormat`, `outSample`, `rowByte`
(what the rows look like after the transformations the caller asked for).  Everything Huira decides — which
transformations are asked for, the channel count, the byte offsets, the conversion to `float`, the colour-space
chunks, the refusals — is modelled from the source.  `float` operations are rounded by `fl`; `double` arithmetic on the
gamma value is exact.
-/
namespace Huira.ImageIO.Png
open Huira.Num Huira.ImageIO Huira.ImageIO.Convert

/-! ## libpng: what a file contains and what its rows look like -/

/-- The contents of a PNG file as the PNG specification defines them (not Huira code; the vocabulary of libpng).
`ct` is the colour type (0 grey, 2 RGB, 3 palette, 4 grey+alpha, 6 RGB+alpha), `sample x y c` the stored samples,
`trns` the tRNS chunk (alphas of the palette entries, or the transparent grey / RGB sample), `gama` the gAMA chunk in
units of 1/100000; `complete` says that the image data can be read to the end. -/
structure File where
  w : Nat
  h : Nat
  ct : Nat
  depth : Nat
  palette : List (List Nat)
  trns : Option (List Nat)
  sample : Nat → Nat → Nat → Nat
  iccp : Bool
  srgb : Bool
  gama : Option Nat
  complete : Bool

/-- The number of samples per pixel of a colour type (PNG specification). -/
def channelsOf (ct : Nat) : Nat :=
  if ct = 0 then 1 else if ct = 2 then 3 else if ct = 3 then 1 else if ct = 4 then 2 else if ct = 6 then 4 else 0

/-- The transformations asked of libpng (`png_set_palette_to_rgb`, `png_set_expand_gray_1_2_4_to_8`,
`png_set_tRNS_to_alpha`, `png_set_swap`). -/
structure Asked where
  palette : Bool
  gray : Bool
  trns : Bool
  swap : Bool

/-- libpng `png_read_transform_info`: all three expanding requests set `PNG_EXPAND`; the palette and tRNS requests also
set `PNG_EXPAND_tRNS`. -/
def Asked.expand (a : Asked) : Bool := a.palette || a.gray || a.trns
def Asked.expandTrns (a : Asked) : Bool := a.palette || a.trns

/-- Colour type and bit depth of the rows delivered (libpng `png_read_transform_info`). -/
def outFormat (f : File) (a : Asked) : Nat × Nat :=
  if a.expand then
    if f.ct = 3 then (if f.trns.isSome then 6 else 2, 8)
    else (f.ct + (if f.trns.isSome && a.expandTrns then 4 else 0), if f.depth < 8 then 8 else f.depth)
  else (f.ct, f.depth)

/-- Channel `c` of pixel `(x, y)` of the rows delivered (libpng `png_do_expand_palette`, `png_do_expand`). -/
def outSample (f : File) (a : Asked) (x y c : Nat) : Nat :=
  if a.expand then
    if f.ct = 3 then
      if c < 3 then (((f.palette[f.sample x y 0]?).getD [])[c]?).getD 0
      else (((f.trns.getD [])[f.sample x y 0]?).getD 255)
    else if c < channelsOf f.ct then
      (if f.depth < 8 then f.sample x y c * (255 / (2 ^ f.depth - 1)) else f.sample x y c)
    else
      if (List.range (channelsOf f.ct)).map (f.sample x y) = f.trns.getD [] then 0
      else 2 ^ (if f.depth < 8 then 8 else f.depth) - 1
  else f.sample x y c

/-- `png_get_rowbytes` after the transformations. -/
def rowBytes (f : File) (a : Asked) : Nat := (f.w * channelsOf (outFormat f a).1 * (outFormat f a).2 + 7) / 8

/-- Byte `k` of row `y` (PNG specification: 16-bit samples most significant byte first unless swapped, samples of less
than eight bits packed from the left). -/
def rowByte (f : File) (a : Asked) (y k : Nat) : Nat :=
  let ch := channelsOf (outFormat f a).1
  let d := (outFormat f a).2
  if d = 16 then
    let v := outSample f a (k / 2 / ch) y (k / 2 % ch)
    if (k % 2 = 0) = a.swap then v % 256 else v / 256
  else if d = 8 then outSample f a (k / ch) y (k % ch)
  else ((List.range (8 / d)).map fun j =>
    let i := k * (8 / d) + j
    (if i / ch < f.w then outSample f a (i / ch) y (i % ch) else 0) * 2 ^ (d * (8 / d - 1 - j))).sum

/-- libpng as seen from Huira: `parse` runs `png_read_info` on a byte string with a good signature. -/
structure Lib where
  parse : List Byte → Option File
  encode : File → List Byte

/-! ## The reader -/

inductive Space | srgb | linear | gamma | icc
deriving DecidableEq
inductive Hint | linear | sRGB | gamma | unknown
deriving DecidableEq

/-- `detect_png_color_space_` (png_io.ipp 37-70): the kind of space and the gamma value. -/
def detect (f : File) : Space × ℚ :=
  if f.iccp then (.icc, 22 / 10)
  else if f.srgb then (.srgb, 22 / 10)
  else match f.gama with
    | some n =>
      let g : ℚ := n / 100000
      if |g - 1| < 1 / 100 then (.linear, 22 / 10)
      else if |g - 45455 / 100000| < 1 / 100 then (.srgb, 22 / 10)
      else (.gamma, 1 / g)
    | none => (.srgb, 22 / 10)

/-- `PNGData` (png_io.ipp 72-86). -/
structure Data where
  w : Nat
  h : Nat
  channels : Nat
  raw : List Nat
  rowBytes : Nat
  space : Space × ℚ
  depth : Nat
  hasAlpha : Bool
  isGray : Bool

/-- The transformations `read_png_raw_` asks for (png_io.ipp 190-208). -/
def asked (f : File) : Asked :=
  { palette := decide (f.ct = 3)
    gray := decide (f.ct = 0) && decide (f.depth < 8)
    trns := f.trns.isSome
    swap := decide (f.depth = 16) }

/-- The channel count (png_io.ipp 220-230). -/
def channelCount (ct : Nat) : Nat :=
  if ct = 0 then 1 else if ct = 4 then 2 else if ct = 2 then 3 else if ct = 6 then 4 else 0

/-- The part of `read_png_raw_` after `png_read_info` (png_io.ipp 177-256).  An error while reading the rows
`longjmp`s over the live vectors `raw_data` and `row_pointers`, which is undefined. -/
def decodeFile (f : File) : Res Data :=
  let a := asked f
  let fmt := outFormat f a
  if f.complete then
    .ok { w := f.w, h := f.h, channels := channelCount fmt.1
          raw := (List.range (rowBytes f a * f.h)).map fun i => rowByte f a (i / rowBytes f a) (i % rowBytes f a)
          rowBytes := rowBytes f a, space := detect f, depth := fmt.2
          hasAlpha := decide (fmt.1 / 4 % 2 = 1), isGray := decide (fmt.1 = 0) || decide (fmt.1 = 4) }
  else .ub

/-- `read_png_raw_` (png_io.ipp 142-256): too short, bad signature and unreadable header throw. -/
def readRaw (lib : Lib) (d : List Byte) : Res Data :=
  if d.length < 8 then .throw
  else if d.take 8 ≠ [137, 80, 78, 71, 13, 10, 26, 10] then .throw
  else match lib.parse d with
    | none => .throw
    | some f => decodeFile f

/-- An unchecked read of the raw buffer. -/
def at? (l : List Nat) (i : Nat) : Res Nat := match l[i]? with | some v => .ok v | none => .ub

/-- `read_u16` (png_io.ipp 323-327), little-endian host. -/
def readU16 (fl : ℚ → ℚ) (raw : List Nat) (p : Nat) : Res ℚ := do
  let b0 ← at? raw p
  let b1 ← at? raw (p + 1)
  .ok (toFloatU fl 65535 ((b0 + 256 * b1 : Nat) : ℤ) 0 1)

/-- `integer_to_float<std::uint8_t>(ptr[i])`. -/
def readU8 (fl : ℚ → ℚ) (raw : List Nat) (p : Nat) : Res ℚ := do
  let b ← at? raw p
  .ok (toFloatU fl 255 (b : ℤ) 0 1)

/-- The colour of one pixel as read: grey, or red, green, blue. -/
inductive Colour
  | grey (v : ℚ)
  | rgb (r g b : ℚ)

/-- The body of the pixel loop (png_io.ipp 313-362, 405-454; the two readers differ only in what they make of the
colour). -/
def readPixel (fl : ℚ → ℚ) (p : Data) (alpha : Bool) (x y : Nat) : Res (Colour × Option ℚ) :=
  if p.depth = 16 then do
    let base := y * p.rowBytes + x * p.channels * 2
    let c ← (if p.isGray then do
        let m ← readU16 fl p.raw base
        Res.ok (Colour.grey m)
      else do
        let r ← readU16 fl p.raw base
        let g ← readU16 fl p.raw (base + 2)
        let b ← readU16 fl p.raw (base + 4)
        .ok (Colour.rgb r g b))
    let al ← (if alpha then do
        let v ← readU16 fl p.raw (base + if p.isGray then 2 else 6)
        Res.ok (some v)
      else .ok none)
    .ok (c, al)
  else do
    let base := y * p.rowBytes + x * p.channels
    let c ← (if p.isGray then do
        let m ← readU8 fl p.raw base
        Res.ok (Colour.grey m)
      else do
        let r ← readU8 fl p.raw base
        let g ← readU8 fl p.raw (base + 1)
        let b ← readU8 fl p.raw (base + 2)
        .ok (Colour.rgb r g b))
    let al ← (if alpha then do
        let v ← readU8 fl p.raw (base + if p.isGray then 1 else 3)
        Res.ok (some v)
      else .ok none)
    .ok (c, al)

/-- A `float` component of an image to be written (±∞ behave like values beyond the range). -/
inductive FV
  | nan
  | val (q : ℚ)
deriving DecidableEq

/-- `Image<T>`: row-major pixels (image.hpp 69-149). -/
structure Img (P : Type) where
  w : Nat
  h : Nat
  data : List P

/-- `ImageBundle` (image.hpp 157-188). -/
structure Bundle (P : Type) where
  image : Img P
  alpha : Img FV
  hint : Hint
  gamma : ℚ
  depth : Int

/-- `read_color_space` (png_io.ipp 258-287); the bundle starts with gamma 1. -/
def hintOf (fl : ℚ → ℚ) (s : Space × ℚ) : Hint × ℚ :=
  match s.1 with
  | .linear => (.linear, 1)
  | .srgb => (.sRGB, 1)
  | .icc => (.unknown, 1)
  | .gamma => (.gamma, fl s.2)

/-- `RGB{m, m, m}` / `RGB{r, g, b}` (png_io.ipp 330-336). -/
def asRGB : Colour → FV × FV × FV
  | .grey v => (.val v, .val v, .val v)
  | .rgb r g b => (.val r, .val g, .val b)

/-- `mono` / `(r + g + b) / 3.f` (png_io.ipp 422-428). -/
def asMono (fl : ℚ → ℚ) : Colour → FV
  | .grey v => .val v
  | .rgb r g b => .val (fl (fl (fl (r + g) + b) / 3))

/-- `read_image_png` / `read_image_png_mono` (png_io.ipp 300-367, 392-459) with the conversion of the colour as
parameter.  The `Image` constructors multiply width and height as `int` (image.ipp 29-33, 44-48). -/
def readImage {P : Type} (fl : ℚ → ℚ) (conv : Colour → P) (lib : Lib) (d : List Byte) (readAlpha : Bool) : Res (Bundle P) := do
  let p ← readRaw lib d
  let _ ← i32 ((p.w : Int) * p.h)
  let alpha := readAlpha && p.hasAlpha
  let px ← mapRes (fun q => readPixel fl p alpha q.1 q.2) (grid p.w p.h)
  .ok { image := ⟨p.w, p.h, px.map fun c => conv c.1⟩
        alpha := if alpha then ⟨p.w, p.h, px.map fun c => .val (c.2.getD 1)⟩ else ⟨0, 0, []⟩
        hint := (hintOf fl p.space).1, gamma := (hintOf fl p.space).2, depth := 8 }

/-- `read_image_png` -/
def readRGB (fl : ℚ → ℚ) := readImage fl asRGB
/-- `read_image_png_mono` -/
def readMono (fl : ℚ → ℚ) := readImage fl (asMono fl)

/-! ## The writer -/

/-- `float_to_integer<T>(value)`: NaN passes the clamp and the conversion of NaN is undefined. -/
def toLevel (fl : ℚ → ℚ) (tmax : ℤ) : FV → Res Nat
  | .nan => .ub
  | .val q => match fromFloatU fl tmax q 0 1 with | some v => .ok v.toNat | none => .ub

/-- An unchecked image read. -/
def pixelAt {P : Type} (i : Img P) (x y : Nat) : Res P := match i.data[y * i.w + x]? with | some v => .ok v | none => .ub

/-- The levels written for one pixel (png_io.ipp 586-600, 610-624). -/
def pixelLevels (fl : ℚ → ℚ) (tmax : ℤ) (b : Bundle (FV × FV × FV)) (hasAlpha : Bool) (x y : Nat) : Res (List Nat) := do
  let p ← pixelAt b.image x y
  let r ← toLevel fl tmax p.1
  let g ← toLevel fl tmax p.2.1
  let bl ← toLevel fl tmax p.2.2
  if hasAlpha then do
    let av ← pixelAt b.alpha x y
    let a ← toLevel fl tmax av
    .ok [r, g, bl, a]
  else .ok [r, g, bl]

/-- What libpng stores for channel value `v` of a row in the host's byte order: swapped for 16 bits when
`png_set_swap` was called (little-endian host). -/
def stored (depth : Int) (swap : Bool) (v : Nat) : Nat :=
  if depth = 16 ∧ ¬ swap then v % 256 * 256 + v / 256 else v

/-- `png_set_gAMA`: the value in units of 1/100000, rounded; values libpng refuses end in its error handler. -/
def gamaChunk (v : ℚ) : Res (Option Nat) :=
  let n := ⌊100000 * v + 1 / 2⌋
  if 16 ≤ n ∧ n ≤ 625000000 then .ok (some n.toNat) else .throw

/-- The colour-space chunk written (png_io.ipp 557-573). -/
def spaceChunk (hint : Hint) (gamma : ℚ) : Res (Bool × Option Nat) :=
  match hint with
  | .sRGB => .ok (true, none)
  | .linear => do let g ← gamaChunk 1; .ok (false, g)
  | .gamma => if gamma = 0 then .throw else do let g ← gamaChunk (1 / gamma); .ok (false, g)
  | .unknown => .ok (false, none)

/-- `write_image_png` (png_io.ipp 489-634): the file handed to libpng.  The file is assumed to open and the disk to
have room; `png_write_row` is then a plain copy. -/
def writeRGB (fl : ℚ → ℚ) (b : Bundle (FV × FV × FV)) : Res File :=
  if b.image.w = 0 ∨ b.image.h = 0 then .throw
  else
    let present := decide (b.alpha.w ≠ 0 ∧ b.alpha.h ≠ 0)
    let hasAlpha := present && !decide (b.alpha.w ≠ b.image.w ∨ b.alpha.h ≠ b.image.h)
    if b.depth ≠ 8 ∧ b.depth ≠ 16 then .throw
    else do
      let chunk ← spaceChunk b.hint b.gamma
      let swap := decide (b.depth = 16)
      let tmax : ℤ := if b.depth = 16 then 65535 else 255
      let rows ← mapRes (fun q => pixelLevels fl tmax b hasAlpha q.1 q.2) (grid b.image.w b.image.h)
      .ok { w := b.image.w, h := b.image.h, ct := if hasAlpha then 6 else 2, depth := b.depth.toNat
            palette := [], trns := none
            sample := fun x y c => stored b.depth swap ((((rows[y * b.image.w + x]?).getD [])[c]?).getD 0)
            iccp := false, srgb := chunk.1, gama := chunk.2, complete := true }

/-- `write_image_png` for mono images (png_io.ipp 477-487): the value in all three channels, the rest kept. -/
def writeMono (fl : ℚ → ℚ) (b : Bundle FV) : Res File :=
  writeRGB fl { b with image := ⟨b.image.w, b.image.h, b.image.data.map fun v => (v, v, v)⟩ }

end Huira.ImageIO.Png
