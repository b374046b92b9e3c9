import Verif.ImageIO.Base
import Mathlib.Algebra.Order.Field.Rat
import Mathlib.Algebra.Field.Rat
/-!
# Radiance HDR reader (model)

Models `MemCursor_`, `rgbe_to_float_`, `read_hdr_line_` and `read_hdr_raw_`
(`include/huira_impl/images/io/hdr_io.ipp` 33-275). A cursor is the list of bytes not yet read; `has_remaining` is
computed without overflow (sizes of real buffers). Formatted extraction `iss >> h >> px >> w` from a resolution line is
the parameter `tok`: it yields height, the word between, and width, or fails. Pixel values are exact (an 8-bit
mantissa times a power of two between 2^-135 and 2^119 is representable in `float`).
-/
namespace Huira.ImageIO.Hdr

/-- `read_hdr_line_` (hdr_io.ipp 77-96) with the line read so far: `none` when nothing could be read. -/
def readLineFrom : List Byte → List Byte → Option (List Byte) × List Byte
  | acc, [] => (if acc.isEmpty then none else some acc, [])
  | acc, c :: t =>
    if c = 10 then (some acc, t)
    else if c = 13 then
      match t with
      | 10 :: t' => (some acc, t')
      | _ => (some acc, t)
    else readLineFrom (acc ++ [c]) t

def readLine (d : List Byte) : Option (List Byte) × List Byte := readLineFrom [] d

/-- The header loop (hdr_io.ipp 131-141): lines until an empty line or the end of the data. The FORMAT search only
affects a log message. `fuel` bounds the number of lines; `d.length + 1` always suffices. -/
def skipHeader : Nat → List Byte → List Byte
  | 0, d => d
  | fuel + 1, d =>
    match readLine d with
    | (none, d') => d'
    | (some l, d') => if l.isEmpty then d' else skipHeader fuel d'

/-- The lambda `parse_resolution` (hdr_io.ipp 155-169); result is (width, height). -/
def parseRes (tok : List Byte → Option (Int × List Byte × Int)) (line py px : List Byte) : Option (Int × Int) :=
  if line.take py.length = py then
    match tok (line.drop py.length) with
    | some (h, p, w) => if p = px then some (w, h) else none
    | none => none
  else none

/-- hdr_io.ipp 171-181: the four accepted orientations, tried in order. "-Y" = 45 89, "+X" = 43 88. -/
def resolution (tok : List Byte → Option (Int × List Byte × Int)) (line : List Byte) : Option (Int × Int) :=
  (parseRes tok line [45, 89] [43, 88]).or <|
  (parseRes tok line [43, 89] [43, 88]).or <|
  (parseRes tok line [45, 89] [45, 88]).or <|
  (parseRes tok line [43, 89] [45, 88])

/-- `scanline[i] = v` -/
def put (scan : List Byte) (i : Nat) (v : Byte) : Res (List Byte) := if i < scan.length then .ok (scan.set i v) else .ub

/-- The run loop (hdr_io.ipp 221-226): `k` repetitions left. Result: position and scanline. -/
def runLoop (w ch : Nat) (v : Byte) : Nat → Nat → List Byte → Res (Nat × List Byte)
  | 0, pos, scan => .ok (pos, scan)
  | k + 1, pos, scan =>
    if pos < w then put scan (pos * 4 + ch) v >>= fun s => runLoop w ch v k (pos + 1) s
    else .ok (pos, scan)

/-- The literal loop (hdr_io.ipp 230-239). -/
def litLoop (w ch : Nat) : Nat → Nat → List Byte → List Byte → Res (Nat × List Byte × List Byte)
  | 0, pos, scan, rest => .ok (pos, scan, rest)
  | k + 1, pos, scan, rest =>
    if pos < w then
      match rest with
      | [] => .throw
      | v :: t => put scan (pos * 4 + ch) v >>= fun s => litLoop w ch k (pos + 1) s t
    else .ok (pos, scan, rest)

/-- One channel of a run-length coded scanline (hdr_io.ipp 205-241). Every round consumes at least one byte, so
`fuel = rest.length + 1` rounds always suffice (running out of fuel is reported as `ub`). -/
def chanLoop (w ch : Nat) : Nat → Nat → List Byte → List Byte → Res (List Byte × List Byte)
  | 0, _, _, _ => .ub
  | fuel + 1, pos, scan, rest =>
    if w ≤ pos then .ok (scan, rest)
    else
      match rest with
      | [] => .throw
      | b :: t =>
        if 128 < b.toNat then
          match t with
          | [] => .throw
          | v :: t' => runLoop w ch v (b.toNat - 128) pos scan >>= fun r => chanLoop w ch fuel r.1 r.2 t'
        else litLoop w ch b.toNat pos scan t >>= fun r => chanLoop w ch fuel r.1 r.2.1 r.2.2

/-- One scanline (hdr_io.ipp 192-258): the scanline buffer (reused from line to line) and the data left. -/
def scanLine (w : Nat) (scan rest : List Byte) : Res (List Byte × List Byte) :=
  match rest with
  | h0 :: h1 :: h2 :: h3 :: t =>
    if h0.toNat = 2 ∧ h1.toNat = 2 ∧ h2.toNat * 256 + h3.toNat = w then do
      let (s0, t0) ← chanLoop w 0 (t.length + 1) 0 scan t
      let (s1, t1) ← chanLoop w 1 (t0.length + 1) 0 s0 t0
      let (s2, t2) ← chanLoop w 2 (t1.length + 1) 0 s1 t1
      chanLoop w 3 (t2.length + 1) 0 s2 t2
    else do
      let s ← put scan 0 h0
      let s ← put s 1 h1
      let s ← put s 2 h2
      let s ← put s 3 h3
      if 1 < w then
        let remaining := (w - 1) * 4
        if t.length < remaining then .throw
        else if s.length < 4 + remaining then .ub
        else .ok (s.take 4 ++ t.take remaining ++ s.drop (4 + remaining), t.drop remaining)
      else .ok (s, t)
  | _ => .throw

/-- `rgbe_to_float_` (hdr_io.ipp 58-68). -/
def rgbe (p : Byte × Byte × Byte × Byte) : ℚ × ℚ × ℚ :=
  if p.2.2.2.toNat = 0 then (0, 0, 0)
  else
    let scale : ℚ := 2 ^ ((p.2.2.2.toNat : ℤ) - (128 + 8))
    ((p.1.toNat : ℚ) * scale, (p.2.1.toNat : ℚ) * scale, (p.2.2.1.toNat : ℚ) * scale)

/-- `rgbe_to_float_(&scanline[x * 4], ..)`: `ub` if the four bytes are not all inside the scanline. -/
def pixelAt (scan : List Byte) (x : Nat) : Res (Byte × Byte × Byte × Byte) :=
  match scan[x * 4]?, scan[x * 4 + 1]?, scan[x * 4 + 2]?, scan[x * 4 + 3]? with
  | some r, some g, some b, some e => .ok (r, g, b, e)
  | _, _, _, _ => .ub

/-- All scanlines (hdr_io.ipp 190-267); the output rows, top first, are written one after the other
(`dst = (y * width + x) * 3`). Rows hold the undecoded four bytes of each pixel; `rgbe` is applied when reading. -/
def rows (w : Nat) : Nat → List Byte → List Byte → Res (List (Byte × Byte × Byte × Byte))
  | 0, _, _ => .ok []
  | h + 1, scan, rest =>
    scanLine w scan rest >>= fun r =>
    mapRes (pixelAt r.1) (List.range w) >>= fun px =>
    rows w h r.1 r.2 >>= fun more => .ok (px ++ more)

structure Image where
  width : Nat
  height : Nat
  pixels : List (Byte × Byte × Byte × Byte)
deriving DecidableEq

/-- `read_hdr_raw_` (hdr_io.ipp 112-275). -/
def readRaw (maxAlloc : Nat) (tok : List Byte → Option (Int × List Byte × Int)) (d : List Byte) : Res Image :=
  match readLine d with
  | (none, _) => .throw
  | (some magic, d1) =>
    if magic.take 2 ≠ [35, 63] then .throw
    else
      match readLine (skipHeader (d1.length + 1) d1) with
      | (none, _) => .throw
      | (some line, d2) =>
        match resolution tok line with
        | none => .throw
        | some (w, h) =>
          if w ≤ 0 ∨ h ≤ 0 then .throw
          else if maxAlloc < w.toNat * h.toNat * 12 + w.toNat * 4 then .throw
          else rows w.toNat h.toNat (List.replicate (w.toNat * 4) 0) d2 >>= fun px => .ok ⟨w.toNat, h.toNat, px⟩

/-- The colour `read_image_hdr` stores at `(x, y)` (hdr_io.ipp 294-310). -/
def Image.color (i : Image) (x y : Nat) : Option (ℚ × ℚ × ℚ) := (i.pixels[y * i.width + x]?).map rgbe

end Huira.ImageIO.Hdr
