import Verif.ImageIO.Base
/-!
# TGA reader (model)

Models `read_tga_raw_` (`include/huira_impl/images/io/tga_io.ipp` 48-258). All sizes fit in `size_t` and `int`
(16-bit dimensions, 8-bit depths), so plain naturals are used. A vector larger than `maxAlloc` bytes throws.
`v[i]` outside the vector is `ub`.
-/
namespace Huira.ImageIO.Tga

/-- The 18-byte header (tga_io.ipp 58-83). -/
structure Hdr where
  idLength : Nat
  cmType : Nat
  imageType : Nat
  cmFirst : Nat
  cmLength : Nat
  cmEntry : Nat
  width : Nat
  height : Nat
  depth : Nat
  topOrigin : Bool
deriving DecidableEq

/-- tga_io.ipp 58-83: `descriptor & 0x20`. -/
def parseHdr (d : List Byte) : Hdr :=
  { idLength := byteAt d 0, cmType := byteAt d 1, imageType := byteAt d 2, cmFirst := le16 d 3, cmLength := le16 d 5,
    cmEntry := byteAt d 7, width := le16 d 12, height := le16 d 14, depth := byteAt d 16,
    topOrigin := decide (byteAt d 17 / 32 % 2 = 1) }

/-- Image type classes (tga_io.ipp 86-89). -/
def Hdr.rle (h : Hdr) : Bool := h.imageType == 9 || h.imageType == 10 || h.imageType == 11
def Hdr.mapped (h : Hdr) : Bool := h.imageType == 1 || h.imageType == 9
def Hdr.gray (h : Hdr) : Bool := h.imageType == 3 || h.imageType == 11
def Hdr.truecolor (h : Hdr) : Bool := h.imageType == 2 || h.imageType == 10

/-- `cm_bytes_per_entry` (tga_io.ipp 109-112): zero unless a colour map is present. -/
def Hdr.cmBytes (h : Hdr) : Nat := if h.cmType = 1 ∧ 0 < h.cmLength then (h.cmEntry + 7) / 8 else 0
/-- `file_channels` (tga_io.ipp 122-129). -/
def Hdr.fileChannels (h : Hdr) : Nat := if h.mapped then h.cmBytes else if h.gray then 1 else h.depth / 8
/-- `has_alpha` (tga_io.ipp 131-138). -/
def Hdr.alpha (h : Hdr) : Bool :=
  if h.mapped then decide (h.cmEntry = 32) else if h.gray then false else decide (h.depth = 32)
/-- `out_channels` (tga_io.ipp 140). -/
def Hdr.outChannels (h : Hdr) : Nat := if h.alpha then 4 else 3
/-- `index_bytes` (tga_io.ipp 144-145). -/
def Hdr.indexBytes (h : Hdr) : Nat := if h.mapped then h.depth / 8 else h.fileChannels

/-- The RLE loop (tga_io.ipp 149-187). `rest` is the data from `pos` on; `out` is the part of `pixel_indices`
written so far (the writes are consecutive: `decoded * ib = out.length`). A raw packet is copied whole without
comparing it with the space left: writing past `n * ib` is `ub`, as is `&pixel_indices[..]` on an empty vector. -/
def rleDecode (ib n : Nat) (rest out : List Byte) (decoded : Nat) : Res (List Byte) :=
  if n ≤ decoded then .ok out
  else match rest with
  | [] => .throw
  | p :: t =>
    if 128 ≤ p.toNat then
      if t.length < ib then .throw
      else if ib = 0 then .ub
      else
        let k := min (p.toNat % 128 + 1) (n - decoded)
        rleDecode ib n (t.drop ib) (out ++ (List.replicate k (t.take ib)).flatten) (decoded + k)
    else
      let bytes := (p.toNat % 128 + 1) * ib
      if t.length < bytes then .throw
      else if ib = 0 ∨ n * ib < decoded * ib + bytes then .ub
      else rleDecode ib n (t.drop bytes) (out ++ t.take bytes) (decoded + (p.toNat % 128 + 1))
termination_by rest.length
decreasing_by all_goals (simp only [List.length_drop, List.length_cons]; omega)

/-- `v[i]` -/
def at! (v : List Byte) (i : Nat) : Res Byte :=
  match v[i]? with
  | some b => .ok b
  | none => .ub

/-- Red, green, blue, alpha read through a pointer at `v[base]` with `ch` channels (tga_io.ipp 221-227, 236-241). -/
def bgra (v : List Byte) (base ch : Nat) : Res (List Byte) := do
  let r ← at! v (base + 2)
  let g ← at! v (base + 1)
  let b ← at! v base
  if 4 ≤ ch then do
    let a ← at! v (base + 3)
    .ok [r, g, b, a]
  else .ok [r, g, b, 255]

/-- The stored palette index of source pixel `i` (tga_io.ipp 210-215). -/
def storedIndex (h : Hdr) (idx : List Byte) (i : Nat) : Res Nat :=
  if h.depth = 8 then at! idx i >>= fun b => .ok b.toNat
  else if h.depth = 16 then
    at! idx (i * 2) >>= fun b0 => at! idx (i * 2 + 1) >>= fun b1 => .ok (b0.toNat + 256 * b1.toNat)
  else .ok 0

/-- `resolved` for source pixel `i` (tga_io.ipp 207-242). The index subtraction is modulo 2^16. -/
def resolve (h : Hdr) (cmap idx : List Byte) (i : Nat) : Res (List Byte) :=
  if h.mapped then
    storedIndex h idx i >>= fun index =>
      bgra cmap ((index + 65536 - h.cmFirst) % 65536 * h.cmBytes) h.cmBytes
  else if h.gray then at! idx i >>= fun g => .ok [g, g, g, 255]
  else bgra idx (i * h.indexBytes) h.fileChannels

/-- The writes of one iteration of the conversion loop (tga_io.ipp 195-249). -/
def pixelWrites (h : Hdr) (cmap idx : List Byte) (p : Nat × Nat) : Res (List (Nat × Byte)) := do
  let srcY := if h.topOrigin then p.2 else h.height - 1 - p.2
  let dst := (p.2 * h.width + p.1) * h.outChannels
  let v ← resolve h cmap idx (srcY * h.width + p.1)
  let w (c : Nat) : Nat × Byte := (dst + c, (v[c]?).getD 0)
  .ok ([w 0, w 1, w 2] ++ if h.alpha then [w 3] else [])

/-- `raw_data[i] = b` for a list of writes. -/
def writeLoop : List (Nat × Byte) → List Byte → Res (List Byte)
  | [], v => .ok v
  | (i, b) :: ws, v => if i < v.length then writeLoop ws (v.set i b) else .ub

structure Raw where
  width : Nat
  height : Nat
  channels : Nat
  hasAlpha : Bool
  data : List Byte
deriving DecidableEq

/-- The conversion loop (tga_io.ipp 192-250). -/
def convert (maxAlloc : Nat) (h : Hdr) (cmap idx : List Byte) : Res Raw :=
  if maxAlloc < h.width * h.height * h.outChannels then .throw
  else do
    let ws ← mapRes (pixelWrites h cmap idx) (grid h.width h.height)
    let data ← writeLoop ws.flatten (List.replicate (h.width * h.height * h.outChannels) 0)
    .ok ⟨h.width, h.height, h.outChannels, h.alpha, data⟩

/-- `pixel_indices` (tga_io.ipp 147-190) from the data after the colour map. -/
def indices (maxAlloc : Nat) (h : Hdr) (rest : List Byte) : Res (List Byte) :=
  if h.rle then
    if maxAlloc < h.width * h.height * h.indexBytes then .throw
    else rleDecode h.indexBytes (h.width * h.height) rest [] 0
  else
    if rest.length < h.width * h.height * h.indexBytes then .throw
    else .ok (rest.take (h.width * h.height * h.indexBytes))

/-- Size of the colour map in bytes (tga_io.ipp 112). -/
def Hdr.cmSize (h : Hdr) : Nat := if h.cmType = 1 ∧ 0 < h.cmLength then h.cmLength * h.cmBytes else 0

/-- `read_tga_raw_` (tga_io.ipp 48-258). -/
def readRaw (maxAlloc : Nat) (d : List Byte) : Res Raw :=
  if d.length < 18 then .throw
  else
    let h := parseHdr d
    if !h.truecolor && !h.gray && !h.mapped then .throw
    else if d.length < 18 + h.idLength then .throw
    else if d.length < 18 + h.idLength + h.cmSize then .throw
    else do
      let cmap := (d.drop (18 + h.idLength)).take h.cmSize
      let idx ← indices maxAlloc h (d.drop (18 + h.idLength + h.cmSize))
      convert maxAlloc h cmap idx

/-- The byte `read_image_tga` converts for pixel `(x, y)`, channel `c` (tga_io.ipp 281-310). -/
def Raw.channel (r : Raw) (x y c : Nat) : Option Byte := r.data[(y * r.width + x) * r.channels + c]?

end Huira.ImageIO.Tga
