import Mathlib.Order.Defs.LinearOrder
/-!
# Star catalogue files (model)

Models `include/huira_impl/stars/io/star_catalog.ipp` 12-112 (`clip_by_magnitude`, `write_star_data`,
`read_star_data`), `include/huira/stars/io/star_catalog.hpp` 20-26 (`HrscHeader`) and
`include/huira/stars/io/star_data.hpp` 12-40.

Conventions and simplifications
* A `StarData` is copied to and from the file by `memcpy`; it is an abstract type with a fixed-width byte
  encoding (`Codec`), whose decoder inverts the encoder.
* `visual_magnitude` is `none` for NaN, otherwise an element of a linear order (the non-NaN floats, infinities
  included); every comparison with NaN is false.
* The header is laid out by the usual x86-64/AArch64 little-endian ABI with natural alignment (32 bytes).
* `std::sort` is any function returning a sorted permutation.
* `ifstream` semantics: `read` past the end copies what is there and sets failbit; once failbit is set, `seekg`
  and `read` do nothing.  File offsets do not overflow.  Opening failures are not modelled.
-/
namespace Huira.Stars

abbrev Byte := UInt8

/-- Raw memory representation of `StarData` (`sizeof(StarData)` bytes). -/
structure Codec (Star : Type) where
  size : Nat
  size_pos : 0 < size
  enc : Star → List Byte
  dec : List Byte → Star
  enc_len : ∀ s, (enc s).length = size
  dec_enc : ∀ s, dec (enc s) = s

/-- Little-endian bytes of a `uint64_t`. -/
def leBytes : Nat → Nat → List Byte
  | 0, _ => []
  | k + 1, n => UInt8.ofNat (n % 256) :: leBytes k (n / 256)

def ofLeBytes : List Byte → Nat
  | [] => 0
  | b :: bs => b.toNat + 256 * ofLeBytes bs

/-- `HrscHeader` (star_catalog.hpp 20-26) in memory: magic at 0, version at 4, reserved at 8, catalog type at
16, star count at 24. Written by star_catalog.ipp 42-51. -/
def headerBytes (catalogType : Byte) (count : Nat) : List Byte :=
  [0x48, 0x52, 0x53, 0x43, 1, 0, 0, 0] ++ leBytes 8 0 ++ [catalogType, 0, 0, 0, 0, 0, 0, 0] ++ leBytes 8 count

def headerSize : Nat := 32

/-- Read `new` over the beginning of `buf` (what a short `read` does to the destination). -/
def overlay (buf new : List Byte) : List Byte := new ++ buf.drop new.length

variable {Star K : Type} [LinearOrder K]

/-- `s.visual_magnitude <= m` -/
def magLe (mag : Star → Option K) (m : K) (s : Star) : Bool :=
  match mag s with
  | none => false
  | some x => decide (x ≤ m)

/-- `clip_by_magnitude` (star_catalog.ipp 12-21): erase if `mag > max || isnan(mag)`. -/
def clip (mag : Star → Option K) (m : K) (l : List Star) : List Star :=
  l.filter (fun s => !(match mag s with
    | none => true
    | some x => decide (m < x)))

/-- What `std::sort` guarantees for a list without NaN magnitudes. -/
structure SortSpec (mag : Star → Option K) (sort : List Star → List Star) : Prop where
  perm : ∀ l, (sort l).Perm l
  sorted : ∀ l, (∀ s ∈ l, (mag s).isSome) →
    (sort l).Pairwise (fun a b => ∀ x y, mag a = some x → mag b = some y → x ≤ y)

/-- `write_star_data` (star_catalog.ipp 23-59). -/
def write (c : Codec Star) (mag : Star → Option K) (sort : List Star → List Star) (catalogType : Byte)
    (stars : List Star) : List Byte :=
  let valid := sort (stars.filter (fun s => (mag s).isSome))
  headerBytes catalogType valid.length ++ (valid.map c.enc).flatten

/-- `ifstream` state: the failbit. -/
abbrev Failed := Bool

/-- `seekg(off); read(buf, buf.size())` -/
def readAt (file : List Byte) (failed : Failed) (off : Nat) (buf : List Byte) : List Byte × Failed :=
  if failed then (buf, true)
  else
    let avail := (file.drop off).take buf.length
    (overlay buf avail, decide (avail.length < buf.length))

/-- The binary-search loop (star_catalog.ipp 84-97). `temp` is the probe buffer, kept between iterations. -/
def searchLoop (c : Codec Star) (mag : Star → Option K) (m : K) (file : List Byte) :
    Nat → List Byte → Failed → Nat → Nat → Failed × Nat
  | 0, _, failed, low, _ => (failed, low)
  | fuel + 1, temp, failed, low, high =>
    if low < high then
      let mid := low + (high - low) / 2
      let (temp', failed') := readAt file failed (headerSize + mid * c.size) temp
      if magLe mag m (c.dec temp') then searchLoop c mag m file fuel temp' failed' (mid + 1) high
      else searchLoop c mag m file fuel temp' failed' low mid
    else (failed, low)

/-- Cut a byte buffer into records. -/
def records (c : Codec Star) : Nat → List Byte → List Star
  | 0, _ => []
  | n + 1, bs => c.dec (bs.take c.size) :: records c n (bs.drop c.size)

inductive ReadResult (Star : Type) where
  | catalog (type : Byte) (stars : List Star)
  | throw

/-- `read_star_data` (star_catalog.ipp 61-112); `dflt` is a default-constructed `StarData` (its RA/DEC are
indeterminate, its magnitude NaN). The loop bound `count` is sufficient since `high - low` shrinks. -/
def read (c : Codec Star) (mag : Star → Option K) (dflt : Star) (m : K) (file : List Byte) : ReadResult Star :=
  let (hdr, failed) := readAt file false 0 (List.replicate headerSize 0)
  if hdr.take 4 ≠ [0x48, 0x52, 0x53, 0x43] then .throw
  else if hdr[4]? ≠ some 1 then .throw
  else
    let count := ofLeBytes (hdr.drop 24)
    let (failed, low) := searchLoop c mag m file count (c.enc dflt) failed 0 count
    let (buf, _) := readAt file failed headerSize ((List.replicate low (c.enc dflt)).flatten)
    .catalog ((hdr[16]?).getD 0) (records c low buf)

end Huira.Stars
