import Verif.ImageIO.Base
import Mathlib.Data.Int.Log
import Mathlib.Data.List.DropRight
import Mathlib.Data.Rat.Floor
import Mathlib.Algebra.Order.Field.Rat
/-!
# FITS headers (model)

Models `write_fits_metadata`, `read_fits_metadata` and the header part of `write_image_fits`
(`include/huira_impl/images/io/fits_io.ipp` 54-396, 592-613, 650-666; `include/huira/images/io/fits_metadata.hpp`).

CFITSIO is a contract, described by `enc`, `update`, `chunks` and the parameters of `Cfitsio`: a header is a list of
cards of 80 columns; a string value holds at most 68 characters, quotes counting twice, and loses its trailing blanks;
characters that are not printable ASCII become blanks; a `double` is printed with 10 digits after the point of the scientific
notation and a `float` with 6; a comment gets what room is left on the card; updating a key replaces the first card of that
name or appends one; `COMMENT` and `HISTORY` texts are cut into cards of 72 characters. Characters stand for the
bytes of a `std::string`. Numbers are finite and the exponent range is unbounded.
-/
namespace Huira.ImageIO.FitsHeader

abbrev Str := List Char

/-! ### what CFITSIO does -/

/-- Illegal characters of a card are replaced by blanks. -/
def printable (c : Char) : Char := if 32 ≤ c.toNat ∧ c.toNat ≤ 126 then c else ' '

/-- Trailing blanks carry no information. -/
def stripR (s : Str) : Str := s.rdropWhile (· == ' ')

/-- Columns a character takes within quotes. -/
def columns (c : Char) : ℕ := if c = '\'' then 2 else 1

/-- The longest beginning that fits in `n` columns. -/
def fit : ℕ → Str → Str
  | _, [] => []
  | n, c :: s => if columns c ≤ n then c :: fit (n - columns c) s else []

/-- A string as stored on a card and read back. -/
def storeStr (s : Str) : Str := stripR ((fit 68 s).map printable)

/-- `"%.dE"`: rounding to `d` digits after the point of the scientific notation. -/
def sci (d : ℕ) (v : ℚ) : ℚ := (round (v * 10 ^ ((d : ℤ) - Int.log 10 |v|)) : ℤ) / 10 ^ ((d : ℤ) - Int.log 10 |v|)

/-- A value handed to CFITSIO. -/
inductive In where
  | str (s : Str)
  | dbl (v : ℚ)
  | flt (v : ℚ)
  | int (i : ℤ)
  | log (b : Bool)

/-- A value on a card. -/
inductive Val where
  | str (s : Str)
  | real (q : ℚ)
  | int (i : ℤ)
  | log (b : Bool)
deriving DecidableEq

/-- What is put on the card (fits_io.ipp 56-89: 10 digits for `double`, 6 for `float`). -/
def enc : In → Val
  | .str s => .str (storeStr s)
  | .dbl v => .real (sci 10 v)
  | .flt v => .real (sci 6 v)
  | .int i => .int i
  | .log b => .log b

/-- Columns taken by the value field. -/
def valueColumns : In → ℕ
  | .str s => 2 + max 8 (((fit 68 s).map columns).sum)
  | _ => 20

/-- Columns left for a comment: the value ends at column 30 or later and `" / "` follows. -/
def room (v : In) : ℕ := 77 - max 30 (10 + valueColumns v)

/-- A comment as stored and read back. -/
def storeComment (v : In) (c : Str) : Str := stripR ((c.take (room v)).map printable)

inductive Card where
  | kv (key : String) (v : Val) (comment : Str)
  | text (key : String) (t : Str)
deriving DecidableEq

/-- Without a new comment, or with one that begins with an ampersand, an updated card keeps its comment. -/
def keep (c : Option Str) (old : Str) : Str :=
  match c with
  | none => old
  | some ('&' :: _) => old
  | some c => c

/-- `fits_update_key` -/
def update (k : String) (v : In) (c : Option Str) : List Card → List Card
  | [] => [.kv k (enc v) (storeComment v (c.getD []))]
  | .text t s :: rest => .text t s :: update k v c rest
  | .kv k' v' c' :: rest =>
    if k' = k then .kv k (enc v) (storeComment v (keep c c')) :: rest else .kv k' v' c' :: update k v c rest

/-- The cards of a `COMMENT` or `HISTORY` text. -/
def chunks (s : Str) : List Str := if h : s = [] then [] else s.take 72 :: chunks (s.drop 72)
termination_by s.length
decreasing_by
  have := List.length_pos_iff.2 h
  rw [List.length_drop]; omega

/-- The first card of a given name. -/
def lookup (h : List Card) (k : String) : Option Val :=
  h.findSome? fun c => match c with | .kv k' v _ => if k' = k then some v else none | .text _ _ => none

/-- Parameters of the contract: rounding to `double` and to `float`, what a number looks like as a string, and what a string
means as a number. -/
structure Cfitsio where
  rd : ℚ → ℚ
  rf : ℚ → ℚ
  textOf : Val → Str
  parse : Str → Option ℚ

/-! ### metadata -/

/-- `FitsKeyword` (fits_metadata.hpp 17-21). A value is a string, `double`, integer or truth value, never a `float`. -/
structure Keyword where
  key : String
  value : In
  comment : Str

/-- `FitsMetadata` (fits_metadata.hpp 40-102). -/
structure Info where
  object : Str := []
  telescop : Str := []
  instrume : Str := []
  observer : Str := []
  dateObs : Str := []
  origin : Str := []
  exptime : ℚ := 0
  filter : Str := []
  bunit : Str := []
  datamin : Option ℚ := none
  datamax : Option ℚ := none
  saturate : Option ℚ := none
  crpix1 : Option ℚ := none
  crpix2 : Option ℚ := none
  crval1 : Option ℚ := none
  crval2 : Option ℚ := none
  cdelt1 : Option ℚ := none
  cdelt2 : Option ℚ := none
  ctype1 : Str := []
  ctype2 : Str := []
  equinox : ℚ := 2000
  radesys : Str := "ICRS".toList
  comments : List Str := []
  history : List Str := []
  custom : List Keyword := []

/-- `has_wcs` (fits_metadata.hpp 108-112). -/
def Info.hasWcs (m : Info) : Bool := m.crpix1.isSome || m.crval1.isSome || m.cdelt1.isSome || !m.ctype1.isEmpty

/-! ### writing -/

/-- A call of CFITSIO made by the writer. -/
inductive Op where
  | key (k : String) (v : In) (c : Option Str)
  | text (k : String) (s : Str)

/-- The effect of a call on the header. -/
def Op.run (h : List Card) : Op → List Card
  | .key k v c => update k v c h
  | .text k s => h ++ (chunks s).map fun t => .text k (stripR (t.map printable))

/-- `write_string_key` (fits_io.ipp 56-63): an empty string is not written. -/
def strOp (k : String) (s : Str) (c : Option Str) : List Op := if s.isEmpty then [] else [.key k (.str s) c]

/-- `if (m.x) write_double_key(...)` (fits_io.ipp 65-69, 132-160). -/
def optOp (k : String) (v : Option ℚ) (c : String) : List Op :=
  match v with
  | some q => [.key k (.dbl q) (some c.toList)]
  | none => []

/-- `write_custom_keyword` (fits_io.ipp 91-109). -/
def customOp (kw : Keyword) : List Op :=
  let comment := if kw.comment.isEmpty then none else some kw.comment
  match kw.value with
  | .str s => strOp kw.key s comment
  | v => [.key kw.key v comment]

/-- `write_fits_metadata` (fits_io.ipp 112-182). -/
def metadataOps (m : Info) : List Op :=
  strOp "OBJECT" m.object (some "Target name".toList) ++
  strOp "TELESCOP" m.telescop (some "Telescope / system".toList) ++
  strOp "INSTRUME" m.instrume (some "Instrument".toList) ++
  strOp "OBSERVER" m.observer (some "Observer / author".toList) ++
  strOp "DATE-OBS" m.dateObs (some "Observation date (ISO)".toList) ++
  strOp "ORIGIN" m.origin (some "File origin / software".toList) ++
  (if 0 < m.exptime then [.key "EXPTIME" (.flt m.exptime) (some "[s] Exposure time".toList)] else []) ++
  strOp "FILTER" m.filter (some "Filter name".toList) ++
  strOp "BUNIT" m.bunit (some "Physical unit of pixel values".toList) ++
  optOp "DATAMIN" m.datamin "Minimum pixel value" ++
  optOp "DATAMAX" m.datamax "Maximum pixel value" ++
  optOp "SATURATE" m.saturate "[adu] Detector saturation level" ++
  (if m.hasWcs then
    optOp "CRPIX1" m.crpix1 "[pixel] Reference pixel X" ++
    optOp "CRPIX2" m.crpix2 "[pixel] Reference pixel Y" ++
    optOp "CRVAL1" m.crval1 "[deg] RA  at ref pixel" ++
    optOp "CRVAL2" m.crval2 "[deg] Dec at ref pixel" ++
    optOp "CDELT1" m.cdelt1 "[deg/pixel] Plate scale X" ++
    optOp "CDELT2" m.cdelt2 "[deg/pixel] Plate scale Y" ++
    strOp "CTYPE1" m.ctype1 (some "Coordinate type axis 1".toList) ++
    strOp "CTYPE2" m.ctype2 (some "Coordinate type axis 2".toList) ++
    [.key "EQUINOX" (.dbl m.equinox) (some "Equinox of coordinates".toList)] ++
    strOp "RADESYS" m.radesys (some "Reference frame".toList)
  else []) ++
  m.comments.map (.text "COMMENT") ++
  m.history.map (.text "HISTORY") ++
  m.custom.flatMap customOp

/-- What the writer knows about the pixels (fits_io.ipp 562-590, 610-666): on-disk format and size, ADC ceiling, least and
greatest finite value written, and the value for undefined pixels if there are any and the format is an integer one. -/
structure Pixels where
  bitpix : ℤ
  width : ℤ
  height : ℤ
  adcMax : ℚ
  least : ℚ
  greatest : ℚ
  blank : Option ℤ

/-- The cards `fits_create_img` writes (contract; `fits_create_img` is called at fits_io.ipp 576). -/
def initial (p : Pixels) : List Card :=
  [.kv "SIMPLE" (.log true) "file does conform to FITS standard".toList,
   .kv "BITPIX" (.int p.bitpix) "number of bits per data pixel".toList,
   .kv "NAXIS" (.int 2) "number of data axes".toList,
   .kv "NAXIS1" (.int p.width) "length of data axis 1".toList,
   .kv "NAXIS2" (.int p.height) "length of data axis 2".toList,
   .kv "EXTEND" (.log true) "FITS dataset may contain extensions".toList,
   .text "COMMENT" "  FITS (Flexible Image Transport System) format is defined in 'Astronomy".toList,
   .text "COMMENT" "  and Astrophysics', volume 376, page 359; bibcode: 2001A&A...376..359H".toList]

/-- The metadata the writer completes (fits_io.ipp 592-605). -/
def completed (p : Pixels) (m : Info) : Info :=
  if 0 < p.bitpix then
    { m with bunit := if m.bunit.isEmpty then "adu".toList else m.bunit, saturate := m.saturate <|> some p.adcMax }
  else m

/-- The keyword of undefined pixels (fits_io.ipp 661-666). -/
def blankOp (p : Pixels) : List Op :=
  match p.blank with
  | some b => [.key "BLANK" (.int b) (some "Value representing undefined pixels".toList)]
  | none => []

/-- The calls made by `write_image_fits` after the image was created (fits_io.ipp 592-608, 650-666). -/
def headerOps (p : Pixels) (m : Info) : List Op :=
  metadataOps (completed p m) ++
  (if m.datamin.isNone then [.key "DATAMIN" (.dbl p.least) (some "Minimum pixel value".toList)] else []) ++
  (if m.datamax.isNone then [.key "DATAMAX" (.dbl p.greatest) (some "Maximum pixel value".toList)] else []) ++
  blankOp p

/-- The header of the file. -/
def writeHeader (p : Pixels) (m : Info) : List Card := (headerOps p m).foldl Op.run (initial p)

/-! ### reading -/

/-- `read_string_key` (fits_io.ipp 186-196). -/
def readStr (f : Cfitsio) (h : List Card) (k : String) : Str :=
  match lookup h k with
  | none => []
  | some (.str s) => s
  | some v => f.textOf v

/-- A card's value as a number. -/
def number (f : Cfitsio) : Val → Res ℚ
  | .real q => .ok q
  | .int i => .ok i
  | .log b => .ok (if b then 1 else 0)
  | .str s => match f.parse s with
    | some q => .ok q
    | none => .throw

/-- `read_double_key` (fits_io.ipp 198-208). -/
def readDbl (f : Cfitsio) (h : List Card) (k : String) : Res (Option ℚ) :=
  match lookup h k with
  | none => .ok none
  | some v => number f v >>= fun q => .ok (some (f.rd q))

/-- `read_float_key` (fits_io.ipp 210-220). -/
def readFlt (f : Cfitsio) (h : List Card) (k : String) : Res ℚ :=
  match lookup h k with
  | none => .ok 0
  | some v => number f v >>= fun q => .ok (f.rf q)

/-- The list of names that are not custom keywords (fits_io.ipp 284-289). -/
def known : List String :=
  ["SIMPLE", "BITPIX", "NAXIS", "NAXIS1", "NAXIS2", "NAXIS3", "EXTEND", "BZERO", "BSCALE", "END", "OBJECT", "TELESCOP",
   "INSTRUME", "OBSERVER", "DATE-OBS", "ORIGIN", "EXPTIME", "FILTER", "BUNIT", "DATAMIN", "DATAMAX", "SATURATE", "CRPIX1",
   "CRPIX2", "CRVAL1", "CRVAL2", "CDELT1", "CDELT2", "CTYPE1", "CTYPE2", "EQUINOX", "RADESYS"]

/-- `static_cast<int>(long)` -/
def toInt (i : ℤ) : ℤ := (i + 2147483648) % 4294967296 - 2147483648

/-- The value of a custom keyword: the type is that of this card, the value that of the first card of the same name
(fits_io.ipp 338-391); the value of two cards of one name and different types is not modelled (the empty string of a
fresh `FitsKeyword`). -/
def customValue (f : Cfitsio) (h : List Card) (k : String) (v : Val) : In :=
  match v, lookup h k with
  | .int _, some (.int i) => .int (toInt i)
  | .real _, some (.real q) => .dbl (f.rd q)
  | .log _, some (.log b) => .log b
  | .str _, _ => .str (readStr f h k)
  | _, _ => .str []

/-- The custom keyword of a card, if it is one (fits_io.ipp 300-393). -/
def customOf (f : Cfitsio) (h : List Card) : Card → Option Keyword
  | .text _ _ => none
  | .kv k v c => if k = "" ∨ k ∈ known then none else some ⟨k, customValue f h k v, c⟩

/-- The text of a commentary card (fits_io.ipp 321-332): a blank one has no characters past its name. -/
def textOf (k : String) : Card → Option Str
  | .kv _ _ _ => none
  | .text k' t => if k' = k ∧ t ≠ [] then some t else none

/-- `read_fits_metadata` (fits_io.ipp 235-396). -/
def readHeader (f : Cfitsio) (h : List Card) : Res Info := do
  let exptime ← readFlt f h "EXPTIME"
  let datamin ← readDbl f h "DATAMIN"
  let datamax ← readDbl f h "DATAMAX"
  let saturate ← readDbl f h "SATURATE"
  let crpix1 ← readDbl f h "CRPIX1"
  let crpix2 ← readDbl f h "CRPIX2"
  let crval1 ← readDbl f h "CRVAL1"
  let crval2 ← readDbl f h "CRVAL2"
  let cdelt1 ← readDbl f h "CDELT1"
  let cdelt2 ← readDbl f h "CDELT2"
  let eq ← readDbl f h "EQUINOX"
  let rs := readStr f h "RADESYS"
  pure {
    object := readStr f h "OBJECT"
    telescop := readStr f h "TELESCOP"
    instrume := readStr f h "INSTRUME"
    observer := readStr f h "OBSERVER"
    dateObs := readStr f h "DATE-OBS"
    origin := readStr f h "ORIGIN"
    exptime := exptime
    filter := readStr f h "FILTER"
    bunit := readStr f h "BUNIT"
    datamin := datamin
    datamax := datamax
    saturate := saturate
    crpix1 := crpix1
    crpix2 := crpix2
    crval1 := crval1
    crval2 := crval2
    cdelt1 := cdelt1
    cdelt2 := cdelt2
    ctype1 := readStr f h "CTYPE1"
    ctype2 := readStr f h "CTYPE2"
    equinox := eq.getD 2000
    radesys := if rs.isEmpty then "ICRS".toList else rs
    comments := h.filterMap (textOf "COMMENT")
    history := h.filterMap (textOf "HISTORY")
    custom := h.filterMap (customOf f h) }

end Huira.ImageIO.FitsHeader
