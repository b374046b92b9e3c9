/-!
# Tycho-2 identifiers and the Tycho-2 text loader (model)

Models `include/huira/stars/io/tycho2_id.hpp` 7-19 and `include/huira_impl/stars/io/load_tycho2.ipp` 14-206
(`count_lines_`, `is_valid_line_`, `read_tycho2_dat`, `read_tycho2_suppl`), with the calls to
`StarData::process_magnitude` / `StarData::normalize_epoch` (`stars/io/star_data.ipp` 10-70) as parameters.

Simplifications
* Text is a list of characters; the column parser `read_entry_`, `has_mean_position_` and `is_valid_line_`
  are one parameter `parse : List Char → Row` (a pure function of the line, as in the code); `none` is NaN.
* The conversion of a NaN identifier column to `int` is undefined behaviour (`ub`), as is an index past the
  end of the star array.
* Numeric values live in an arbitrary type `F`; the photometric triple in an arbitrary type `P`.
-/
namespace Huira.Tycho

/-- `pack_tycho2_id` (tycho2_id.hpp 7-11) on a `uint64_t` (the operands are zero-extended). -/
def pack (tyc1 tyc2 tyc3 : Nat) : Nat := (tyc1 <<< 20) ||| (tyc2 <<< 4) ||| tyc3

/-- `unpack_tycho2_id` (tycho2_id.hpp 13-19); the narrowing casts do nothing after the masks. -/
def unpack (id : Nat) : Nat × Nat × Nat := ((id >>> 20) &&& 0x3FFF, (id >>> 4) &&& 0xFFFF, id &&& 0xF)

/-- The columns of one line, as read by `read_entry_` (load_tycho2.ipp 33-51; `none` = NaN). -/
structure Row (F : Type) where
  isData : Bool
  tyc1 : Option Nat
  tyc2 : Option Nat
  tyc3 : Option Nat
  hasMean : Bool
  meanRA : Option F
  meanDEC : Option F
  obsRA : Option F
  obsDEC : Option F
  epRA : Option F
  epDE : Option F
  pmRA : Option F
  pmDEC : Option F
  bt : Option F
  vt : Option F

/-- `StarData` (star_data.hpp 12-28); `phot` is (solid_angle, temperature, visual_magnitude). -/
structure Star (F P : Type) where
  id : Nat
  RA : F
  DEC : F
  pmRA : F
  pmDEC : F
  phot : P
deriving DecidableEq

/-- The arithmetic used by the loader. -/
structure Ops (F P : Type) where
  zero : F
  rad : F → F
  j2000 : F
  epoch : F → F
  /-- `normalize_epoch`: new (RA, DEC) from epochs, proper motions and old (RA, DEC) (star_data.ipp 50-70). -/
  normalize : F → F → F → F → F → F → F × F
  /-- `process_magnitude`: overwrites all photometric members (star_data.ipp 10-48). -/
  photometry : Option F → Option F → P
  nanPhot : P
  /-- the indeterminate value of an uninitialised RA/DEC -/
  junk : F

variable {F P : Type}

/-- A default-constructed `StarData` (star_data.hpp 13-27). -/
def fresh (o : Ops F P) : Star F P := ⟨0, o.junk, o.junk, o.zero, o.zero, o.nanPhot⟩

inductive RowOut (F P : Type) where
  | ub
  /-- `continue`: the slot keeps what was already written -/
  | skip (s : Star F P)
  | keep (s : Star F P)

/-- The body of the loop for a data line, working on `star_data[i]` (load_tycho2.ipp 71-135; 155-199 for the
supplement, which is the case `hasMean = false` with both epoch columns equal to 1.25). -/
def rowBody (o : Ops F P) (r : Row F) (s : Star F P) : RowOut F P :=
  match r.tyc1, r.tyc2, r.tyc3 with
  | some t1, some t2, some t3 =>
    let s := { s with id := pack t1 t2 t3 }
    let pos : Option (F × F × F × F) × Star F P :=
      if r.hasMean then
        match r.meanRA, r.meanDEC with
        | some a, some d => (some (o.rad a, o.rad d, o.j2000, o.j2000), { s with RA := o.rad a, DEC := o.rad d })
        | _, _ => (none, s)
      else
        match r.obsRA, r.obsDEC with
        | some a, some d =>
          let s := { s with RA := o.rad a, DEC := o.rad d }
          match r.epRA, r.epDE with
          | some ea, some ed => (some (o.rad a, o.rad d, o.epoch ea, o.epoch ed), s)
          | _, _ => (none, s)
        | _, _ => (none, s)
    match pos with
    | (none, s) => .skip s
    | (some (_, _, eRA, eDEC), s) =>
      let s := { s with pmRA := r.pmRA.getD s.pmRA }
      let s := { s with pmDEC := r.pmDEC.getD s.pmDEC }
      let p := o.normalize eRA eDEC s.pmRA s.pmDEC s.RA s.DEC
      let s := { s with RA := p.1, DEC := p.2 }
      match r.bt, r.vt with
      | none, none => .skip s
      | _, _ => .keep { s with phot := o.photometry r.bt r.vt }
  | _, _, _ => .ub

/-- `count_lines_` (load_tycho2.ipp 14-23). -/
def countNewlines (text : List Char) : Nat := text.count '\n'

/-- Successive `std::getline` results; a final fragment without newline is returned iff it is non-empty. -/
def getLines : List Char → List Char → List (List Char)
  | [], [] => []
  | c :: cur, [] => [(c :: cur).reverse]
  | cur, c :: cs => if c = '\n' then cur.reverse :: getLines [] cs else getLines (c :: cur) cs

inductive LoadOut (F P : Type) where
  | ub
  | stars (l : List (Star F P))
deriving DecidableEq

/-- The `while (std::getline(...))` loop over the star array (load_tycho2.ipp 69-138). -/
def loop (o : Ops F P) : List (Row F) → List (Star F P) → Nat → LoadOut F P
  | [], slots, i => .stars (slots.take i)
  | r :: rs, slots, i =>
    if r.isData then
      match slots[i]? with
      | none => .ub
      | some s =>
        match rowBody o r s with
        | .ub => .ub
        | .skip s' => loop o rs (slots.set i s') i
        | .keep s' => loop o rs (slots.set i s') (i + 1)
    else loop o rs slots i

/-- `read_tycho2_dat` (load_tycho2.ipp 59-142). -/
def load (o : Ops F P) (parse : List Char → Row F) (text : List Char) : LoadOut F P :=
  loop o ((getLines [] text).map parse) (List.replicate (countNewlines text) (fresh o)) 0

end Huira.Tycho
