import Verif.Photometry.StarProps
/-!
# Model of the stars of a scene

Models `Scene::set_stars`, `load_stars`, `load_dynamic_stars`, `update_star_epoch` (`include/huira_impl/scene/scene.ipp`
994-1096), the members they use (`include/huira/scene/scene.hpp` 273-276), and the constructors and `update_direction` of
`Star` (`include/huira_impl/stars/star.ipp` 11-73), over real numbers.

Environment: reading a catalogue (`StarCatalog::read_star_data`, modelled in `Verif.Stars.Catalog`) answers the stars or
throws; converting a time to Julian years of TT since J2000 answers a number or throws (it needs leap seconds). Times are
compared by their `et`, never NaN. `tbb::parallel_for` runs its body once for every index, in any order; bodies of different
indices write different elements.
-/
namespace Huira.StarSess

open Phot

/-- The fields of `StarData` the scene uses. -/
structure Datum where
  ra : ℝ
  dec : ℝ
  pmRA : ℝ
  pmDEC : ℝ
  solidAngle : ℝ
  temperature : ℝ

/-- A `Star`. -/
structure Star (n : ℕ) where
  direction : V3
  irradiance : Fin n → ℝ

/-- A default-constructed `Star` (star.hpp 22-25). -/
def Star.blank (n : ℕ) : Star n := ⟨⟨0, 0, 0⟩, fun _ => 0⟩

/-- The surroundings: files, time scales, spectral bins. -/
structure Env (n : ℕ) where
  read : String → ℝ → Option (List Datum)
  years : ℝ → Option ℝ
  bins : Fin n → ℝ × ℝ

variable {n : ℕ}

/-- `Star(star_data, years)` (star.ipp 52-58). -/
noncomputable def Star.make (env : Env n) (d : Datum) (years : ℝ) : Star n :=
  ⟨starDirection d.ra d.dec d.pmRA d.pmDEC years, starIrradiance env.bins d.temperature d.solidAngle⟩

/-- `Star::update_direction(star_data, years)` (star.ipp 68-73). -/
noncomputable def Star.update (s : Star n) (d : Datum) (years : ℝ) : Star n :=
  { s with direction := starDirection d.ra d.dec d.pmRA d.pmDEC years }

/-- The members of the scene. -/
structure St (n : ℕ) where
  isDynamic : Bool := false
  stars : List (Star n) := []
  data : List Datum := []
  epoch : ℝ := 0

/-- An order in which `parallel_for` happens to run the indices `0 … n-1`. -/
structure Order where
  order : ℕ → List ℕ
  perm : ∀ n, (order n).Perm (List.range n)

/-- The loop of `load_stars` and `load_dynamic_stars` (scene.ipp 1020-1027, 1055-1062); `none`: an element outside of a
vector is touched. -/
noncomputable def fill (env : Env n) (o : Order) (data : List Datum) (years : ℝ) : Option (List (Star n)) :=
  (o.order data.length).foldlM (fun stars i => do
    let d ← data[i]?
    let _ ← stars[i]?
    return stars.set i (Star.make env d years)) (List.replicate data.length (Star.blank n))

/-- The loop of `update_star_epoch` (scene.ipp 1090-1095); `none`: an element outside of a vector is touched. -/
noncomputable def move (o : Order) (stars : List (Star n)) (data : List Datum) (years : ℝ) : Option (List (Star n)) :=
  (o.order stars.length).foldlM (fun stars i => do
    let d ← data[i]?
    let s ← stars[i]?
    return stars.set i (s.update d years)) stars

/-- What a program can call. Each loading and updating call comes with the order its loop happens to take. -/
inductive Op (n : ℕ)
  | set (stars : List (Star n))
  | load (o : Order) (path : String) (et minMag : ℝ)
  | loadDynamic (o : Order) (path : String) (et minMag : ℝ)
  | update (o : Order) (et : ℝ)

/-- How a call ends. -/
inductive Out
  | done
  | warned
  | throws
deriving DecidableEq

/-- One call; `none` is access outside of a vector. -/
noncomputable def step (env : Env n) (s : St n) : Op n → Option (St n × Out)
  | .set stars => some ({ s with stars := stars, isDynamic := false }, .done)
  | .load o path et minMag =>
    match env.read path minMag with
    | none => some (s, .throws)
    | some data =>
      match env.years et with
      | none => some (s, .throws)
      | some y => (fill env o data y).map fun stars => ({ s with stars := stars, isDynamic := false }, .done)
  | .loadDynamic o path et minMag =>
    match env.read path minMag with
    | none => some (s, .throws)
    | some data =>
      match env.years et with
      | none => some (s, .throws)
      | some y => (fill env o data y).map fun stars =>
          ({ isDynamic := true, stars := stars, data := data, epoch := et }, .done)
  | .update o et =>
    if s.isDynamic = false then some (s, .warned)
    else if et = s.epoch then some (s, .done)
    else
      match env.years et with
      | none => some (s, .throws)
      | some y => (move o s.stars s.data y).map fun stars => ({ s with stars := stars, epoch := et }, .done)

/-- A program. -/
noncomputable def run (env : Env n) (s : St n) : List (Op n) → Option (St n)
  | [] => some s
  | op :: ops => (step env s op).bind fun r => run env r.1 ops

end Huira.StarSess
