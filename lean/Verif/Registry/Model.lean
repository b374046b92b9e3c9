/-!
# Name registry and handles

Models `include/huira_impl/scene/name_registry.ipp` (1-104), `include/huira_impl/handles/handle.ipp` (1-61),
`include/huira/scene/scene_object.hpp` (26-94) and the thin wrappers of
`include/huira_impl/scene/scene.ipp` (106-218, 277-339, ...: `add_*`, `set_name`, `get_*`, `delete_*`).

Simplifications: `std::string` is a list of characters; object identity (pointer) is a natural number, fresh
for every `make_shared`; the `int` counter of `make_unique_name_` is unbounded; the `unordered_map` is an
association list whose order is never observed; logging is dropped.
-/
namespace Huira.Registry

/-- `std::string`. -/
abbrev Name := List Char

/-- Pointer identity of a scene object. -/
abbrev Obj := Nat

/-- One decimal digit. -/
def digitChar (d : Nat) : Char := Char.ofNat (48 + d)

/-- Decimal digits of `n`, at most `fuel` of them. -/
def decimalAux : Nat → Nat → Name
  | 0, _ => []
  | fuel + 1, n => if n < 10 then [digitChar n] else decimalAux fuel (n / 10) ++ [digitChar (n % 10)]

/-- `std::to_string` on a non-negative integer (decimal, no leading zeros). -/
def decimal (n : Nat) : Name := decimalAux (n + 1) n

/-- State of one `NameRegistry<T>` together with the `name_` and `scene_owned_` fields of the objects
(`name_registry.hpp`; `scene_object.hpp` 86-88). -/
structure Reg where
  /-- `objects_` -/
  objects : List Obj
  /-- `name_registry_` -/
  map : List (Name × Obj)
  /-- `SceneObject::name_` -/
  nameOf : Obj → Name
  /-- `SceneObject::scene_owned_` -/
  owned : Obj → Bool

/-- `name_registry_.find(name)` -/
def find (m : List (Name × Obj)) (n : Name) : Option Obj :=
  match m with
  | [] => none
  | (k, v) :: m => if k = n then some v else find m n

/-- `name_registry_.contains(name)` -/
def contains (m : List (Name × Obj)) (n : Name) : Bool := (find m n).isSome

/-- `name_registry_.erase(name)` -/
def erase (m : List (Name × Obj)) (n : Name) : List (Name × Obj) :=
  m.filter (fun e => e.1 ≠ n)

/-- `name_registry_[name] = object` -/
def assign (m : List (Name × Obj)) (n : Name) (o : Obj) : List (Name × Obj) :=
  (n, o) :: erase m n

/-- `base_name + "_" + std::to_string(counter)` (name_registry.ipp 99) -/
def suffixed (base : Name) (k : Nat) : Name := base ++ ['_'] ++ decimal k

/-- The `do … while` of `make_unique_name_` (name_registry.ipp 98-100) started at `counter = k`.
`none` = the loop is still running after `fuel` iterations. -/
def searchName (m : List (Name × Obj)) (base : Name) : Nat → Nat → Option Name
  | 0, _ => none
  | fuel + 1, k =>
    if contains m (suffixed base k) then searchName m base fuel (k + 1) else some (suffixed base k)

/-- `make_unique_name_` (name_registry.ipp 93-103), given an iteration bound. -/
def makeUniqueFuel (fuel : Nat) (m : List (Name × Obj)) (n : Name) : Option Name :=
  if contains m n then searchName m n fuel 1 else some n

/-- `make_unique_name_`. The bound `m.length + 1` is proved sufficient in `Lemmas`
(`makeUnique_terminates`), so `none` (an endless loop) never occurs. -/
def makeUnique (m : List (Name × Obj)) (n : Name) : Option Name :=
  makeUniqueFuel (m.length + 1) m n

/-- Function update for object fields. -/
def upd {α : Type} (f : Obj → α) (o : Obj) (a : α) : Obj → α := fun x => if x = o then a else f x

/-- `NameRegistry::add` (name_registry.ipp 17-30); `ty o` is `object->type()`, the object's id is its identity.
`none` would be non-termination. -/
def add (ty : Obj → Name) (r : Reg) (o : Obj) (name : Name) : Option Reg :=
  let name := if name = [] then ty o ++ ['.'] ++ decimal o else name
  match makeUnique r.map name with
  | none => none
  | some n => some { r with objects := r.objects ++ [o], map := assign r.map n o, nameOf := upd r.nameOf o n }

/-- `NameRegistry::remove` (name_registry.ipp 37-50); `none` = throws (state untouched, line 41). -/
def remove (r : Reg) (o : Obj) : Option Reg :=
  if o ∈ r.objects then
    some { r with owned := upd r.owned o false, objects := r.objects.erase o, map := erase r.map (r.nameOf o) }
  else none

/-- `NameRegistry::set_name` (name_registry.ipp 58-70). -/
def setName (r : Reg) (o : Obj) (name : Name) : Option Reg :=
  match makeUnique r.map name with
  | none => none
  | some n =>
    if n = r.nameOf o then some r
    else some { r with map := assign (erase r.map (r.nameOf o)) n o, nameOf := upd r.nameOf o n }

/-- The registry as seen through the scene API: `next` is the next address handed out by `make_shared`. -/
structure World where
  reg : Reg
  next : Obj

/-- API calls that touch one registry (scene.ipp): create an object and add it, rename / delete it through a
handle, look a name up, query a handle's validity and name. -/
inductive Op where
  | create (name : Name)
  | rename (h : Obj) (name : Name)
  | delete (h : Obj)
  | lookup (name : Name)
  | query (h : Obj)
deriving DecidableEq

/-- Observable results. `hang` would be a non-terminating call. -/
inductive Out where
  | handle (o : Obj)
  | named (name : Name)
  | done
  | throw
  | hang
deriving DecidableEq

/-- `Handle::valid` (handle.ipp 9-19): the weak pointer locks and the object is scene owned.  The registry
owns the only long-lived `shared_ptr`, so an expired pointer implies `owned = false` or never created; both
make `get_` throw. -/
def valid (w : World) (h : Obj) : Bool := decide (h < w.next) && w.reg.owned h

/-- One API call. Handles are dereferenced with `get()` first (scene.ipp 177, 198, 333), which throws for an
invalid handle (handle.ipp 51-61). -/
def step (ty : Obj → Name) (w : World) : Op → World × Out
  | .create name =>
    match add ty { w.reg with owned := upd w.reg.owned w.next true } w.next name with
    | none => (w, .hang)
    | some r => ({ reg := r, next := w.next + 1 }, .handle w.next)
  | .rename h name =>
    if valid w h then
      match setName w.reg h name with
      | none => (w, .hang)
      | some r => ({ w with reg := r }, .done)
    else (w, .throw)
  | .delete h =>
    if valid w h then
      match remove w.reg h with
      | none => (w, .throw)
      | some r => ({ w with reg := r }, .done)
    else (w, .throw)
  | .lookup name =>
    match find w.reg.map name with
    | none => (w, .throw)
    | some o => (w, .handle o)
  | .query h => if valid w h then (w, .named (w.reg.nameOf h)) else (w, .throw)

/-- Fresh scene (scene.ipp constructor): empty registries. -/
def init : World :=
  { reg := { objects := [], map := [], nameOf := fun _ => [], owned := fun _ => false }, next := 0 }

/-- Run a history, recording every call with its observable result (oldest first). -/
def run (ty : Obj → Name) : World → List Op → World × List (Op × Out)
  | w, [] => (w, [])
  | w, op :: ops =>
    let (w', o) := step ty w op
    let (w'', tr) := run ty w' ops
    (w'', (op, o) :: tr)

end Huira.Registry
