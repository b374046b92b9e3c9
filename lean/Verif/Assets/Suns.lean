import Mathlib.Tactic.Ring
import Mathlib.Tactic.IntervalCases
import Mathlib.Data.Rat.Init
import Mathlib.Data.List.Basic

/-!
# Objects lit by a given sun (C152)

Models how unresolved spheres and asteroids keep the light they were given (`unresolved_sphere.ipp` 42-122,
`unresolved_asteroid.ipp` 63-135: an instance is asked for its light once, and only the light's address is kept), how a
render finds it again (`unresolved_sphere.ipp` 137-180, `unresolved_asteroid.ipp` 150-202: the first light instance of
the view at that address; `scene_view.ipp` 130-142, 395-470), and how lights and objects come and go (`scene.ipp`
348-453, 550-688, `name_registry.ipp` 15-51, `handle.ipp` 9-63). Any number of scenes; the allocator may hand out the
address of a destroyed light again. Nodes are permanent: deleting an instance always throws (C07), so a deletion of an
instanced asset throws at its first instance. Positions and the photometry are C96, the order of a view is arbitrary.
Python users hold handles only; C++ users who keep a `shared_ptr` of their own are not modelled.
-/
set_option linter.unusedSimpArgs false
namespace Huira.Suns

/-- A floating-point argument, as far as the constructors look at it. -/
inductive Num where
  | nan
  | inf
  | negInf
  | fin (q : ℚ)

/-- The numbers given: a sphere's radius, or an asteroid's `H` and `G`; and whether the albedo is a valid ratio. -/
inductive Args where
  | sphere (radius : Num) (albedo : Bool)
  | asteroid (H G : Num) (albedo : Bool)

/-- `std::isnan(x) || std::isinf(x)` negated. -/
def Num.finite : Num → Bool
  | .fin _ => true
  | _ => false

/-- The checks of the constructors (`unresolved_sphere.ipp` 58-67, 98-107; `unresolved_asteroid.ipp` 80-90, 124-134). -/
def Args.ok : Args → Bool
  | .sphere (.fin q) a => decide (0 < q) && a
  | .sphere _ _ => false
  | .asteroid H G a => H.finite && G.finite && a

/-- A light: where it was allocated, the scene whose `lights_` holds it, and `scene_owned_`; a light that is not owned
has been destroyed, nothing but its scene holding it (`name_registry.ipp` 37-51). -/
structure Light where
  addr : Nat
  scene : Nat
  owned : Bool := true

/-- An unresolved sphere or asteroid: the address kept in `light_`, the instance it was built from. -/
structure Obj where
  scene : Nat
  addr : Nat
  sun : Nat
  owned : Bool := true

/-- What an instance node shows (`Instantiable`, instance.hpp). The number of the light is what the user gave; the
program stores its address. -/
inductive Asset where
  | light (l : Nat)
  | object (o : Nat)
deriving DecidableEq

/-- Everything that lives in a process; numbers are positions in the lists and stand for the user's handles. -/
structure W where
  lights : List Light := []
  objs : List Obj := []
  insts : List (Nat × Asset) := []

inductive Call where
  | newLight (s a : Nat)
  | instLight (s l : Nat)
  | newObj (s n : Nat) (args : Args)
  | instObj (s o : Nat)
  | deleteLight (s l : Nat)
  | deleteObj (s o : Nat)

inductive Out where
  | created (n : Nat)
  | done
  | throw
  | impossible
deriving DecidableEq

/-- An address the allocator cannot hand out: a living light is there. -/
def W.taken (w : W) (a : Nat) : Bool := w.lights.any (fun l => l.owned && l.addr == a)

/-- One call of the user. `impossible` marks what cannot happen: an address in use, or a handle nobody has been given. -/
def step (w : W) : Call → W × Out
  -- new_sphere_light: make_shared, then lights_.add (scene.ipp 348-420)
  | .newLight s a =>
    if w.taken a then (w, .impossible)
    else ({ w with lights := w.lights ++ [{ addr := a, scene := s }] }, .created w.lights.length)
  -- frame.new_instance(light): the handle is checked, the raw pointer stored (frame_handle.ipp 44-56, frame_node.ipp 80-90)
  | .instLight s l =>
    match w.lights[l]? with
    | none => (w, .impossible)
    | some x => if x.owned then ({ w with insts := w.insts ++ [(s, .light l)] }, .created w.insts.length) else (w, .throw)
  -- new_unresolved_sphere / new_unresolved_asteroid (scene.ipp 550-652)
  | .newObj s n args =>
    match w.insts[n]? with
    | none => (w, .impossible)
    | some (_, .object _) => (w, .throw)
    | some (_, .light l) =>
      match w.lights[l]? with
      | none => (w, .impossible)
      | some x =>
        if args.ok then ({ w with objs := w.objs ++ [{ scene := s, addr := x.addr, sun := n }] }, .created w.objs.length)
        else (w, .throw)
  | .instObj s o =>
    match w.objs[o]? with
    | none => (w, .impossible)
    | some x => if x.owned then ({ w with insts := w.insts ++ [(s, .object o)] }, .created w.insts.length) else (w, .throw)
  -- delete_light: handle, prune_graph_references_ of this scene's graph, lights_.remove (scene.ipp 448-454, 1114-1151)
  | .deleteLight s l =>
    match w.lights[l]? with
    | none => (w, .impossible)
    | some x =>
      if !x.owned then (w, .throw)
      else if w.insts.any (fun i => i.1 == s && i.2 == .light l) then (w, .throw)
      else if x.scene ≠ s then (w, .throw)
      else ({ w with lights := w.lights.set l { x with owned := false } }, .done)
  -- delete_unresolved_object (scene.ipp 682-689)
  | .deleteObj s o =>
    match w.objs[o]? with
    | none => (w, .impossible)
    | some x =>
      if !x.owned then (w, .throw)
      else if w.insts.any (fun i => i.1 == s && i.2 == .object o) then (w, .throw)
      else if x.scene ≠ s then (w, .throw)
      else ({ w with objs := w.objs.set o { x with owned := false } }, .done)

def run : W → List Call → W
  | w, [] => w
  | w, c :: cs => run (step w c).1 cs

/-- `resolve_irradiance` of object `o` in a view whose light instances are `view`, in that order: the first instance
whose light lies at the kept address (`unresolved_sphere.ipp` 140-142, `unresolved_asteroid.ipp` 154-156); `none` is the
throw "Could not find its light source in SceneView". -/
def resolve (w : W) (view : List Nat) (o : Nat) : Option Nat :=
  view.find? fun n =>
    match w.insts[n]?, w.objs[o]? with
    | some (_, .light l), some x => (w.lights[l]?.map Light.addr) == some x.addr
    | _, _ => false

/-! ## Specification -/

/-- `view` lists the light instances of scene `s`, in any order. -/
def IsView (w : W) (s : Nat) (view : List Nat) : Prop :=
  ∀ n, n ∈ view ↔ ∃ l, w.insts[n]? = some (s, .light l)

/-- The light the user gave to object `o`. -/
def Given (w : W) (o l : Nat) : Prop :=
  ∃ x t, w.objs[o]? = some x ∧ w.insts[x.sun]? = some (t, .light l)

/-- Rendering scene `s`, each object shown there is lit by an instance, in that scene, of the light it was given, and
that light and the object still exist. -/
def Lit (w : W) (s : Nat) : Prop :=
  ∀ view, IsView w s view → ∀ o, (s, Asset.object o) ∈ w.insts → ∀ l, Given w o l →
    (∃ n, resolve w view o = some n ∧ w.insts[n]? = some (s, .light l)) ∧
    (∃ x, w.lights[l]? = some x ∧ x.owned = true) ∧ ∃ x, w.objs[o]? = some x ∧ x.owned = true

def C152_full : Prop := ∀ calls s, Lit (run {} calls) s

/-- A call uses things of its own scene only. -/
def Own (w : W) : Call → Prop
  | .newLight _ _ => True
  | .instLight s l => ∀ x, w.lights[l]? = some x → x.scene = s
  | .newObj s n _ => ∀ t a, w.insts[n]? = some (t, a) → t = s
  | .instObj s o => ∀ x, w.objs[o]? = some x → x.scene = s
  | .deleteLight _ _ => True
  | .deleteObj _ _ => True

def OwnRun : W → List Call → Prop
  | _, [] => True
  | w, c :: cs => Own w c ∧ OwnRun (step w c).1 cs

/-! ## Proofs -/

structure Inv (w : W) : Prop where
  /-- an instance of a light is in the light's scene and the light lives -/
  light : ∀ (n s l : Nat), w.insts[n]? = some (s, .light l) → ∃ x, w.lights[l]? = some x ∧ x.owned = true ∧ x.scene = s
  object : ∀ (n s o : Nat), w.insts[n]? = some (s, .object o) → ∃ x, w.objs[o]? = some x ∧ x.owned = true ∧ x.scene = s
  sun : ∀ (o : Nat) (x : Obj), w.objs[o]? = some x → ∃ l y, w.insts[x.sun]? = some (x.scene, .light l) ∧ w.lights[l]? = some y ∧ y.addr = x.addr
  distinct : ∀ (i j : Nat) (x y : Light), w.lights[i]? = some x → w.lights[j]? = some y → x.owned = true → y.owned = true →
    x.addr = y.addr → i = j

theorem inv_init : Inv {} := by
  constructor <;> intros <;> simp_all

theorem not_taken (w : W) (a : Nat) (h : w.taken a = false) (i : Nat) (x : Light) (hx : w.lights[i]? = some x)
    (ho : x.owned = true) : x.addr ≠ a := by
  intro hc
  have : w.taken a = true := by
    unfold W.taken
    rw [List.any_eq_true]
    exact ⟨x, List.mem_of_getElem? hx, by simp [ho, hc]⟩
  simp [this] at h

theorem getElem?_snoc {α : Type} (l : List α) (a b : α) (n : Nat) (h : (l ++ [a])[n]? = some b) :
    l[n]? = some b ∨ (n = l.length ∧ b = a) := by
  rw [List.getElem?_append] at h
  split at h
  · exact Or.inl h
  · rename_i hn
    right
    rcases Nat.lt_or_ge (n - l.length) 1 with h1 | h1
    · have : n = l.length := by omega
      subst this
      simp at h
      exact ⟨rfl, h.symm⟩
    · rw [List.getElem?_eq_none (by simpa using h1)] at h
      cases h

theorem getElem?_old {α : Type} (l : List α) (a b : α) (n : Nat) (h : l[n]? = some b) : (l ++ [a])[n]? = some b := by
  rw [List.getElem?_append_left]
  · exact h
  · exact (List.getElem?_eq_some_iff.1 h).1

theorem inv_step (w : W) (c : Call) (hi : Inv w) (hc : Own w c) : Inv (step w c).1 := by
  obtain ⟨hl, ho, hs, hd⟩ := hi
  cases c with
  | newLight s a =>
    simp only [step]
    split
    · exact ⟨hl, ho, hs, hd⟩
    · rename_i ht
      have ht' : w.taken a = false := by simpa using ht
      refine ⟨?_, ho, ?_, ?_⟩
      · intro n s' l h
        obtain ⟨x, h1, h2⟩ := hl n s' l h
        exact ⟨x, getElem?_old _ _ _ _ h1, h2⟩
      · intro o x h
        obtain ⟨l, y, h1, h2, h3⟩ := hs o x h
        exact ⟨l, y, h1, getElem?_old _ _ _ _ h2, h3⟩
      · intro i j x y hx hy ox oy he
        rcases getElem?_snoc _ _ _ _ hx with hx' | ⟨rfl, rfl⟩
        · rcases getElem?_snoc _ _ _ _ hy with hy' | ⟨rfl, rfl⟩
          · exact hd i j x y hx' hy' ox oy he
          · exact absurd he (not_taken w a ht' i x hx' ox)
        · rcases getElem?_snoc _ _ _ _ hy with hy' | ⟨rfl, rfl⟩
          · exact absurd he.symm (not_taken w a ht' j y hy' oy)
          · rfl
  | instLight s l =>
    simp only [step]
    split
    · exact ⟨hl, ho, hs, hd⟩
    · rename_i x hx
      split
      · rename_i hox
        refine ⟨?_, ?_, ?_, hd⟩
        · intro n s' l' h
          rcases getElem?_snoc _ _ _ _ h with h' | ⟨_, he⟩
          · exact hl n s' l' h'
          · cases he
            exact ⟨x, hx, hox, hc x hx⟩
        · intro n s' o h
          rcases getElem?_snoc _ _ _ _ h with h' | ⟨_, he⟩
          · exact ho n s' o h'
          · cases he
        · intro o x' h
          obtain ⟨l', y, h1, h2⟩ := hs o x' h
          exact ⟨l', y, getElem?_old _ _ _ _ h1, h2⟩
      · exact ⟨hl, ho, hs, hd⟩
  | newObj s n args =>
    simp only [step]
    split
    · exact ⟨hl, ho, hs, hd⟩
    · exact ⟨hl, ho, hs, hd⟩
    · rename_i t l hn
      split
      · exact ⟨hl, ho, hs, hd⟩
      · rename_i x hx
        split
        · refine ⟨hl, ?_, ?_, hd⟩
          · intro m s' o h
            obtain ⟨y, h1, h2⟩ := ho m s' o h
            exact ⟨y, getElem?_old _ _ _ _ h1, h2⟩
          · intro o y h
            rcases getElem?_snoc _ _ _ _ h with h' | ⟨_, rfl⟩
            · exact hs o y h'
            · have := hc t _ hn
              subst this
              exact ⟨l, x, hn, hx, rfl⟩
        · exact ⟨hl, ho, hs, hd⟩
  | instObj s o =>
    simp only [step]
    split
    · exact ⟨hl, ho, hs, hd⟩
    · rename_i x hx
      split
      · rename_i hox
        refine ⟨?_, ?_, ?_, hd⟩
        · intro n s' l h
          rcases getElem?_snoc _ _ _ _ h with h' | ⟨_, he⟩
          · exact hl n s' l h'
          · cases he
        · intro n s' o' h
          rcases getElem?_snoc _ _ _ _ h with h' | ⟨_, he⟩
          · exact ho n s' o' h'
          · cases he
            exact ⟨x, hx, hox, hc x hx⟩
        · intro o' x' h
          obtain ⟨l', y, h1, h2⟩ := hs o' x' h
          exact ⟨l', y, getElem?_old _ _ _ _ h1, h2⟩
      · exact ⟨hl, ho, hs, hd⟩
  | deleteLight s l =>
    simp only [step]
    split
    · exact ⟨hl, ho, hs, hd⟩
    · rename_i x hx
      split
      · exact ⟨hl, ho, hs, hd⟩
      split
      · exact ⟨hl, ho, hs, hd⟩
      split
      · exact ⟨hl, ho, hs, hd⟩
      rename_i hox hany hsc
      have hsc' : x.scene = s := by simpa using hsc
      have hlen : l < w.lights.length := (List.getElem?_eq_some_iff.1 hx).1
      -- no instance anywhere: instances of a light are in its own scene
      have hno : ∀ (n t : Nat), w.insts[n]? ≠ some (t, Asset.light l) := by
        intro n t h
        obtain ⟨y, h1, _, h3⟩ := hl n t l h
        rw [hx] at h1
        cases h1
        apply hany
        rw [List.any_eq_true]
        exact ⟨_, List.mem_of_getElem? h, by simp [← h3, hsc']⟩
      refine ⟨?_, ho, ?_, ?_⟩
      · intro n t l' h
        by_cases hll : l' = l
        · subst hll
          exact absurd h (hno n t)
        · obtain ⟨y, h1, h2⟩ := hl n t l' h
          exact ⟨y, by rw [List.getElem?_set_ne (Ne.symm hll)]; exact h1, h2⟩
      · intro o y h
        obtain ⟨l', z, h1, h2, h3⟩ := hs o y h
        by_cases hll : l' = l
        · subst hll
          exact absurd h1 (hno _ _)
        · exact ⟨l', z, h1, by rw [List.getElem?_set_ne (Ne.symm hll)]; exact h2, h3⟩
      · intro i j y z hy hz oy oz he
        by_cases hil : i = l
        · subst hil
          rw [List.getElem?_set_self hlen] at hy
          cases hy
          simp at oy
        · by_cases hjl : j = l
          · subst hjl
            rw [List.getElem?_set_self hlen] at hz
            cases hz
            simp at oz
          · rw [List.getElem?_set_ne (Ne.symm hil)] at hy
            rw [List.getElem?_set_ne (Ne.symm hjl)] at hz
            exact hd i j y z hy hz oy oz he
  | deleteObj s o =>
    simp only [step]
    split
    · exact ⟨hl, ho, hs, hd⟩
    · rename_i x hx
      split
      · exact ⟨hl, ho, hs, hd⟩
      split
      · exact ⟨hl, ho, hs, hd⟩
      split
      · exact ⟨hl, ho, hs, hd⟩
      rename_i hox hany hsc
      have hsc' : x.scene = s := by simpa using hsc
      have hlen : o < w.objs.length := (List.getElem?_eq_some_iff.1 hx).1
      have hno : ∀ (n t : Nat), w.insts[n]? ≠ some (t, Asset.object o) := by
        intro n t h
        obtain ⟨y, h1, _, h3⟩ := ho n t o h
        rw [hx] at h1
        cases h1
        apply hany
        rw [List.any_eq_true]
        exact ⟨_, List.mem_of_getElem? h, by simp [← h3, hsc']⟩
      refine ⟨hl, ?_, ?_, hd⟩
      · intro n t o' h
        by_cases hoo : o' = o
        · subst hoo
          exact absurd h (hno n t)
        · obtain ⟨y, h1, h2⟩ := ho n t o' h
          exact ⟨y, by rw [List.getElem?_set_ne (Ne.symm hoo)]; exact h1, h2⟩
      · intro o' y h
        by_cases hoo : o' = o
        · subst hoo
          rw [List.getElem?_set_self hlen] at h
          cases h
          exact hs o' x hx
        · rw [List.getElem?_set_ne (Ne.symm hoo)] at h
          exact hs o' y h

theorem inv_run : ∀ (calls : List Call) (w : W), Inv w → OwnRun w calls → Inv (run w calls)
  | [], _, h, _ => h
  | c :: cs, w, h, hc => inv_run cs _ (inv_step w c h hc.1) hc.2

theorem inv_lit (w : W) (hi : Inv w) (s : Nat) : Lit w s := by
  intro view hv o hm l ⟨x, t, hx, hsun⟩
  obtain ⟨n, hn⟩ := List.getElem?_of_mem hm
  obtain ⟨x', hx', hxo, hxs⟩ := hi.object n s o hn
  rw [hx] at hx'
  cases hx'
  obtain ⟨l', y, h1, h2, h3⟩ := hi.sun o x hx
  rw [hsun] at h1
  cases h1
  obtain ⟨y', hy', hyo, hys⟩ := hi.light _ _ _ hsun
  rw [h2] at hy'
  cases hy'
  refine ⟨?_, ⟨y, h2, hyo⟩, x, hx, hxo⟩
  have hin : x.sun ∈ view := (hv _).2 ⟨l, by rw [hsun, hxs]⟩
  have hsome : (resolve w view o).isSome := by
    rw [resolve, List.find?_isSome]
    exact ⟨x.sun, hin, by simp [hsun, hx, h2, h3]⟩
  obtain ⟨m, hm'⟩ := Option.isSome_iff_exists.1 hsome
  refine ⟨m, hm', ?_⟩
  have hmem : m ∈ view := List.mem_of_find?_eq_some hm'
  have hpred := List.find?_some hm'
  obtain ⟨k, hk⟩ := (hv m).1 hmem
  obtain ⟨z, hz, hzo, hzs⟩ := hi.light _ _ _ hk
  simp only [hk, hx, hz, Option.map_some, beq_iff_eq, Option.some.injEq] at hpred
  have := hi.distinct k l z y hz h2 hzo hyo (by rw [hpred, h3])
  rw [this] at hk
  exact hk

/-- **C152 (partial).** As long as no call mixes two scenes, whatever is created and deleted in whatever order and
wherever the allocator puts new lights: every render lights each unresolved sphere and asteroid by an instance, in that
scene, of the very light it was given, and never fails to find it. -/
theorem C152_partial (calls : List Call) (hc : OwnRun {} calls) (s : Nat) : Lit (run {} calls) s :=
  inv_lit _ (inv_run calls {} inv_init hc) s

/-- **C152: what is accepted.** Creating an object succeeds exactly when the instance given holds a light, the radius is
a positive finite number (resp. `H` and `G` are finite) and the albedo is a valid ratio; a call that throws changes
nothing, so no half-made object stays behind. -/
theorem C152_accepted (w : W) (s n t l : Nat) (args : Args) (h : w.insts[n]? = some (t, .light l))
    (hl : (w.lights[l]?).isSome) :
    ((step w (.newObj s n args)).2 = .created w.objs.length ↔
      match args with
      | .sphere r a => (∃ q : ℚ, r = .fin q ∧ 0 < q) ∧ a = true
      | .asteroid H G a => (∃ q, H = .fin q) ∧ (∃ q, G = .fin q) ∧ a = true) ∧
    ((step w (.newObj s n args)).2 ≠ .created w.objs.length →
      step w (.newObj s n args) = (w, .throw)) := by
  obtain ⟨x, hx⟩ := Option.isSome_iff_exists.1 hl
  have hstep : step w (.newObj s n args) = if args.ok then
      ({ w with objs := w.objs ++ [{ scene := s, addr := x.addr, sun := n }] }, .created w.objs.length)
      else (w, .throw) := by
    simp only [step, h, hx]
  rw [hstep]
  constructor
  · cases args with
    | sphere r a => cases r <;> simp [Args.ok] <;> split <;> simp_all
    | asteroid H G a => cases H <;> cases G <;> simp [Args.ok, Num.finite] <;> split <;> simp_all
  · split
    · intro hne; exact absurd rfl hne
    · intro _; rfl

/-- **C152: failures.** Any call that does not succeed leaves everything as it was. -/
theorem C152_frame (w : W) (c : Call) (h : (step w c).2 = .throw) : (step w c).1 = w := by
  cases c with
  | newLight s a => simp only [step] at h ⊢; split <;> simp_all
  | instLight s l => simp only [step] at h ⊢; split at h <;> (try split at h) <;> simp_all
  | newObj s n args =>
    simp only [step] at h ⊢
    split at h <;> (try split at h) <;> (try split at h) <;> simp_all
  | instObj s o => simp only [step] at h ⊢; split at h <;> (try split at h) <;> simp_all
  | deleteLight s l =>
    simp only [step] at h ⊢
    split
    · rfl
    · rename_i x hx
      simp only [hx] at h
      split
      · rfl
      split
      · rfl
      split
      · rfl
      · simp_all
  | deleteObj s o =>
    simp only [step] at h ⊢
    split
    · rfl
    · rename_i x hx
      simp only [hx] at h
      split
      · rfl
      split
      · rfl
      split
      · rfl
      · simp_all

/-- **C152: a sun in use stays.** Without mixing scenes, a light given to an object can never be deleted again. -/
theorem C152_sun_stays_partial (calls : List Call) (hc : OwnRun {} calls) (o l s : Nat)
    (h : Given (run {} calls) o l) : step (run {} calls) (.deleteLight s l) = (run {} calls, .throw) := by
  have hi := inv_run calls {} inv_init hc
  obtain ⟨x, t, hx, hsun⟩ := h
  obtain ⟨y, hy, hyo, hys⟩ := hi.light _ _ _ hsun
  by_cases hs : y.scene = s
  · have hany : ((run {} calls).insts.any (fun i => i.1 == s && i.2 == Asset.light l)) = true := by
      rw [List.any_eq_true]
      exact ⟨_, List.mem_of_getElem? hsun, by simp [← hys, hs]⟩
    simp [step, hy, hyo, hany]
  · simp [step, hy, hyo, hs]

/-- A sun instanced in scene 0, an asteroid of scene 1 lit by it, shown in scene 1. -/
def elsewhere : List Call :=
  [.newLight 0 100, .instLight 0 0, .newObj 1 0 (.asteroid (.fin 10) (.fin 1) true), .instObj 1 0]

/-- A light of scene 1 shown in scene 0 and given to an asteroid there; scene 1 deletes it (its own graph has no instance
of it); a second light of scene 0 gets the same address and is shown in scene 0. -/
def reused : List Call :=
  [.newLight 1 100, .instLight 0 0, .newObj 0 0 (.asteroid (.fin 10) (.fin 1) true), .instObj 0 0,
   .deleteLight 1 0, .newLight 0 100, .instLight 0 1]

/-- **C152, violated.** An object shown in a scene whose graph has no instance of its sun: the render finds nothing,
throws while the view is made, and no call had complained. -/
theorem C152_violated_elsewhere :
    (∀ k, k < elsewhere.length → ∀ c, elsewhere[k]? = some c → (step (run {} (elsewhere.take k)) c).2 ≠ .throw) ∧
    IsView (run {} elsewhere) 1 [] ∧ (1, Asset.object 0) ∈ (run {} elsewhere).insts ∧ Given (run {} elsewhere) 0 0 ∧
    resolve (run {} elsewhere) [] 0 = none := by
  refine ⟨?_, ?_, ?_, ?_, ?_⟩
  · intro k hk c hc
    simp only [elsewhere, List.length_cons, List.length_nil] at hk
    interval_cases k <;> (simp [elsewhere] at hc; subst hc; decide)
  · intro n
    constructor
    · intro h; simp at h
    · rintro ⟨l, h⟩
      rcases n with _ | _ | n <;> simp [elsewhere, run, step, W.taken, Args.ok, Num.finite] at h
  · simp [elsewhere, run, step, W.taken, Args.ok, Num.finite]
  · refine ⟨{ scene := 1, addr := 100, sun := 0 }, 0, ?_, ?_⟩ <;>
      simp [elsewhere, run, step, W.taken, Args.ok, Num.finite]
  · simp [resolve]

/-- **C152, violated.** The program compares addresses only: after the deletion the light given is destroyed, the
render still finds an instance at its address, and the only light living there is one the object was never given. -/
theorem C152_violated_reused :
    IsView (run {} reused) 0 [0, 2] ∧ resolve (run {} reused) [0, 2] 0 = some 0 ∧
    Given (run {} reused) 0 0 ∧ ((run {} reused).lights[0]?.map Light.owned) = some false ∧
    ((run {} reused).objs[0]?.map Obj.addr) = some 100 ∧
    ∀ (l : Nat) (x : Light), (run {} reused).lights[l]? = some x → x.owned = true → x.addr = 100 → l = 1 := by
  refine ⟨?_, ?_, ⟨{ scene := 0, addr := 100, sun := 0 }, 0, ?_, ?_⟩, ?_, ?_, ?_⟩
  · intro n
    rcases n with _ | _ | _ | n <;> simp [reused, run, step, W.taken, Args.ok, Num.finite]
  · simp [reused, resolve, run, step, W.taken, Args.ok, Num.finite]
  · simp [reused, run, step, W.taken, Args.ok, Num.finite]
  · simp [reused, run, step, W.taken, Args.ok, Num.finite]
  · simp [reused, run, step, W.taken, Args.ok, Num.finite]
  · simp [reused, run, step, W.taken, Args.ok, Num.finite]
  · intro l x hx ho ha
    rcases l with _ | _ | l
    · simp [reused, run, step, W.taken, Args.ok, Num.finite] at hx
      subst hx
      simp at ho
    · rfl
    · simp [reused, run, step, W.taken, Args.ok, Num.finite] at hx

theorem C152_violated : ¬ C152_full := by
  intro h
  obtain ⟨_, hv, hm, hg, hr⟩ := C152_violated_elsewhere
  obtain ⟨⟨n, hn, _⟩, _⟩ := h elsewhere 1 [] hv 0 hm 0 hg
  rw [hr] at hn
  cases hn

/-- A sun, a second light, a deletion of a third one whose address is used again: the asteroid keeps its sun. -/
def orderly : List Call :=
  [.newLight 0 7, .instLight 0 0, .newObj 0 0 (.sphere (.fin 3) true), .instObj 0 0, .newLight 0 8, .deleteLight 0 1,
   .newLight 0 8, .instLight 0 2, .deleteLight 0 0]

example : OwnRun {} orderly := by
  simp [OwnRun, Own, orderly, run, step, W.taken, Args.ok, Num.finite]

example : resolve (run {} orderly) [2, 0] 0 = some 0 := by
  simp [orderly, resolve, run, step, W.taken, Args.ok, Num.finite]

example : (step (run {} orderly) (.deleteLight 0 0)).2 = .throw := by
  simp [orderly, run, step, W.taken, Args.ok, Num.finite]

example : (step (run {} orderly) (.newObj 0 0 (.sphere (.fin 0) true))).2 = .throw := by
  simp [orderly, run, step, W.taken, Args.ok, Num.finite]

end Huira.Suns
