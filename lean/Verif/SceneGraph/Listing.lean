import Verif.SceneGraph.Print
import Verif.Registry.Props
import Mathlib.Data.Set.Card

/-!
# The printed lists of assets (C163) and pruning (C164)

Models `print_meshes`, `print_lights`, `print_unresolved_objects`, `print_camera_models`, `print_models`, `print_contents`
(`include/huira_impl/scene/scene.ipp` 1154-1259) on the registries of `Registry/Model`, with `SceneObject::get_info`
(`scene_object.hpp` 76-83; no asset class overrides it, only `Instance` does), and `prune_unreferenced_assets`
(`scene.ipp` 1101-1107).

Simplification: standard error is not a terminal, so that `colorize` returns its text (`colorful_text.hpp` 57-67).
-/
set_option linter.unusedSimpArgs false
namespace Huira.Listing
open Registry (decimal decimal_inj Name Obj Reg World Op Live run init Inv inv_run inv_init live_iff)
open SceneGraph (Text objInfo split_at decimal_digits)

/-- `" loaded"` and the end of the line (`scene.ipp` 1160 and the like). -/
def loaded (n : Nat) : Text := [':', ' '] ++ decimal n ++ " loaded\n".toList

/-- `print_meshes` and its siblings (`scene.ipp` 1157-1215): `title` is `Meshes`, `Lights`, … and `ty o` is `type()` of the object. The
loop writes `" - "` and `get_info()` of each object of the registry. -/
def listing (title : Text) (ty : Obj → Name) (r : Reg) : Text :=
  title ++ loaded r.objects.length ++ r.objects.flatMap fun o => [' ', '-', ' '] ++ objInfo (ty o) o (r.nameOf o)

/-- The sizes `print_contents` reads (`scene.ipp` 1239-1256). -/
structure Sizes where
  stars : Nat
  cameras : Nat
  geometries : Nat
  materials : Nat
  spectralTextures : Nat
  monoTextures : Nat
  vec3Textures : Nat
  lights : Nat
  unresolved : Nat
  models : Nat

/-- `print_contents` (`scene.ipp` 1236-1259); `graph` is what `print_graph` writes. -/
def contents (s : Sizes) (graph : Text) : Text :=
  "Scene Contents:\n".toList ++ (" - Stars".toList ++ loaded s.stars) ++ (" - CameraModels".toList ++ loaded s.cameras) ++
  (" - Meshes".toList ++ loaded s.geometries) ++ ("    - Materials".toList ++ loaded s.materials) ++
  ("    - Textures".toList ++ loaded (s.spectralTextures + s.monoTextures + s.vec3Textures)) ++
  (" - Lights".toList ++ loaded s.lights) ++ (" - UnresolvedObjects".toList ++ loaded s.unresolved) ++
  (" - Models".toList ++ loaded s.models) ++ "Scene Graph:\n".toList ++ graph

/-! ## Specification -/

/-- The objects in the scene after a history, in the order they were added. -/
def InOrder (ty : Obj → Name) (ops : List Op) (l : List Obj) : Prop :=
  l.Pairwise (· < ·) ∧ ∀ o, o ∈ l ↔ Live (run ty init ops).2 o

/-- The number of objects in the scene after a history. -/
noncomputable def count (ty : Obj → Name) (ops : List Op) : Nat := {o | Live (run ty init ops).2 o}.ncard

/-- The name the scene's own interface reports. -/
def reported (ty : Obj → Name) (ops : List Op) (o : Obj) : Name :=
  match Registry.answer ty ops (.query o) with
  | .named n => n
  | _ => []

/-- What is said about an object: class, number and name. -/
def entry (ty : Obj → Name) (ops : List Op) (o : Obj) : Text := [' ', '-', ' '] ++ objInfo (ty o) o (reported ty ops o)

/-- C163 in full: after every history a listing is a first line with the number of objects, and then a line for each object, in
the order they were added. -/
def C163_full (title : Text) (ty : Obj → Name) : Prop :=
  ∀ ops : List Op, ∃ l, InOrder ty ops l ∧
    listing title ty (run ty init ops).1.reg = title ++ loaded (count ty ops) ++ l.flatMap fun o => entry ty ops o ++ ['\n']

/-! ## Proof -/

theorem sorted_step (ty : Obj → Name) (w : World) (hi : Inv w) (hs : w.reg.objects.Pairwise (· < ·)) (op : Op) :
    (Registry.step ty w op).1.reg.objects.Pairwise (· < ·) := by
  cases op with
  | create name =>
    simp only [Registry.step, Registry.add]
    generalize (if name = [] then ty w.next ++ ['.'] ++ decimal w.next else name) = nm
    obtain ⟨n, hn⟩ := Registry.makeUnique_terminates w.reg.map nm
    simp only [hn]
    rw [List.pairwise_append]
    exact ⟨hs, List.pairwise_singleton _ _, fun a ha b hb => by
      rw [List.mem_singleton] at hb
      rw [hb]
      exact hi.fresh a ha⟩
  | rename k name =>
    simp only [Registry.step]
    split
    · split
      · exact hs
      · next h => simpa [Registry.setName_objects h] using hs
    · exact hs
  | delete k =>
    simp only [Registry.step]
    split
    · split
      · exact hs
      · next h =>
        simp only [Registry.remove] at h
        split at h
        · cases h
          exact hs.sublist List.erase_sublist
        · cases h
    · exact hs
  | lookup name => simp only [Registry.step]; split <;> exact hs
  | query k => simp only [Registry.step]; split <;> exact hs

theorem sorted_run (ty : Obj → Name) (ops : List Op) : ∀ w : World, Inv w → w.reg.objects.Pairwise (· < ·) →
    (run ty w ops).1.reg.objects.Pairwise (· < ·) := by
  induction ops with
  | nil => intro w _ hs; exact hs
  | cons op ops ih => intro w hi hs; exact ih _ (Registry.inv_step ty w op hi) (sorted_step ty w hi hs op)

theorem inOrder_objects (ty : Obj → Name) (ops : List Op) : InOrder ty ops (run ty init ops).1.reg.objects :=
  ⟨sorted_run ty ops init inv_init .nil, fun o => (live_iff ty ops o).symm⟩

theorem inOrder_unique {ty : Obj → Name} {ops : List Op} {l l' : List Obj} (h : InOrder ty ops l) (h' : InOrder ty ops l') : l = l' := by
  have hp : l.Perm l' := (List.perm_ext_iff_of_nodup (h.1.imp fun x => Nat.ne_of_lt x) (h'.1.imp fun x => Nat.ne_of_lt x)).2
    fun o => (h.2 o).trans (h'.2 o).symm
  exact List.Perm.eq_of_pairwise (fun a b _ _ h1 h2 => absurd h1 (Nat.not_lt_of_lt h2)) h.1 h'.1 hp

theorem length_count (ty : Obj → Name) (ops : List Op) {l : List Obj} (h : InOrder ty ops l) : l.length = count ty ops := by
  unfold count
  have : {o | Live (run ty init ops).2 o} = (l.toFinset : Set Obj) := by
    ext o
    simp [h.2 o]
  rw [this, Set.ncard_coe_finset, List.toFinset_card_of_nodup (h.1.imp fun x => Nat.ne_of_lt x)]

theorem reported_name (ty : Obj → Name) (ops : List Op) (o : Obj) (ho : o ∈ (run ty init ops).1.reg.objects) :
    reported ty ops o = (run ty init ops).1.reg.nameOf o := by
  have hv := ((inv_run ty ops init inv_init).valid o).2 ho
  simp [reported, Registry.answer, Registry.step, hv]

/-- C163: the first line has the number of objects in the scene, and every object is there once, in the order they were added, with
its class, number and the name the scene knows it by; but all of them follow each other on one line. -/
theorem C163_partial (title : Text) (ty : Obj → Name) (ops : List Op) : ∃ l, InOrder ty ops l ∧
    listing title ty (run ty init ops).1.reg = title ++ loaded (count ty ops) ++ l.flatMap (entry ty ops) := by
  refine ⟨_, inOrder_objects ty ops, ?_⟩
  unfold listing
  rw [length_count ty ops (inOrder_objects ty ops)]
  congr 1
  rw [List.flatMap_def, List.flatMap_def]
  congr 1
  refine List.map_congr_left fun o ho => ?_
  rw [entry, reported_name ty ops o ho]

theorem entries_longer (ty : Obj → Name) (ops : List Op) (l : List Obj) :
    (l.flatMap fun o => entry ty ops o ++ ['\n']).length = (l.flatMap (entry ty ops)).length + l.length := by
  induction l with
  | nil => rfl
  | cons a l ih => simp only [List.flatMap_cons, List.length_append, List.length_cons, List.length_nil, ih]; omega

/-- C163 is violated by every history that leaves an object in the scene: no line ends after an object. -/
theorem C163_violated (title : Text) (ty : Obj → Name) (ops : List Op) (o : Obj) (ho : Live (run ty init ops).2 o) :
    ¬ ∃ l, InOrder ty ops l ∧
      listing title ty (run ty init ops).1.reg = title ++ loaded (count ty ops) ++ l.flatMap fun o => entry ty ops o ++ ['\n'] := by
  rintro ⟨l, hl, he⟩
  obtain ⟨l', hl', he'⟩ := C163_partial title ty ops
  cases inOrder_unique hl hl'
  rw [he'] at he
  have h1 := congrArg List.length (List.append_cancel_left he)
  rw [entries_longer] at h1
  have : o ∈ l := (hl.2 o).2 ho
  have := List.length_pos_of_mem this
  omega

theorem C163_violated_full (title : Text) (ty : Obj → Name) : ¬ C163_full title ty := by
  intro h
  refine C163_violated title ty [.create ['a']] 0 ?_ (h [.create ['a']])
  rw [live_iff]
  simp [run, Registry.step, Registry.add, init, Registry.makeUnique, Registry.makeUniqueFuel, Registry.contains, Registry.find]

/-- C163: if no class and no name has a line break, a listing has exactly one, whatever the number of objects. -/
theorem C163_one_line_partial (title : Text) (ty : Obj → Name) (ops : List Op) (ht : '\n' ∉ title) (hty : ∀ o, '\n' ∉ ty o)
    (hn : ∀ o, Live (run ty init ops).2 o → '\n' ∉ reported ty ops o) :
    (listing title ty (run ty init ops).1.reg).count '\n' = 1 := by
  obtain ⟨l, hl, he⟩ := C163_partial title ty ops
  have hd : ∀ k, '\n' ∉ decimal k := SceneGraph.decimal_plain
  have h0 : (l.flatMap (entry ty ops)).count '\n' = 0 := by
    rw [List.count_eq_zero, List.mem_flatMap]
    rintro ⟨o, ho, hm⟩
    have := hn o ((hl.2 o).1 ho)
    unfold entry objInfo at hm
    simp [hty o, hd] at hm
    exact this hm.2
  have h1 : title.count '\n' = 0 := List.count_eq_zero.2 ht
  have h2 : (loaded (count ty ops)).count '\n' = 1 := by
    unfold loaded
    rw [List.count_append, List.count_append, List.count_eq_zero.2 (hd _)]
    decide
  rw [he, List.count_append, List.count_append, h0, h1, h2]

/-! ### Reading a listing back -/

theorem loaded_inj {a b : Nat} {r r' : Text} (h : loaded a ++ r = loaded b ++ r') : a = b ∧ r = r' := by
  unfold loaded at h
  have no : ∀ k, ' ' ∉ decimal k := fun k hm => absurd (decimal_digits _ _ _ hm) (by decide)
  rw [show " loaded\n".toList = ' ' :: "loaded\n".toList from rfl] at h
  simp only [List.append_assoc, List.cons_append, List.nil_append, List.cons.injEq, true_and] at h
  obtain ⟨h1, h2⟩ := split_at (no a) (no b) h
  exact ⟨decimal_inj h1, List.append_cancel_left h2⟩

theorem objInfo_inj {t t' : Text} {i j : Nat} {n n' : Text} (ht : '[' ∉ t) (ht' : '[' ∉ t') (h : objInfo t i n = objInfo t' j n') :
    t = t' ∧ i = j ∧ n = n' := by
  unfold objInfo at h
  simp only [List.append_assoc, List.cons_append] at h
  obtain ⟨h1, h2⟩ := split_at ht ht' h
  obtain ⟨h3, h4⟩ := SceneGraph.number_at h2
  refine ⟨h1, h3, ?_⟩
  split at h4 <;> split at h4 <;> simp_all

/-- What a listing says about an object. -/
def described (ty : Obj → Name) (ops : List Op) (o : Obj) : Text × Nat × Name := (ty o, o, reported ty ops o)

theorem dash_free (ty : Obj → Name) (ops : List Op) (o : Obj) (ht : '-' ∉ ty o) (hn : '-' ∉ reported ty ops o) :
    '-' ∉ objInfo (ty o) o (reported ty ops o) := by
  have hd : '-' ∉ decimal o := fun hm => absurd (decimal_digits _ _ _ hm) (by decide)
  unfold objInfo
  simp [ht, hd]
  exact fun _ => hn

/-- The part of a listing after the first dash of an object. -/
theorem tails_inj {ty ty' : Obj → Name} {ops ops' : List Op} : ∀ {l l' : List Obj}, l.length = l'.length →
    (∀ o ∈ l, '-' ∉ ty o ∧ '[' ∉ ty o ∧ '-' ∉ reported ty ops o) → (∀ o ∈ l', '-' ∉ ty' o ∧ '[' ∉ ty' o ∧ '-' ∉ reported ty' ops' o) →
    l.flatMap (entry ty ops) = l'.flatMap (entry ty' ops') → l.map (described ty ops) = l'.map (described ty' ops') := by
  intro l
  induction l with
  | nil => intro l' hl _ _ _; rw [List.length_eq_zero_iff.1 hl.symm]; rfl
  | cons a l ih =>
    intro l' hl h h' he
    cases l' with
    | nil => simp at hl
    | cons b l' =>
      have ha := h a List.mem_cons_self
      have hb := h' b List.mem_cons_self
      have ra := fun o ho => h o (List.mem_cons_of_mem _ ho)
      have rb := fun o ho => h' o (List.mem_cons_of_mem _ ho)
      simp only [List.length_cons, Nat.add_right_cancel_iff] at hl
      have da := dash_free ty ops a ha.1 ha.2.2
      have db := dash_free ty' ops' b hb.1 hb.2.2
      have key : objInfo (ty a) a (reported ty ops a) = objInfo (ty' b) b (reported ty' ops' b) ∧
          l.flatMap (entry ty ops) = l'.flatMap (entry ty' ops') := by
        simp only [List.flatMap_cons, entry, List.append_assoc, List.cons_append, List.nil_append, List.cons.injEq, true_and] at he
        cases l with
        | nil =>
          have := List.length_eq_zero_iff.1 hl.symm
          subst this
          simpa using he
        | cons c l =>
          cases l' with
          | nil => simp at hl
          | cons d l' =>
            simp only [List.flatMap_cons, entry, List.append_assoc, List.cons_append, List.nil_append] at he ⊢
            have e1 : ∀ (x : Text) (r : Text), x ++ ' ' :: '-' :: r = (x ++ [' ']) ++ '-' :: r := by simp
            rw [e1, e1] at he
            obtain ⟨h1, h2⟩ := split_at (by simp [da]) (by simp [db]) he
            exact ⟨List.append_cancel_right h1, by rw [h2]⟩
      obtain ⟨e1, e2, e3⟩ := objInfo_inj ha.2.1 hb.2.1 key.1
      rw [List.map_cons, List.map_cons, ih hl ra rb key.2]
      congr 1
      simp only [described]
      rw [e1, e3, e2]

/-- C163: names without a dash can be read back: two listings are the same text only if they are of the same objects, with the same
classes, numbers and names, in the same order. -/
theorem C163_read_back_partial (title : Text) (ty ty' : Obj → Name) (ops ops' : List Op) (l l' : List Obj)
    (hl : InOrder ty ops l) (hl' : InOrder ty' ops' l')
    (h : ∀ o ∈ l, '-' ∉ ty o ∧ '[' ∉ ty o ∧ '-' ∉ reported ty ops o)
    (h' : ∀ o ∈ l', '-' ∉ ty' o ∧ '[' ∉ ty' o ∧ '-' ∉ reported ty' ops' o)
    (he : listing title ty (run ty init ops).1.reg = listing title ty' (run ty' init ops').1.reg) :
    l.map (described ty ops) = l'.map (described ty' ops') := by
  obtain ⟨m, hm, hme⟩ := C163_partial title ty ops
  obtain ⟨m', hm', hme'⟩ := C163_partial title ty' ops'
  cases inOrder_unique hl hm
  cases inOrder_unique hl' hm'
  rw [hme, hme', List.append_assoc, List.append_assoc] at he
  obtain ⟨h1, h2⟩ := loaded_inj (List.append_cancel_left he)
  exact tails_inj ((length_count ty ops hl).trans (h1.trans (length_count ty' ops' hl').symm)) h h' h2

/-- C163 is violated: scenes with differently named objects can have the same listing. -/
theorem C163_violated_names (title : Text) : ∃ ops ops' : List Op, ∃ o : Obj,
    Live (run (fun _ => "Mesh".toList) init ops).2 o ∧ Live (run (fun _ => "Mesh".toList) init ops').2 o ∧
    reported (fun _ => "Mesh".toList) ops o ≠ reported (fun _ => "Mesh".toList) ops' o ∧
    listing title (fun _ => "Mesh".toList) (run (fun _ => "Mesh".toList) init ops).1.reg =
      listing title (fun _ => "Mesh".toList) (run (fun _ => "Mesh".toList) init ops').1.reg := by
  refine ⟨[.create "x".toList, .create "y - Mesh[1] z".toList], [.create "x - Mesh[1] y".toList, .create "z".toList], 0, ?_, ?_, ?_, ?_⟩
  · rw [live_iff]; decide
  · rw [live_iff]; decide
  · decide
  · unfold listing
    rw [List.append_assoc, List.append_assoc]
    congr 1

/-! ### The summary -/

/-- C163: the summary gives the sizes, and they can be read back from it (the three kinds of textures only as their sum). -/
theorem C163_contents (s s' : Sizes) (g g' : Text) (h : contents s g = contents s' g') :
    s.stars = s'.stars ∧ s.cameras = s'.cameras ∧ s.geometries = s'.geometries ∧ s.materials = s'.materials ∧
    s.spectralTextures + s.monoTextures + s.vec3Textures = s'.spectralTextures + s'.monoTextures + s'.vec3Textures ∧
    s.lights = s'.lights ∧ s.unresolved = s'.unresolved ∧ s.models = s'.models ∧ g = g' := by
  unfold contents at h
  simp only [List.append_assoc] at h
  have h := List.append_cancel_left (List.append_cancel_left h)
  obtain ⟨h1, h⟩ := loaded_inj h
  obtain ⟨h2, h⟩ := loaded_inj (List.append_cancel_left h)
  obtain ⟨h3, h⟩ := loaded_inj (List.append_cancel_left h)
  obtain ⟨h4, h⟩ := loaded_inj (List.append_cancel_left h)
  obtain ⟨h5, h⟩ := loaded_inj (List.append_cancel_left h)
  obtain ⟨h6, h⟩ := loaded_inj (List.append_cancel_left h)
  obtain ⟨h7, h⟩ := loaded_inj (List.append_cancel_left h)
  obtain ⟨h8, h⟩ := loaded_inj (List.append_cancel_left h)
  exact ⟨h1, h2, h3, h4, h5, h6, h7, h8, List.append_cancel_left h⟩

set_option maxRecDepth 100000 in
example : contents ⟨3, 1, 2, 1, 1, 1, 0, 1, 0, 0⟩ "root\n".toList =
    ("Scene Contents:\n - Stars: 3 loaded\n - CameraModels: 1 loaded\n - Meshes: 2 loaded\n    - Materials: 1 loaded\n" ++
     "    - Textures: 2 loaded\n - Lights: 1 loaded\n - UnresolvedObjects: 0 loaded\n - Models: 0 loaded\nScene Graph:\nroot\n").toList := by
  decide

example : listing "Meshes".toList (fun _ => "Mesh".toList)
    (run (fun _ => "Mesh".toList) init [.create "a".toList, .create "b".toList, .create "c".toList, .delete 1]).1.reg =
    "Meshes: 2 loaded\n - Mesh[0] a - Mesh[2] c".toList := by
  decide

/-! ## Pruning (C164) -/

/-- Assets of a scene: those in its registries, what each refers to (a primitive to its geometry, material and medium, a material to its
BSDF and textures, a medium to its density field and phase function, a model to what its frames show), and those the instances of
the scene graph show (`scene.hpp` 237-256, `instance.hpp` 32-37). -/
structure Assets where
  registered : List Nat
  refers : Nat → List Nat
  instances : List Nat

/-- An asset the scene graph shows, directly or through other assets. -/
inductive Referenced (s : Assets) : Nat → Prop
  | shown {a} : a ∈ s.instances → Referenced s a
  | through {a b} : Referenced s a → b ∈ s.refers a → Referenced s b

/-- `prune_unreferenced_assets` (`scene.ipp` 1104-1107): its body is empty. -/
def prune (s : Assets) : Assets := s

/-- C164 in full, for one scene: what is documented (`scene.ipp` 1102, scene_py.ipp 594-596): the assets the scene graph does not show are
removed, and only those. -/
def Pruned (s : Assets) : Prop := ∀ a, a ∈ (prune s).registered ↔ a ∈ s.registered ∧ Referenced s a

def C164_full : Prop := ∀ s : Assets, Pruned s

/-- C164: it holds exactly of the scenes in which there is nothing to remove. -/
theorem C164_partial (s : Assets) : Pruned s ↔ ∀ a ∈ s.registered, Referenced s a :=
  ⟨fun h a ha => ((h a).1 ha).2, fun h a => ⟨fun ha => ⟨ha, h a ha⟩, fun ha => ha.1⟩⟩

/-- C164: nothing the scene graph shows is removed, and the graph and the references are left as they are. -/
theorem C164_safe_partial (s : Assets) : (∀ a ∈ s.registered, Referenced s a → a ∈ (prune s).registered) ∧
    (prune s).instances = s.instances ∧ (prune s).refers = s.refers := ⟨fun _ ha _ => ha, rfl, rfl⟩

/-- C164 is violated by every scene with an asset the graph does not show. -/
theorem C164_violated (s : Assets) (a : Nat) (ha : a ∈ s.registered) (hn : ¬ Referenced s a) :
    ¬ Pruned s ∧ a ∈ (prune s).registered := ⟨fun h => hn ((h a).1 ha).2, ha⟩

/-- A primitive (0) with its mesh (1) is shown; another mesh (2) is not. -/
theorem C164_violated_full : ¬ C164_full := by
  intro h
  refine (C164_violated ⟨[0, 1, 2], fun a => if a = 0 then [1] else [], [0]⟩ 2 (by simp) fun hr => ?_).1 (h _)
  have : ∀ a, Referenced ⟨[0, 1, 2], fun a => if a = 0 then [1] else [], [0]⟩ a → a = 0 ∨ a = 1 := by
    intro a ha
    induction ha with
    | shown hm => simp at hm; exact .inl hm
    | through _ hb ih =>
      rcases ih with rfl | rfl <;> simp at hb
      exact .inr hb
  rcases this 2 hr with h | h <;> simp at h

end Huira.Listing
